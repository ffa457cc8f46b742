import Verif.Capture.Model

/-!
# What a recorded function call captures (C71): specification
-/

namespace Verif.Capture

open Verif.Eval (edges)

/-- What the code of a variable refers to, within the same function: its operands,
including those that are stored elsewhere; the arguments of a nested call; the
initial and final values of the state of a loop. An argument of the function itself
refers to nothing. -/
def refersTo (g : Graph) (nd : Node) : List Nat :=
  match nd.kind with
  | .callInput => []
  | .call d => d.outerIn ++ nd.deps
  | .loopCond =>
    (match loopOf g nd with
      | some (some l) =>
        (l.filter fun e => decide (e.outerIn ≠ e.innerIn)).flatMap
          fun e => [e.innerOut, e.outerIn]
      | _ => []) ++ nd.deps
  | .packetScatter l => l ++ nd.deps
  | .coopVecPack l => l ++ nd.deps
  | .traceRay l => l ++ nd.deps
  | .texture l => l ++ nd.deps
  | .scatterCas m => m :: nd.deps
  | _ => nd.deps

/-- The variables of a function with the given results and side effects. -/
inductive Within (g : Graph) (roots : List Nat) : Nat → Prop where
  | root {i} : i ∈ roots → Within g roots i
  | step {i j nd} : Within g roots i → g i = some nd → j ∈ refersTo g nd → Within g roots j

/-- Results and side effects of an instance. -/
def instRoots (d : CallData) (inst : Nat) : List Nat :=
  d.innerOut.getD inst [] ++ d.sideEffects.getD inst []

/-- The storage behind a local array: follow the array operand of a write, and the
initial value of a loop state variable. -/
inductive Storage (g : Graph) : Nat → Nat → Prop where
  | here (b) : Storage g b b
  | operand {i b nd j} : g i = some nd → nd.kind ≠ .callInput → j ∈ nd.deps → Storage g j b →
      Storage g i b
  | initial {i b nd k l e} : g i = some nd → nd.kind = .loopPhi k → loopOf g nd = some (some l) →
      l[k]? = some e → Storage g e.outerIn b → Storage g i b

/-- Well-formed computation graphs: how the variables of loops and calls are
connected. -/
structure Wf (g : Graph) : Prop where
  /-- variable 0 does not exist -/
  zero : g 0 = none
  /-- a loop state variable belongs to a loop, and was not eliminated from its state -/
  phi : ∀ i nd k, g i = some nd → nd.kind = .loopPhi k →
    nd.deps = [nd.dep.headD 0] ∧
      ∃ l e, loopOf g nd = some (some l) ∧ l[k]? = some e ∧ e.outerIn ≠ e.innerIn
  /-- the result of a loop refers to the loop's start and end, the latter to its
  condition -/
  output : ∀ i nd k, g i = some nd → nd.kind = .loopOutput k →
    ∃ l e, loopOf g nd = some (some l) ∧ l[k]? = some e ∧ e.outerIn ≠ e.innerIn ∧
      ∃ fin ndf c ndc, fin ∈ nd.deps ∧ g fin = some ndf ∧ ndf.kind = .plain ∧ c ∈ ndf.deps ∧
        g c = some ndc ∧ ndc.kind = .loopCond ∧ ndc.dep.headD 0 = nd.dep.headD 0
  /-- the condition of a loop refers to its start -/
  cond : ∀ i nd, g i = some nd → nd.kind = .loopCond → nd.dep.headD 0 ∈ nd.deps
  /-- inside of a loop, its state is accessed through loop state variables -/
  state : ∀ s nd l e, g s = some nd → nd.kind = .loopStart (some l) → e ∈ l →
    e.outerIn ≠ e.innerIn → ∃ ndi k, g e.innerIn = some ndi ∧ ndi.kind = .loopPhi k ∧
      ndi.dep.headD 0 = s
  /-- the result of a call refers to the call, whose instances all provide it -/
  callOutput : ∀ i nd k, g i = some nd → nd.kind = .callOutput k →
    nd.dep.headD 0 ∈ nd.deps ∧ ∃ d, callOf g nd = some d ∧ ∀ r ∈ d.innerOut, k < r.length
  /-- a write to a local array refers to the storage of the array -/
  arrayWrite : ∀ i nd b, g i = some nd → nd.kind = .arrayWrite b →
    ∃ j ∈ nd.deps, Storage g j b

/-- The body of a function with arguments `inputs`. -/
structure BodyOk (g : Graph) (inputs : List Nat) (roots : List Nat) : Prop where
  /-- the state of a loop is not accessed after the loop, other than through the
  results of the loop -/
  loops : ∀ i nd k, Within g roots i → g i = some nd → nd.kind = .loopPhi k →
    ∃ c ndc, Within g roots c ∧ g c = some ndc ∧ ndc.kind = .loopCond ∧
      ndc.dep.headD 0 = nd.dep.headD 0
  /-- the function accesses its own arguments -/
  inputs : ∀ i nd, Within g roots i → g i = some nd → nd.kind = .callInput → i ∈ inputs

/-- A call: each argument inside of the functions stands for the one outside, and all
functions are well-formed. -/
structure CallOk (g : Graph) (d : CallData) : Prop where
  lengths : d.outerIn.length = d.innerIn.length
  args : ∀ (k i : Nat) nd, d.innerIn[k]? = some i → g i = some nd → nd.kind = .callInput →
    d.outerIn[k]? = some (nd.dep.headD 0)
  bodies : ∀ inst, BodyOk g d.innerIn (instRoots d inst)

/-- No compare-exchange operation. -/
def NoCas (g : Graph) : Prop := ∀ i nd m, g i = some nd → nd.kind ≠ .scatterCas m

/-- How the results and arguments of a call are connected with the variables
outside, and what the simplifications of the recording step ensure. -/
structure CallerOk (g : Graph) (refs : Nat → Nat) (c : Nat) (d : CallData) : Prop where
  /-- the results of the call (those that still exist) refer to it, or have been
  evaluated -/
  results : ∀ (k o : Nat), d.outerOut[k]? = some (some o) → ∃ ndo, g o = some ndo ∧
    (ndo.kind = .evaluated ∨ ndo.kind = .callOutput k ∧ ndo.dep.headD 0 = c)
  /-- an argument that is a literal is not passed to the function, but replaced by
  its value -/
  literals : d.optimize = true → ∀ (k i o : Nat) nd ndo, d.innerIn[k]? = some i →
    g i = some nd → nd.kind = .callInput → d.outerIn[k]? = some o → g o = some ndo →
    ndo.kind ≠ .literal
  /-- arguments have values -/
  values : ∀ o ∈ d.outerIn, ∃ ndo, g o = some ndo ∧ ∀ t, ndo.kind ≠ .scatter t
  /-- the reference count of an argument accounts for its uses, besides the one by
  the call itself -/
  counted : ∀ i ∈ d.innerIn, ∀ nd, g i = some nd → nd.kind = .callInput →
    ((∃ r ∈ d.innerOut, i ∈ r) ∨ (∃ r ∈ d.sideEffects, i ∈ r) ∨
      ∃ j ndj n a, view g j = some ndj ∧ a ∈ edges ndj n ∧ a.index = i) → refs i ≠ 1

/-- Variables that are needed by others, or are to be computed, are referenced. -/
structure Counted (g : Graph) (refs : Nat → Nat) (roots : List Nat) : Prop where
  roots : ∀ i ∈ roots, refs i ≠ 0
  needed : ∀ j nd n a, view g j = some nd → a ∈ edges nd n → refs a.index ≠ 0

end Verif.Capture
