import Verif.Eval.Gen
import Verif.Eval.Sort

/-!
# Graph traversal of `jit_eval()` (C19, C49): model and specification

Model of `jitc_elide_scatter` and `jitc_var_traverse` (src/eval.cpp:157-347) and of
the part of `jitc_eval_impl` (src/eval.cpp:1034-1137) that collects the tasks, runs
the traversals and partitions the schedule into kernels.
-/

namespace Verif.Eval

open Gen (Visit)

/-- The parts of a variable's kind and payload that steer the traversal
(src/eval.cpp:175-318). Kinds with the same treatment are merged: `extra` stands
for TraceRay, PacketScatter, the texture operations and ScatterCAS, `plain` for
every kind without a case of its own. -/
inductive Kind where
  | plain
  /-- `Scatter`; `target` is the variable behind its pointer operand. -/
  | scatter (target : Nat)
  | arrayWrite (buffer : Nat)
  /-- `LoopPhi` with the loop's `outer_in` / `inner_out` entries; `none` if the
  loop was optimized away. -/
  | loopPhi (data : Option (Nat × Nat))
  /-- `LoopOutput` with `inner_out`, `outer_in`, `inner_in`. -/
  | loopOutput (data : Option (Nat × Nat × Nat))
  | callInput
  /-- `Call`: `optimize`, `outer_in`, all of `inner_out`, `side_effects`. -/
  | call (optimize : Bool) (outerIn innerOut sideEffects : List Nat)
  /-- `CallOutput` with its column of the `inner_out` table. -/
  | callOutput (innerOut : List Nat)
  | coopVecPack (indices : List Nat)
  | extra (indices : List Nat)
  deriving DecidableEq, Repr

/-- A variable as seen by the traversal. `dep` holds the four operand fields. -/
structure Node where
  kind : Kind
  dep : List Nat
  scope : Nat
  size : Nat
  consumed : Bool := false
  deriving DecidableEq, Repr

/-- A recursive visit, or an entry added to `visit_later`. -/
inductive Act where
  | visit (i d : Nat)
  | later (i d : Nat)
  deriving DecidableEq, Repr

/-- The kind-specific part (src/eval.cpp:181-318), in program order, apart from the
kinds that return early. -/
def kindActs (k : Kind) (d : Nat) : List Act :=
  match k with
  | .arrayWrite b => [.visit b d]
  | .loopPhi (some (oi, io)) => [.visit oi d, .later io d]
  | .loopOutput (some (io, oi, ii)) => [.visit io d, .visit oi d, .visit ii d]
  | .call opt oi io se =>
    (if opt then [] else oi.map (.visit · d) ++ io.map (.visit · (d + 1))) ++
      se.map (.visit · (d + 1))
  | .callOutput io => io.map (.visit · (d + 1))
  | .coopVecPack l => (l.filter (· ≠ 0)).map (.visit · d)
  | .extra l => l.map (.visit · d)
  | _ => []

/-- The operand loop (src/eval.cpp:320-325): stop at the first empty operand. -/
def depActs (nd : Node) (d : Nat) : List Act :=
  (nd.dep.takeWhile (· ≠ 0)).map (.visit · d)

/-- Traversal state. -/
structure TS where
  gen : Gen.St
  sched : List SV
  later : List (Nat × Nat)

inductive Err where
  /-- `jitc_raise`. -/
  | raise
  /-- Access to a variable that does not exist (`jitc_fail`). -/
  | fail
  /-- The recursion bound of the model was hit. -/
  | fuel
  deriving DecidableEq, Repr

/-- Number of references the schedule holds on `t` (`jitc_var_inc_ref`,
src/eval.cpp:216, 345). -/
def schedRefs (sched : List SV) (t : Nat) : Nat :=
  (sched.filter fun x => decide (x.index = t)).length

/-- `jitc_elide_scatter` (src/eval.cpp:157-165) for a scatter to `t`, with `refs`
the reference counts at the start of the traversals. -/
def elides (refs : Nat → Nat) (sched : List SV) (t : Nat) : Bool :=
  refs t + schedRefs sched t = 0

/-- `schedule.emplace_back(size, v->scope, index)` (src/eval.cpp:215, 344). -/
def push (size : Nat) (nd : Node) (i : Nat) (s : TS) : TS :=
  { s with sched := s.sched ++ [⟨size, nd.scope, i⟩] }

/-- Run one action with `rec` in place of the recursive call. -/
def doAct (rec : Nat → Nat → TS → Except Err TS) (s : TS) : Act → Except Err TS
  | .visit i d => rec i d s
  | .later i d => .ok { s with later := s.later ++ [(i, d)] }

/-- Run a list of actions. -/
def doActs (rec : Nat → Nat → TS → Except Err TS) : TS → List Act → Except Err TS
  | s, [] => .ok s
  | s, a :: as =>
    match doAct rec s a with
    | .ok s' => doActs rec s' as
    | .error e => .error e

/-- The end of `jitc_var_traverse` (src/eval.cpp:327-346). -/
def finish (size : Nat) (nd : Node) (i d : Nat) (s : TS) : Except Err TS :=
  if nd.consumed then .error .raise
  else if d = 0 then .ok (push size nd i s) else .ok s

/-- Kind-specific visits, operand visits and the end of the function. -/
def expand (rec : Nat → Nat → TS → Except Err TS) (size : Nat) (nd : Node) (i d : Nat)
    (s : TS) : Except Err TS :=
  match doActs rec s (kindActs nd.kind d ++ depActs nd d) with
  | .ok s' => finish size nd i d s'
  | .error e => .error e

/-- `jitc_var_traverse` (src/eval.cpp:168-347). The first argument bounds the
recursion; `trav_terminates` shows that a bound which depends only on the number
of variables is never reached. `output_flag` is left out: it is cleared here and
set again on the roots, see `Assemble.lean`. -/
def trav (g : Nat → Option Node) (refs : Nat → Nat) (size : Nat) :
    Nat → Nat → Nat → TS → Except Err TS
  | 0, _, _, _ => .error .fuel
  | f + 1, i, d, s =>
    match g i with
    | none => .error .fail
    | some nd =>
      if Gen.skips s.gen i d then .ok s
      else
        match nd.kind with
        | .scatter t =>
          if elides refs s.sched t then .ok { s with gen := Gen.traverse s.gen i d }
          else expand (trav g refs size f) size nd i d
            { s with gen := Gen.traverse s.gen i d }
        | .loopPhi none => .error .raise
        | .loopOutput none => .error .raise
        | .callInput =>
          if d = 0 then .ok (push size nd i { s with gen := Gen.traverse s.gen i d })
          else trav g refs size f (nd.dep.headD 0) (d - 1)
            { s with gen := Gen.traverse s.gen i d }
        | _ => expand (trav g refs size f) size nd i d
            { s with gen := Gen.traverse s.gen i d }

/-- The tasks of one size (src/eval.cpp:1093-1095). -/
def travTasks (g : Nat → Option Node) (refs : Nat → Nat) (size fuel : Nat) :
    TS → List Nat → Except Err TS
  | s, [] => .ok s
  | s, i :: is =>
    match trav g refs size fuel i 0 s with
    | .ok s' => travTasks g refs size fuel s' is
    | .error e => .error e

/-- The loop over `visit_later`, which grows while it is processed
(src/eval.cpp:1099-1102). -/
def travLater (g : Nat → Option Node) (refs : Nat → Nat) (size fuel : Nat) :
    Nat → Nat → TS → Except Err TS
  | 0, _, _ => .error .fuel
  | n + 1, k, s =>
    match s.later[k]? with
    | none => .ok s
    | some (i, d) =>
      match trav g refs size fuel i d s with
      | .ok s' => travLater g refs size fuel n (k + 1) s'
      | .error e => .error e

/-- One iteration of the loop over sizes (src/eval.cpp:1085-1106). -/
def travGroup (g : Nat → Option Node) (refs : Nat → Nat) (size fuel : Nat)
    (tasks : List Nat) (s : TS) : Except Err TS :=
  match travTasks g refs size fuel { s with gen := Gen.newGen s.gen } tasks with
  | .error e => .error e
  | .ok s1 =>
    match travLater g refs size fuel fuel 0 s1 with
    | .error e => .error e
    | .ok s2 => .ok { s2 with later := [] }

/-! ## Specification

The computation graph as a relation, without stamps or recursion. -/

/-- The operands of a variable: all entries up to the first empty one. -/
def operands (nd : Node) (d : Nat) : List Act :=
  (nd.dep.takeWhile (· ≠ 0)).map (.visit · d)

/-- What a variable needs at a nesting depth, kind by kind. Inside of a call
(`d > 0`), an input of the call leads to the argument outside of it; the bodies of
calls are one level deeper. A loop variable needs its initial value at once and its
loop-carried value eventually (`later`). -/
def edges (nd : Node) (d : Nat) : List Act :=
  match nd.kind with
  | .plain => operands nd d
  | .scatter _ => operands nd d
  | .arrayWrite buffer => .visit buffer d :: operands nd d
  | .loopPhi none => []
  | .loopPhi (some (outerIn, innerOut)) =>
    .visit outerIn d :: .later innerOut d :: operands nd d
  | .loopOutput none => []
  | .loopOutput (some (innerOut, outerIn, innerIn)) =>
    .visit innerOut d :: .visit outerIn d :: .visit innerIn d :: operands nd d
  | .callInput => if d = 0 then [] else [.visit (nd.dep.headD 0) (d - 1)]
  | .call true _ _ sideEffects => sideEffects.map (.visit · (d + 1)) ++ operands nd d
  | .call false outerIn innerOut sideEffects =>
    outerIn.map (.visit · d) ++ innerOut.map (.visit · (d + 1)) ++
      sideEffects.map (.visit · (d + 1)) ++ operands nd d
  | .callOutput innerOut => innerOut.map (.visit · (d + 1)) ++ operands nd d
  | .coopVecPack indices => (indices.filter (· ≠ 0)).map (.visit · d) ++ operands nd d
  | .extra indices => indices.map (.visit · d) ++ operands nd d

def Act.index : Act → Nat
  | .visit i _ => i
  | .later i _ => i

def Act.depth : Act → Nat
  | .visit _ d => d
  | .later _ d => d

/-- `(i, d)` is needed to evaluate `roots`; nothing is needed on behalf of the
variables in `cut`. -/
inductive Reach (g : Nat → Option Node) (cut : Nat → Prop) (roots : List Nat) :
    Nat → Nat → Prop where
  | root {i} : i ∈ roots → Reach g cut roots i 0
  | edge {i d nd a} : Reach g cut roots i d → g i = some nd → ¬ cut i →
      a ∈ edges nd d → Reach g cut roots a.index a.depth

/-- A scatter to a target that nobody references. -/
def Dead (g : Nat → Option Node) (refs : Nat → Nat) (i : Nat) : Prop :=
  ∃ nd t, g i = some nd ∧ nd.kind = .scatter t ∧ refs t = 0

/-- Every operand that must be available when a variable is computed was created
before it. (The loop-carried value of a `LoopPhi` is not among them, it is an
`Act.later`.) -/
def Acyclic (g : Nat → Option Node) (rank : Nat → Nat) : Prop :=
  ∀ i nd d k e, g i = some nd → Act.visit k e ∈ edges nd d → rank k < rank i

/-- Each call input belongs to one call, hence has one nesting depth. -/
def InputsAtOneDepth (g : Nat → Option Node) (roots : List Nat) : Prop :=
  ∀ i nd, g i = some nd → nd.kind = .callInput → ∀ d e,
    Reach g (fun _ => False) roots i d → Reach g (fun _ => False) roots i e → d = e

/-- `j` stands before every occurrence of `i`. -/
def Before (j i : Nat) (l : List SV) : Prop :=
  ∀ pre x post, l = pre ++ x :: post → x.index = i → j ∈ pre.map SV.index

end Verif.Eval
