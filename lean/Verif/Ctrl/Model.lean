import Verif.Ctrl.Spec

/-
Symbolic loops and conditionals (C41, C42): the recording of a program.
-/

namespace Verif.Ctrl

/-- `LoopData` (loop.h:4-13), and the condition `active`, which is `dep[1]` of the variable made by
`jitc_var_loop_cond()`. -/
structure LoopData where
  outerIn : List Nat
  innerIn : List Nat
  innerOut : List Nat
  active : Nat

/-- The kinds of variables.  `CondStart`, `CondMid`, `CondEnd`, `LoopStart`, `LoopCond` and `LoopEnd`
variables have no value; what they refer to is part of the outputs here. -/
inductive Kind where
  | lit (c : Nat)
  /-- an evaluated variable with the entries `x` -/
  | input (x : Nat → Nat)
  | op (f : List Nat → Nat) (args : List Nat)
  | phi
  | loopOut (ld : LoopData) (k : Nat)
  | condOut (c t f : Nat)

/-- A variable. -/
structure Node where
  kind : Kind
  size : Nat

/-- The variables.  Index 0 is not used. -/
structure Graph where
  node : Nat → Node := fun _ => ⟨.lit 0, 0⟩
  next : Nat := 1

/-- The settings. -/
structure Cfg where
  /-- the LLVM backend -/
  llvm : Bool
  /-- `JitFlag::OptimizeLoops` -/
  optimize : Bool
  /-- `JitFlag::ConstantPropagation` -/
  simplify : Bool
  /-- the table of local value numbering: an existing variable with the given content -/
  lvn : Graph → Node → Option Nat
  /-- the simplifications of operations: an operand that equals the result -/
  simp : Graph → (List Nat → Nat) → List Nat → Option Nat

def set {α : Type} (f : Nat → α) (i : Nat) (a : α) : Nat → α := fun j => if j = i then a else f j

/-- A new variable without value numbering (`jitc_var_new(v, true)`, var.cpp:760-850). -/
def Graph.fresh (g : Graph) (v : Node) : Graph × Nat := (⟨set g.node g.next v, g.next + 1⟩, g.next)

/-- `jitc_var_new()` (var.cpp:725-850). -/
def new (cfg : Cfg) (g : Graph) (v : Node) : Graph × Nat :=
  match cfg.lvn g v with
  | some i => (g, i)
  | none => g.fresh v

def Graph.size (g : Graph) (i : Nat) : Nat := (g.node i).size

/-- The literal, if the variable is one. -/
def Graph.literal (g : Graph) (i : Nat) : Option Nat :=
  match (g.node i).kind with
  | .lit c => some c
  | _ => none

/-- The largest size. -/
def maxSize (l : List Nat) : Nat := l.foldl max 0

/-- Sizes are equal or 1. -/
def fits (n : Nat) (l : List Nat) : Bool := l.all fun x => x == n || x == 1

/-- `jitc_var_resize()` (var.cpp:1999-2052).  A variable to which there is only one reference is
resized in place there.  That the size may be changed is checked by the caller here. -/
def resize (cfg : Cfg) (g : Graph) (i size : Nat) : Graph × Nat :=
  if g.size i = size then (g, i)
  else match g.literal i with
    | some c => new cfg g ⟨.lit c, size⟩
    | none => g.fresh ⟨.op (fun l => l.getD 0 0) [i], size⟩

/-- What is assumed about value numbering and the simplification of operations.  The first returns
variables with the requested content.  The second returns an operand with the value of the
operation, for all values of the operands that are not literals. -/
structure CfgOK (cfg : Cfg) : Prop where
  lvn : ∀ g v i, cfg.lvn g v = some i → i < g.next ∧ g.node i = v
  simp : ∀ g f args i, cfg.simp g f args = some i → ∃ k : Nat, args[k]? = some i ∧
    ∀ vs : List Nat, vs.length = args.length →
      (∀ (j a c : Nat), args[j]? = some a → g.literal a = some c → vs[j]? = some c) →
      (∀ (j j' a : Nat), args[j]? = some a → args[j']? = some a → vs[j]? = vs[j']?) →
      vs[k]? = some (f vs)

/-- Operations on variables (op.cpp; operands are checked in `jitc_var_check`, op.cpp:77-230).
Operations on literals are evaluated (`jitc_eval_literal`, op.cpp:252-278), and other operations may
be simplified to one of the operands (e.g. `x + 0`, op.cpp:512-520).  `none`: an exception. -/
def recOp (cfg : Cfg) (g : Graph) (f : List Nat → Nat) (args : List Nat) : Option (Graph × Nat) :=
  let size := maxSize (args.map g.size)
  if !fits size (args.map g.size) then none
  else
    match (if cfg.simplify then evalAll g.literal args else none) with
    | some cs => some (new cfg g ⟨.lit (f cs), size⟩)
    | none =>
      match (if cfg.simplify then cfg.simp g f args else none) with
      | some i => some (resize cfg g i size)
      | none => some (new cfg g ⟨.op f args, size⟩)

/-- The value of a selection (llvm_eval.cpp: `VarKind::Select`). -/
def selectVal : List Nat → Nat
  | [m, t, f] => if m ≠ 0 then t else f
  | _ => 0

/-- `jitc_var_select()` (op.cpp:1269-1318).  The mask is a boolean: it is 0 or 1, hence "not zero"
instead of `jitc_is_one`. -/
def select (cfg : Cfg) (g : Graph) (m t f : Nat) : Option (Graph × Nat) :=
  let sizes := [g.size m, g.size t, g.size f]
  let size := maxSize sizes
  if !fits size sizes then none
  else if t = f then some (resize cfg g t size)
  else
    match (if cfg.simplify then g.literal m else none) with
    | some 0 => some (resize cfg g f size)
    | some _ => some (resize cfg g t size)
    | none => some (new cfg g ⟨.op selectVal [m, t, f], size⟩)

/-! ### Conditionals -/

/-- One iteration of the loop of `jitc_var_cond_end()` (cond.cpp:118-186); `size` is that of the
condition.  Variables are neither arrays nor dirty here. -/
def condOutput (g : Graph) (c size t f : Nat) : Option (Graph × Nat) :=
  if t = f ∨ (g.literal t ≠ none ∧ g.literal t = g.literal f) then some (g, f)
  else
    let l := [size, g.size t, g.size f]
    if !fits (maxSize l) l then none
    else some (g.fresh ⟨.condOut c t f, size⟩)

/-- The loop of `jitc_var_cond_end()` (cond.cpp:118-186).  The number of results must agree
(`jitc_var_cond_append()`, cond.cpp:84-85). -/
def condEnd (c size : Nat) : Graph → List Nat → List Nat → Option (Graph × List Nat)
  | g, [], [] => some (g, [])
  | g, t :: ts, f :: fs => (condOutput g c size t f).bind fun (g, o) =>
      (condEnd c size g ts fs).map fun (g, os) => (g, o :: os)
  | _, _, _ => none

/-! ### Loops -/

/-- The loop of `jitc_var_loop_start()` (loop.cpp:72-89). -/
def makePhis : Graph → List Nat → Graph × List Nat
  | g, [] => (g, [])
  | g, o :: os =>
    let (g1, p) := g.fresh ⟨.phi, g.size o⟩
    let (g2, ps) := makePhis g1 os
    (g2, p :: ps)

/-- The size of the loop (loop.cpp:163-192); `active` is the condition, and the size of the variable
made by `jitc_var_loop_cond()` is that of the condition or 1 (loop.cpp:136). -/
def loopSize (g : Graph) (active : Nat) : List Nat → List Nat → List Nat → Nat
  | o :: os, q :: qs, y :: ys =>
    let r := loopSize g active os qs ys
    if y = q then r else max r (max (g.size o) (g.size y))
  | _, _, _ => max 1 (g.size active)

/-- Is the loop variable redundant?  (loop.cpp:201-219) -/
def eliminate (cfg : Cfg) (g : Graph) (size o q y : Nat) : Bool :=
  if y = q then cfg.optimize || g.size y != size
  else cfg.optimize && (g.literal o).isSome && g.literal o == g.literal y

/-- The new `inner_in` (loop.cpp:196-229). -/
def reduced (cfg : Cfg) (g : Graph) (size : Nat) : List Nat → List Nat → List Nat → List Nat
  | o :: os, q :: qs, y :: ys =>
    (if eliminate cfg g size o q y then o else q) :: reduced cfg g size os qs ys
  | _, _, _ => []

/-- `inner_out` of one loop variable (loop.cpp:263-303).  Returns the size of the loop as well. -/
def loopNext (cfg : Cfg) (g : Graph) (active size o q y : Nat) : Option (Graph × Nat × Nat) :=
  if q ≠ o then
    if g.size y ≠ size ∧ size ≠ 1 ∧ g.size y ≠ 1 then none
    else
      let size := max (g.size y) size
      if cfg.llvm then (select cfg g active y q).map fun (g, i) => (g, i, size)
      else some (g, y, size)
  else if y ≠ q ∧ ¬ ((g.literal y).isSome ∧ g.literal y = g.literal q) then none
  else some (g, q, size)

/-- `inner_out` (loop.cpp:255-306). -/
def loopNexts (cfg : Cfg) (active : Nat) : Graph → Nat → List Nat → List Nat → List Nat →
    Option (Graph × List Nat × Nat)
  | g, size, o :: os, q :: qs, y :: ys =>
    (loopNext cfg g active size o q y).bind fun (g, i, size) =>
      (loopNexts cfg active g size os qs ys).map fun (g, is, size) => (g, i :: is, size)
  | g, size, [], [], [] => some (g, [], size)
  | _, _, _, _, _ => none

/-- The results of the loop (loop.cpp:336-381). -/
def loopOuts (ld : LoopData) (size : Nat) : Graph → Nat → List Nat → List Nat → List Nat →
    Graph × List Nat
  | g, k, o :: os, q :: qs, i :: is =>
    let (g1, r) := if q ≠ o then g.fresh ⟨.loopOut ld k, size⟩ else (g, i)
    let (g2, rs) := loopOuts ld size g1 (k + 1) os qs is
    (g2, r :: rs)
  | g, _, _, _, _ => (g, [])

/-- The second part of `jitc_var_loop_end()` (loop.cpp:255-381). -/
def loopFinish (cfg : Cfg) (g : Graph) (active : Nat) (os qs ys : List Nat) :
    Option (Graph × List Nat) :=
  (loopNexts cfg active g (loopSize g active os qs ys) os qs ys).map fun (g, is, size) =>
    loopOuts ⟨os, qs, is, active⟩ size g 0 os qs is

mutual

/-- Record a statement: the variables that exist after it.  A loop is recorded in the way the caller
is supposed to do it (jit.h: `jit_var_loop_start`, `jit_var_loop_cond`, `jit_var_loop_end`): the
condition, the body, and both again if `jit_var_loop_end()` asks for it.  `none`: an exception. -/
def recS (cfg : Cfg) : Stmt → Graph → List Nat → Option (Graph × List Nat)
  | .lit c size, g, xs => let (g, i) := new cfg g ⟨.lit c, size⟩; some (g, xs ++ [i])
  | .input x size, g, xs => let (g, i) := g.fresh ⟨.input x, size⟩; some (g, xs ++ [i])
  | .op f args, g, xs => (pick xs args).bind fun is =>
      (recOp cfg g f is).map fun (g, i) => (g, xs ++ [i])
  | .ite c t f, g, xs => (xs[c]?).bind fun c => (recB cfg t g xs).bind fun (g, ts) =>
      (recB cfg f g xs).bind fun (g, fs) =>
        (condEnd c (g.size c) g ts fs).map fun (g, os) => (g, xs ++ os)
  | .loop st cond body, g, xs => (pick xs st).bind fun os =>
      let (g, ps) := makePhis g os
      (recB cfg cond g (xs ++ ps)).bind fun (g, as) => (one as).bind fun a =>
      (recB cfg body g (xs ++ ps)).bind fun (g, ys) =>
      if ys.length ≠ ps.length then none
      else
        let qs := reduced cfg g (loopSize g a os ps ys) os ps ys
        if qs = ps then (loopFinish cfg g a os ps ys).map fun (g, rs) => (g, xs ++ rs)
        else
          (recB cfg cond g (xs ++ qs)).bind fun (g, as) => (one as).bind fun a =>
          (recB cfg body g (xs ++ qs)).bind fun (g, ys) =>
          (loopFinish cfg g a os qs ys).map fun (g, rs) => (g, xs ++ rs)

/-- Record a block: its results. -/
def recB (cfg : Cfg) : Block → Graph → List Nat → Option (Graph × List Nat)
  | .ret res, g, xs => (pick xs res).map fun is => (g, is)
  | .seq s b, g, xs => (recS cfg s g xs).bind fun (g, xs) => recB cfg b g xs

end

/-! ### What a kernel computes for a variable -/

/-- The values of the loop variables at the start of an iteration.  Variables that were eliminated
have no `phi` (llvm_eval.cpp:1184-1200; cuda_eval.cpp:1380-1381). -/
def assign : List Nat → List Nat → List Nat → (Nat → Nat) → (Nat → Nat)
  | q :: qs, o :: os, v :: vs, e => if q = o then assign qs os vs e else set (assign qs os vs e) q v
  | _, _, _, e => e

/-- The value of a variable in one lane, given the values `e` of the `phi` variables of the
surrounding loops.  The first number bounds the length of the computation.  With `sp`, the lane also
executes what it does not need, as in the specification. -/
def den (sp : Bool) (g : Graph) (lane : Nat) : Nat → (Nat → Nat) → Nat → Option Nat
  | 0, _, _ => none
  | n + 1, e, i =>
    match (g.node i).kind with
    | .lit c => some c
    | .input x => some (entry x (g.node i).size lane)
    | .op f args => (evalAll (den sp g lane n e) args).map f
    | .phi => some (e i)
    | .condOut c t f => (den sp g lane n e c).bind fun b =>
      (den sp g lane n e (if b ≠ 0 then t else f)).bind fun r =>
        if sp then (den sp g lane n e (if b ≠ 0 then f else t)).map fun _ => r else some r
    | .loopOut ld k =>
      ((evalAll (den sp g lane n e) ld.outerIn).bind fun s0 =>
        whileN sp (fun s => den sp g lane n (assign ld.innerIn ld.outerIn s e) ld.active)
          (fun s => evalAll (den sp g lane n (assign ld.innerIn ld.outerIn s e)) ld.innerOut) n
          s0).bind fun s => s[k]?

end Verif.Ctrl
