import Verif.Gather.Model
import Verif.Eval.Kernels
/-!
# Evaluation and the variable table (C61): model

Model of `jitc_eval_impl()`, `jitc_eval_rollback()` (src/eval.cpp:927-1218) and
`jitc_var_eval()` (src/var.cpp:1653-1728) on the variable table.  Traversal, sorting and
partitioning are the functions of `Verif.Eval`.  Code generation and kernel launches
(`jitc_assemble`, `jitc_run`) are a parameter, see `Env.launch`.

Not modelled: variables with callbacks (`extra`), operations that keep operands outside of
`Variable::dep` (calls, loops, ray tracing, packet scatters, textures), which the model treats like
operations without such operands.
-/
namespace Verif.Jit
open Verif.Var Verif.Ops

/-- Outcome of generating and launching the kernels (src/eval.cpp:1141-1149): device memory afterwards
and, if no exception was raised, the buffers `sv.data` of the outputs.  A failure may happen after
some of the kernels ran. -/
inductive Launched where
  | failed (mem : BitVec 64 → Nat → BitVec 64)
  | ok (data : Nat → BitVec 64) (mem : BitVec 64 → Nat → BitVec 64)

/-- What the model of evaluation takes as given: the sorting functions of the C++ library, the state
of the generation counter, and the generation and launch of kernels for a sorted schedule and a list
of roots. -/
structure Env where
  stdSort : List Eval.Bucket → List Eval.Bucket
  stableSort : List Eval.SV → List Eval.SV
  taskSort : List Eval.Task → List Eval.Task
  gen : Eval.Gen.St
  launch : Store → List Eval.SV → List Nat → Launched

/-- `VarKind::Scatter` (src/internal.h:31-215). -/
def scatterKind : Kind := .other 57

/-- The variable is in use, as `jitc_var()` sees it (src/var.cpp:489-498). -/
def inUse (s : Store) (i : Nat) : Bool :=
  !(decide (i = 0) || decide (i ≥ s.len) ||
    (decide ((s.vars i).refCount = 0) && decide ((s.vars i).refCountSe = 0)))

/-- A variable as seen by `jitc_var_traverse()` (src/eval.cpp:168-347).  The only operand of a pointer
variable is `dep[3]`; the traversal never reaches it because `dep[0]` is empty.  For pointers that
allow writes, the model leaves out the operand altogether. -/
def nodeOf (s : Store) (i : Nat) : Option Eval.Node :=
  if inUse s i then
    some { kind := if (s.vars i).kind = scatterKind then .scatter (s.vars (s.vars i).d0).d3 else .plain
           dep := (s.vars i).refs, scope := (s.vars i).scope, size := (s.vars i).size
           consumed := (s.vars i).consumed }
  else none

/-- Scatters have a pointer operand with a target, as created by `jitc_var_scatter()`
(src/op.cpp:3030-3075).  Otherwise `jitc_elide_scatter()` terminates the process.  Pending side effects
are variables (src/var.cpp:1369-1383). -/
def wellFormed (s : Store) : Bool := s.sideEffects.all (fun i => decide (i ≠ 0)) &&
  (List.range s.len).all fun i => !inUse s i || !decide ((s.vars i).kind = scatterKind) ||
    (!(s.vars i).writePtr && decide ((s.vars i).d0 ≠ 0) && decide ((s.vars (s.vars i).d0).d3 ≠ 0))

/-- `jitc_elide_scatter()` (src/eval.cpp:157-165). -/
def elide (i : Nat) : M Bool := do
  let v ← getVar i
  if v.kind = scatterKind then do
    let p ← getVar v.d0
    let t ← getVar p.d3
    pure (decide (t.refCount = 0))
  else pure false

/-- Collection of the roots (src/eval.cpp:1044-1052).  `scheduled` holds weak references: index and
counter.  The table never shrinks, the counter of a slot changes when its variable dies, and only
nodes are scheduled (src/var.cpp:1653-1673). -/
def collectRoots : List (Nat × Nat) → M (List Nat)
  | [] => pure []
  | (i, c) :: l => do
    let s ← getStore
    if i ≥ s.len then stop .unmodelled
    else do
      let w ← getWeak i c
      match w with
      | none => collectRoots l
      | some v =>
        if v.isEvaluated then collectRoots l
        else if !v.isNode || !inUse s i then stop .unmodelled
        else do
          incRefV i
          let r ← collectRoots l
          pure (i :: r)

/-- The flag `side_effect` is only ever cleared by a successful evaluation.  The model does not follow
variables that leave the queue without evaluation and stay in use. -/
def dropSe : List Nat → M Unit
  | [] => pure ()
  | i :: l => do
    decRef i
    let s ← getStore
    if inUse s i then stop .unmodelled else dropSe l

/-- Collection of the side effects (src/eval.cpp:1056-1067).  Only nodes have side effects. -/
def collectSe : List Nat → M (List Nat)
  | [] => pure []
  | i :: l => do
    let b ← elide i
    if b then do
      dropSe [i]
      collectSe l
    else do
      let v ← getVar i
      if !v.isNode || v.writePtr then stop .unmodelled
      else do
        let r ← collectSe l
        pure (i :: r)

def decRefs : List Nat → M Unit
  | [] => pure ()
  | i :: l => do decRef i; decRefs l

def incRefs : List Nat → M Unit
  | [] => pure ()
  | i :: l => do incRef i; incRefs l

/-- A variable whose operands were cleared (src/eval.cpp:1207-1208). -/
def _root_.Verif.Var.Var.bare (v : Var) : Var := { v with d0 := 0, d1 := 0, d2 := 0, d3 := 0 }

/-- A variable that became an array in memory (src/eval.cpp:1190-1208). -/
def _root_.Verif.Var.Var.stored (v : Var) (p : BitVec 64) : Var :=
  { v.bare with kind := .evaluated, literal := p, consumed := false, scope := if v.isArray then 0 else 1 }

/-- The update of a root or side effect in the cleanup loop (src/eval.cpp:1188-1210). -/
def _root_.Verif.Var.Store.strip (s : Store) (i : Nat) (out : Bool) (p : BitVec 64) : Store :=
  let v := s.vars i
  let s1 := (s.lvnDrop i).set i (if out then v.stored p else v.bare)
  if out && !v.retainData then { s1 with acquired := p :: s1.acquired } else s1

/-- The cleanup loop (src/eval.cpp:1161-1217).  `out` are the variables with `output_flag`, `se` those
with `side_effect`.  `pend` are the references that the queue of side effects owned and that were not
released yet; the result are those that are left at the end. -/
def cleanup (data : Nat → BitVec 64) : List Eval.SV → List Nat → List Nat → List Nat → M (List Nat)
  | [], _, _, pend => pure pend
  | x :: l, out, se, pend => do
    let v ← getVar x.index
    if x.index ∉ out ∧ x.index ∉ se then do
      decRef x.index
      cleanup data l out se pend
    else if v.writePtr then stop .unmodelled
    else do
      let done := decide (x.index ∈ out) && decide (v.size = x.size)
      modifyStore (fun s => s.strip x.index done (data x.index))
      decRef x.index
      decRefs (if x.index ∈ se then [x.index] else [])
      decRefs [v.d0, v.d1, v.d2, v.d3]
      cleanup data l (if done then out.filter (· ≠ x.index) else out) (se.filter (· ≠ x.index))
        (if x.index ∈ se then pend.erase x.index else pend)

/-- The part of `jitc_eval_impl()` after the traversals (src/eval.cpp:1104-1217) and, if a launch
fails, `jitc_eval_rollback()` (src/eval.cpp:927-977). -/
def runKernels (E : Env) (sched : List Eval.SV) (roots se : List Nat) : M (List Nat) := do
  incRefs (sched.map Eval.SV.index)
  decRefs roots
  if sched = [] then pure se
  else if sched.length ≥ 2 ^ 32 then stop .limit
  else
    match Eval.scheduleSort E.stdSort E.stableSort sched with
    | none => abort
    | some out => do
      let s ← getStore
      match E.launch s out roots with
      | .failed mem => do
        modifyStore (fun s => { s with mem := mem })
        decRefs (out.map Eval.SV.index)
        dropSe se
        raise
      | .ok data mem => do
        modifyStore (fun s => { s with mem := mem })
        cleanup data out roots se se

/-- `jitc_eval_impl()` with `jitc_eval_rollback()` in case of exceptions (src/eval.cpp:927-1218) for a
thread with the given scheduled variables.  The result lists references of the queue of side effects
that were lost.  The references that the traversal takes (src/eval.cpp:345) are taken afterwards;
if the traversal raises an exception, they cancel with the rollback.  `ts->scheduled` is cleared
by the caller. -/
def evalImpl (E : Env) (scheduled : List (Nat × Nat)) : M (List Nat) := do
  let s0 ← getStore
  if wellFormed s0 = false then stop .unmodelled
  else do
    let roots ← collectRoots scheduled
    let s1 ← getStore
    modifyStore (fun s => { s with sideEffects := [] })
    let se ← collectSe s1.sideEffects
    let s ← getStore
    let tasks := roots.map (fun i => (⟨(s.vars i).size, i, false⟩ : Eval.Task)) ++
      se.map (fun i => (⟨(s.vars i).size, i, true⟩ : Eval.Task))
    match Eval.runTasks (nodeOf s) (fun t => (s.vars t).refCount) (2 * s.len + 1) (E.taskSort tasks)
        ⟨E.gen, [], []⟩ with
    | .error .raise => do
      decRefs roots
      dropSe se
      raise
    | .error _ => abort
    | .ok t => runKernels E t.sched roots se

/-- `jit_eval()`.  The model does not follow executions in which references were lost. -/
def evalJit (E : Env) (scheduled : List (Nat × Nat)) : M Unit := do
  let l ← evalImpl E scheduled
  if l = [] then pure () else stop .unmodelled

/-- `jitc_var_eval(index, true)` (src/var.cpp:1653-1728) when nothing else is scheduled. -/
def varEval (E : Env) (i : Nat) : M Unit := do
  let v ← getVar i
  if v.symbolic then raise
  else if v.consumed then raise
  else if !v.isNode && !v.isDirty then pure ()
  else do
    evalJit E (if v.isNode then [(i, v.counter)] else [])
    let w ← getVar i
    if w.isDirty then raise
    else if !w.isEvaluated || decide (w.literal = 0#64) then raise
    else pure ()

end Verif.Jit
