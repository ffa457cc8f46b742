import Verif.Ops.Model
import Verif.Var.Scope
/-!
# Model of the mask stack and of gathers (`src/var.cpp`, `src/op.cpp`)

Simplifications:
* `Ref` objects are explicit: `borrow` is `incRef`, the destructor is `decRef`.  When a function
  raises an exception, the references held by its local variables are not given back.
* `ev` is `jitc_eval()`, `evalVar` the part of `jitc_var_eval()` that evaluates an unevaluated
  variable, `alloc` is `jitc_malloc()`.
* The mask stack of the thread (`ts->mask_stack`) is a list whose head is the top.
* `cb i` states that variable `i` has a callback (`VariableExtra::callback`).
* Loop state variables (`unwrap()`), `JitFlag::Debug` and `JitFlag::FreezingScope` are not modelled.
-/
namespace Verif.Gather
open Verif.Var Verif.Ops

/-- `jitc_is_llvm()`: the backend is `JitBackend::LLVM` (include/drjit-core/jit.h:47-57). -/
def isLlvm (backend : Nat) : Bool := backend == 2

variable (ev : M Unit)

/-- `jitc_var_mask_default()` (src/var.cpp:2176-2190). -/
def maskDefault (backend size : Nat) : M Nat :=
  if size > 0xFFFFFFFF then raise
  else if isLlvm backend then do
    let c ← varCounter backend size false
    let v ← getVar c
    let r ← newNode1 ev backend .defaultMask .bool v.size v.symbolic c 0#64
    decRef c
    pure r
  else varLiteral backend .bool 1#64 size

/-- The first part of `jitc_var_mask_apply()` (src/var.cpp:2238-2247): the mask at the top of the
stack, if there is one and its size is compatible (0: no mask). -/
def maskTop (stack : List Nat) (size : Nat) : M Nat :=
  match stack with
  | [] => pure 0
  | t :: _ => do
    let w ← getVar t
    if size = 1 ∨ w.size = 1 ∨ w.size = size then do
      incRef t
      pure t
    else pure 0

/-- The second part of `jitc_var_mask_apply()` (src/var.cpp:2249-2258): the default mask. -/
def maskFix (backend size mask : Nat) : M Nat :=
  if isLlvm backend then do
    let d ← maskDefault ev backend size
    if mask = 0 then do
      incRef d
      decRef d
      pure d
    else do
      let w ← getVar mask
      let m ← if w.isEvaluated ∧ size = 1 then do
          let r ← varAnd ev mask d
          decRef mask
          pure r
        else pure mask
      decRef d
      pure m
  else pure mask

/-- `jitc_var_mask_apply(index, size)` (src/var.cpp:2231-2270). -/
def maskApply (stack : List Nat) (i size : Nat) : M Nat := do
  let v ← getVar i
  if v.type ≠ .bool then raise
  else do
    let top ← maskTop stack size
    let mask ← maskFix ev v.backend size top
    if mask ≠ 0 then do
      let r ← varAnd ev mask i
      decRef mask
      pure r
    else do
      incRef i
      let r ← varResize ev i size
      decRef i
      pure r

/-- `jitc_var_mask_push()` (src/var.cpp:2225-2229); the result is the new stack. -/
def maskPush (stack : List Nat) (i : Nat) : M (List Nat) := do
  incRef i
  pure (i :: stack)

/-- `jitc_var_mask_pop()` (src/var.cpp:2272-2282). -/
def maskPop (stack : List Nat) : M (List Nat) :=
  match stack with
  | [] => raise
  | t :: rest => do
    decRef t
    pure rest

/-- `jitc_var_mask_peek()` (src/var.cpp:2213-2223). -/
def maskPeek (stack : List Nat) : M Nat :=
  match stack with
  | [] => pure 0
  | t :: _ => do
    incRef t
    pure t

/-- `jit_eval_scope_enter()` (src/api.cpp:140-157); the result is the token and the new stack. -/
def evalScopeEnter (backend : Nat) (stack : List Nat) : M (Nat × List Nat) := do
  let s ← getStore
  if s.symbolicScope = false then pure (0, stack)
  else do
    let _ ← newScope
    modifyStore (fun s => { s with symbolicScope := false })
    let mask ← maskDefault ev backend 1
    let stack' ← maskPush stack mask
    decRef mask
    pure (s.scope, stack')

/-- `jit_eval_scope_leave()` (src/api.cpp:159-170). -/
def evalScopeLeave (stack : List Nat) (scope : Nat) : M (List Nat) :=
  if scope = 0 then pure stack
  else do
    let stack' ← maskPop stack
    modifyStore (fun s => { s with scope := scope, symbolicScope := true })
    pure stack'

/-- `robin_map<uint32_t, Ref>` (src/op.cpp:1921). -/
abbrev Memo := List (Nat × Nat)

/-- `v->dep[k]`. -/
def _root_.Verif.Var.Var.dep (v : Var) : Nat → Nat
  | 0 => v.d0 | 1 => v.d1 | 2 => v.d2 | _ => v.d3

/-- Release the references in the array `Ref dep[4]`. -/
def dropDeps (dep : Nat → Nat) : M Unit := do
  decRef (dep 3)
  decRef (dep 2)
  decRef (dep 1)
  decRef (dep 0)

/-- Take references to the operands of the new variable (src/op.cpp:1990-1993). -/
def takeDeps (dep : Nat → Nat) : M Unit := do
  incRef (dep 0)
  incRef (dep 1)
  incRef (dep 2)
  incRef (dep 3)

/-- The loop over the operands in `jitc_var_reindex()` (src/op.cpp:1954-1973).  `rec` is the recursive
call, `ks` the operands that remain, `dep` the new operands found so far and `rb` the flag
`rebuild`; the result `none` stands for `return 0`. -/
def depLoop (recur : Nat → Memo → M (Nat × Memo)) (i mask : Nat) :
    List Nat → (Nat → Nat) → Bool → Memo → M (Option ((Nat → Nat) × Bool) × Memo)
  | [], dep, rb, map => pure (some (dep, rb), map)
  | k :: ks, dep, rb, map => do
    let v ← getVar i
    if v.dep k = 0 then depLoop recur i mask ks dep rb map
    else do
      let a ← recur (v.dep k) map
      let d ← (if a.1 ≠ 0 ∧ v.kind = .gather ∧ k = 2 then (do
          let r ← varAnd ev a.1 mask
          decRef a.1
          pure r)
        else pure a.1)
      if d = 0 then (do
        dropDeps dep
        pure (none, a.2))
      else
        depLoop recur i mask ks (fun j => if j = k then d else dep j) (rb || d != v.dep k) a.2

/-- The end of `jitc_var_reindex()` (src/op.cpp:1975-2001). -/
def reindexEnd (newIdx i size : Nat) (dep : Nat → Nat) (rb : Bool) : M Nat := do
  let v ← getVar i
  let r ← if v.kind = .counter then do
      incRef newIdx
      pure newIdx
    else if rb then do
      takeDeps dep
      varNew { kind := v.kind, backend := v.backend, type := v.type, size := size,
               symbolic := v.symbolic, literal := v.literal, d0 := dep 0, d1 := dep 1,
               d2 := dep 2, d3 := dep 3 } false
    else do
      incRefV i
      pure i
  incRef r
  dropDeps dep
  pure r

/-- `jitc_var_reindex()` (src/op.cpp:1919-2005).  The first argument bounds the depth of the recursion. -/
def reindex (cb : Nat → Bool) (newIdx mask size : Nat) : Nat → Nat → Memo → M (Nat × Memo)
  | 0, _, _ => abort
  | n + 1, i, map =>
    match map.lookup i with
    | some r => do
      incRef r
      pure (r, map)
    | none => do
      let v ← getVar i
      if map.length > 200 then pure (0, map)
      else if v.isEvaluated ∨ v.type = .void then pure (0, map)
      else if cb i then pure (0, map)
      else do
        let rb : Bool := v.size ≠ size ∧ v.size ≠ 1
        if v.kind = .defaultMask then
          if rb then do
            let r ← maskDefault ev v.backend size
            pure (r, map)
          else do
            incRefV i
            incRef i
            pure (i, (i, i) :: map)
        else do
          let a ← if v.isLiteral then pure (some ((fun _ => 0), rb), map)
            else depLoop ev (reindex cb newIdx mask size n) i mask [0, 1, 2, 3] (fun _ => 0) rb map
          match a.1 with
          | none => pure (0, a.2)
          | some d => do
            let r ← reindexEnd newIdx i size d.1 d.2
            pure (r, (i, r) :: a.2)

/-- Destructor of the map. -/
def dropMemo : Memo → M Unit
  | [] => pure ()
  | p :: l => do
    decRef p.2
    dropMemo l

/-- The attempt to reindex in `jitc_var_gather()` (src/op.cpp:2185-2200); 0 if it fails. -/
def tryReindex (cb : Nat → Bool) (stack : List Nat) (fuel src idx mask size : Nat) : M Nat := do
  let i2 ← varCast ev idx .u32 false
  let m2 ← maskApply ev stack mask size
  let a ← reindex ev cb i2 m2 size fuel src []
  let r ← if a.1 ≠ 0 then do
      incRef a.1
      let t ← varResize ev a.1 size
      let r ← varAnd ev t m2
      decRef t
      decRef a.1
      pure r
    else pure 0
  decRef a.1
  decRef m2
  dropMemo a.2
  decRef i2
  pure r

/-- `jitc_scatter_gather_index()` (src/op.cpp:1901-1916). -/
def gatherIndex (src idx : Nat) : M Nat := do
  let v ← getVar src
  let w ← getVar idx
  if w.type.isInt = false then raise
  else varCast ev idx (if v.size > 0x7fffffff ∧ isLlvm v.backend then .u64 else .u32) false

/-- `Variable::is_node()` (src/internal.h:377). -/
def _root_.Verif.Var.Var.isNode (v : Var) : Bool :=
  match v.kind with
  | .invalid | .evaluated | .undefined | .literal => false
  | _ => true

/-- `jitc_var_eval(index)` (src/var.cpp:1714-1728) for a variable without pending writes.  The
function does nothing for literals; its caller (src/op.cpp:2200-2240) then uses the bits of the
literal as a data pointer. -/
def varEval (evalVar : Nat → M Unit) (i : Nat) : M Unit := do
  let v ← getVar i
  if v.isEvaluated then pure ()
  else if v.isNode then evalVar i
  else stop .ub

/-- Memory after writing one entry at address `p`. -/
def _root_.Verif.Var.Store.poke (s : Store) (p x : BitVec 64) : Store :=
  { s with mem := fun q j => if q = p ∧ j = 0 then x else s.mem q j }

/-- Reading one entry (src/op.cpp:2212-2229). -/
def gatherScalar (alloc : M (BitVec 64)) (info : OpInfo) (src idx : Nat) : M Nat := do
  let v ← getVar src
  let w ← getVar idx
  if w.literal.toNat ≥ info.size then raise
  else do
    let p ← alloc
    modifyStore (fun s => s.poke p (s.mem v.literal w.literal.toNat))
    varMemMap info.backend info.type p 1 true

/-- The creation of a gather node (src/op.cpp:2233-2254). -/
def gatherNode (stack : List Nat) (sinfo info : OpInfo) (src idx mask : Nat) : M Nat := do
  let m2 ← maskApply ev stack mask info.size
  let v ← getVar src
  let p2 ← varPointer sinfo.backend v.literal src false false false
  let i2 ← gatherIndex ev src idx
  let w ← getVar m2
  let r ← newNode3 ev sinfo.backend .gather sinfo.type (max info.size w.size) info.symbolic p2 i2 m2 0#64
  decRef i2
  decRef p2
  decRef m2
  pure r

/-- The middle part of `jitc_var_gather()` (src/op.cpp:2163-2200): the cases in which the source need
not be evaluated (0: none of them applies). -/
def gatherElide (cb : Nat → Bool) (stack : List Nat) (fuel : Nat) (info : OpInfo) (src idx mask : Nat) :
    M Nat := do
  let sv ← getVar src
  if sv.size = 1 then do
    incRef src
    let t ← varResize ev src info.size
    let r ← varAnd ev t mask
    decRef t
    decRef src
    pure r
  else do
    let iv ← getVar idx
    if iv.kind = .counter ∧ iv.size = sv.size then varAnd ev src mask
    else tryReindex ev cb stack fuel src idx mask info.size

/-- `jitc_var_gather(src, index, mask)` (src/op.cpp:2113-2262). -/
def varGather (evalVar : Nat → M Unit) (alloc : M (BitVec 64)) (cb : Nat → Bool) (stack : List Nat)
    (fuel src idx mask : Nat) : M Nat :=
  if idx = 0 then pure 0
  else if src = 0 then raise
  else if mask = 0 then raise
  else do
    incRef src
    let sinfo ← varCheck [src]
    let info ← varCheck [idx, mask]
    let s ← getStore
    let sv ← getVar src
    let mv ← getVar mask
    if sv.symbolic then raise
    else if info.symbolic ∧ s.symbolicScope = false then raise
    else do
      let r ← if isZero mv then makeZero { info with type := sinfo.type }
        else do
          cleanOps ev [idx, src] [idx, src]
          let r ← gatherElide ev cb stack fuel info src idx mask
          if r ≠ 0 then pure r
          else do
            varEval evalVar src
            if info.size = 1 ∧ info.literal then gatherScalar alloc sinfo src idx
            else gatherNode ev stack sinfo info src idx mask
      decRef src
      pure r

end Verif.Gather
