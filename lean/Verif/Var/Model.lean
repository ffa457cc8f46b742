import Verif.FreeSlots.Model
/-!
# Model of the variable table (`src/internal.h`, `src/var.cpp`)

The variable table is the central data structure of the library: a vector of `Variable`
records, a recycler of unused slots, and the hash table used for local value numbering (LVN).

Simplifications made throughout this file:
* `std::vector<Variable>` is a function `Nat → Var` together with a length.
* The hash table is an association list without duplicate keys.
* Reference counts are natural numbers.  Where the C++ counter (32 bit, or 16 bit for side
  effects) would wrap around, the model stops with `Stop.limit`.
* One thread state is in use.  The scopes of the others are in `otherScopes`.
* Labels, user callbacks and the `jit_var_call_reduce()` cache hooks are not modelled.
* `jitc_eval()` is a parameter `ev` of the functions that call it.
-/
namespace Verif.Var
open Verif.FreeSlots (FreeSlots)

/-- `enum class VarType` (include/drjit-core/jit.h), without the two unused base entries. -/
inductive VType where
  | void | bool | i8 | u8 | i16 | u16 | i32 | u32 | i64 | u64 | pointer | f16 | f32 | f64
deriving Repr, DecidableEq

/-- `type_size[]` (src/var.cpp:123-125), in bytes. -/
def VType.bytes : VType → Nat
  | .void => 0 | .bool => 1 | .i8 => 1 | .u8 => 1 | .i16 => 2 | .u16 => 2 | .i32 => 4 | .u32 => 4
  | .i64 => 8 | .u64 => 8 | .pointer => 8 | .f16 => 2 | .f32 => 4 | .f64 => 8

/-- `enum class VarKind` (src/internal.h:31-215).  Kinds that the model treats uniformly are
collapsed into `other`, tagged with their number in the enumeration. -/
inductive Kind where
  | invalid | evaluated | undefined | literal
  | neg | not | abs | add | sub | mul | div | mod | mulHi | mulWide | fma | min | max
  | eq | neq | lt | le | gt | ge | select | popc | clz | ctz | brev | and | or | xor | shl | shr
  | cast | bitcast | counter | defaultMask | gather
  | other (code : Nat)
deriving Repr, DecidableEq

/-- `struct Variable` (src/internal.h:238-392).  `literal` is the union of the literal bits
and the data pointer; `d0 … d3` is the array `dep`.  `uid` is a ghost: the value of
`state.variable_counter` at creation. -/
structure Var where
  refCount : Nat := 0
  refCountSe : Nat := 0
  scope : Nat := 0
  d0 : Nat := 0
  d1 : Nat := 0
  d2 : Nat := 0
  d3 : Nat := 0
  literal : BitVec 64 := 0#64
  size : Nat := 0
  counter : Nat := 0
  kind : Kind := .invalid
  backend : Nat := 0
  type : VType := .void
  writePtr : Bool := false
  written : Bool := false
  retainData : Bool := false
  symbolic : Bool := false
  consumed : Bool := false
  isArray : Bool := false
  coopVec : Bool := false
  arrayLength : Nat := 0
  uid : Nat := 0
deriving Repr, DecidableEq

/-- `is_literal()`, `is_evaluated()`, `is_dirty()` (src/internal.h:374-378). -/
def Var.isLiteral (v : Var) : Bool := v.kind == .literal
@[inherit_doc Var.isLiteral] def Var.isEvaluated (v : Var) : Bool := v.kind == .evaluated
@[inherit_doc Var.isLiteral] def Var.isDirty (v : Var) : Bool := v.refCountSe > 0

/-- `struct VariableKey` (src/internal.h:425-456). -/
structure Key where
  scope : Nat
  d0 : Nat
  d1 : Nat
  d2 : Nat
  d3 : Nat
  literal : BitVec 64
  size : Nat
  kind : Kind
  backend : Nat
  type : VType
  writePtr : Bool
  written : Bool
  arrayLength : Nat
deriving Repr, DecidableEq

/-- Constructor `VariableKey(const Variable &)` (src/internal.h:437-450). -/
def Var.key (v : Var) : Key :=
  { scope := v.scope, d0 := v.d0, d1 := v.d1, d2 := v.d2, d3 := v.d3, literal := v.literal,
    size := v.size, kind := v.kind, backend := v.backend, type := v.type,
    writePtr := v.writePtr, written := v.written,
    arrayLength := if v.isArray || v.coopVec then v.arrayLength else 0 }

/-- The part of `struct State` and of the thread state concerned with variables.  `mem` is
device memory (element `i` of the buffer at address `p`), `freed` logs the addresses given back
with `jitc_free()`.  `acquired` is a ghost: the addresses of the buffers whose ownership was
passed to the table. -/
structure Store where
  vars : Nat → Var := fun _ => {}
  len : Nat := 1
  unused : FreeSlots := {}
  lvn : List (Key × Nat) := []
  variableCounter : Nat := 0
  scope : Nat := 2
  otherScopes : List Nat := []
  scopeCtr : Nat := 2
  mem : BitVec 64 → Nat → BitVec 64 := fun _ _ => 0#64
  freed : List (BitVec 64) := []
  acquired : List (BitVec 64) := []
  /-- `ts->side_effects`: variables with side effects that have not been evaluated yet -/
  sideEffects : List Nat := []
  /-- `JitFlag::ValueNumbering` -/
  valueNumbering : Bool := true
  /-- `JitFlag::ReuseIndices` -/
  reuseIndices : Bool := true
  /-- `JitFlag::ConstantPropagation` -/
  constProp : Bool := true
  /-- `JitFlag::FastMath` -/
  fastMath : Bool := false
  /-- `JitFlag::SymbolicScope` -/
  symbolicScope : Bool := false

/-- Executions the model does not follow further. -/
inductive Stop where
  /-- a C++ counter or table reached its maximal value -/
  | limit
  /-- undefined behaviour of the C++ program -/
  | ub
  /-- a code path that is not part of the model -/
  | unmodelled
deriving Repr, DecidableEq

/-- Outcome of a function: normal return, C++ exception (`jitc_raise`), process termination
(`jitc_fail`), or end of the modelled execution. -/
inductive Res (α : Type) where
  | ok (a : α) (s : Store)
  | raise (s : Store)
  | abort
  | stop (r : Stop)

/-- Functions operating on the variable table. -/
def M (α : Type) : Type := Store → Res α

instance : Monad M where
  pure a := fun s => .ok a s
  bind m f := fun s => match m s with
    | .ok a s' => f a s'
    | .raise s' => .raise s'
    | .abort => .abort
    | .stop r => .stop r

def getStore : M Store := fun s => .ok s s
def modifyStore (f : Store → Store) : M Unit := fun s => .ok () (f s)
def raise {α : Type} : M α := fun s => .raise s
def abort {α : Type} : M α := fun _ => .abort
def stop {α : Type} (r : Stop) : M α := fun _ => .stop r

/-- Overwrite one table entry. -/
def Store.set (s : Store) (i : Nat) (v : Var) : Store :=
  { s with vars := fun j => if j = i then v else s.vars j }

/-- `jitc_var(index)` (src/var.cpp:489-498). -/
def getVar (i : Nat) : M Var := fun s =>
  if i = 0 ∨ i ≥ s.len ∨ ((s.vars i).refCount = 0 ∧ (s.vars i).refCountSe = 0) then .abort
  else .ok (s.vars i) s

/-- `jitc_var(WeakRef)` (src/var.cpp:501-511); `none` is the null pointer. -/
def getWeak (i c : Nat) : M (Option Var) := fun s =>
  if i ≥ s.len then .abort
  else if i = 0 ∨ (s.vars i).counter ≠ c then .ok none s
  else .ok (some (s.vars i)) s

/-- `jitc_lvn_drop(index, v)` (src/var.cpp:614-619), where `v` is the entry `index`. -/
def Store.lvnDrop (s : Store) (i : Nat) : Store :=
  match s.lvn.lookup (s.vars i).key with
  | some j => if j = i then { s with lvn := s.lvn.filter (fun p => p.1 ≠ (s.vars i).key) } else s
  | none => s

/-- `jitc_lvn_put(index, v)` (src/var.cpp:622-624). -/
def Store.lvnPut (s : Store) (i : Nat) : Store :=
  match s.lvn.lookup (s.vars i).key with
  | some _ => s
  | none => { s with lvn := ((s.vars i).key, i) :: s.lvn }

/-- `jitc_var_inc_ref(index, v)` (src/var.cpp:514-518). -/
def incRefV (i : Nat) : M Unit := fun s =>
  let v := s.vars i
  if v.refCount + 1 ≥ 2 ^ 32 then .stop .limit
  else .ok () (s.set i { v with refCount := v.refCount + 1 })

/-- `jitc_var_inc_ref(index)` (src/var.cpp:552-555). -/
def incRef (i : Nat) : M Unit := if i = 0 then pure () else do
  let _ ← getVar i
  incRefV i

/-- `jitc_var_inc_ref_se(index)` (src/var.cpp:558-569). -/
def incRefSe (i : Nat) : M Unit := if i = 0 then pure () else do
  let v ← getVar i
  if v.refCountSe + 1 ≥ 2 ^ 16 then stop .limit
  else modifyStore (fun s => s.set i { s.vars i with refCountSe := (s.vars i).refCountSe + 1 })

/-- Decrement of one ordinary dependency inside `jitc_var_free()` (src/var.cpp:433-453).
`acc` holds the next variable to be freed (0: none) and the to-do list. -/
def decDep (d : Nat) (acc : Nat × List Nat) : M (Nat × List Nat) := fun s =>
  if d = 0 then .ok acc s
  else if (s.vars d).refCount = 0 then .abort
  else
    let v := { s.vars d with refCount := (s.vars d).refCount - 1 }
    let s' := s.set d v
    if v.refCount = 0 ∧ v.refCountSe = 0 then
      if acc.1 = 0 then .ok (d, acc.2) s' else .ok (acc.1, d :: acc.2) s'
    else .ok acc s'

/-- Decrement of the side effect reference inside `jitc_var_free()` (src/var.cpp:454-468). -/
def decDepSe (d : Nat) (acc : Nat × List Nat) : M (Nat × List Nat) := fun s =>
  if d = 0 then .ok acc s
  else if (s.vars d).refCountSe = 0 then .abort
  else
    let v := { s.vars d with refCountSe := (s.vars d).refCountSe - 1 }
    let s' := s.set d v
    if v.refCount = 0 ∧ v.refCountSe = 0 then .ok (d, acc.2) s'
    else .ok acc s'

/-- The first part of one iteration of `jitc_var_free()` (src/var.cpp:356-425): release the
memory or the LVN entry, advance the counter of the slot, recycle the slot. -/
def Store.release (s : Store) (i : Nat) : Store :=
  let v := s.vars i
  let s := if v.isEvaluated then
      (if v.retainData then s else { s with freed := v.literal :: s.freed })
    else s.lvnDrop i
  let s := s.set i { v with counter := v.counter + 1 }
  { s with unused := s.unused.push i }

/-- One iteration of the loop in `jitc_var_free()` (src/var.cpp:354-468). -/
def freeBody (i : Nat) (todo : List Nat) : M (Nat × List Nat) := fun s =>
  let v := s.vars i
  let s' := s.release i
  if v.writePtr then decDepSe v.d3 (0, todo) s'
  else (do
    let a ← decDep v.d0 (0, todo)
    let a ← decDep v.d1 a
    let a ← decDep v.d2 a
    decDep v.d3 a) s'

/-- The loop of `jitc_var_free()` (src/var.cpp:354-480).  The first argument bounds the number
of iterations; running out of it counts as a failure, so that the theorems show that it
does not happen. -/
def freeLoop : Nat → Nat → List Nat → M Unit
  | 0, _, _ => abort
  | n + 1, i, todo => do
    let a ← freeBody i todo
    if a.1 ≠ 0 then freeLoop n a.1 a.2
    else match a.2 with
      | [] => pure ()
      | t :: ts => freeLoop n t ts

/-- `jitc_var_free(index, v)` (src/var.cpp:349-486). -/
def varFree (i : Nat) : M Unit := fun s => freeLoop s.len i [] s

/-- `jitc_var_dec_ref(index)` (src/var.cpp:572-592).  Underflow is only checked by an
assertion. -/
def decRef (i : Nat) : M Unit := if i = 0 then pure () else do
  let v ← getVar i
  if v.refCount = 0 then stop .ub
  else do
    modifyStore (fun s => s.set i { s.vars i with refCount := (s.vars i).refCount - 1 })
    if v.refCount - 1 ≠ 0 ∨ v.refCountSe ≠ 0 then pure () else varFree i

/-- `jitc_var_dec_ref_se(index)` (src/var.cpp:594-611). -/
def decRefSe (i : Nat) : M Unit := if i = 0 then pure () else do
  let v ← getVar i
  if v.refCountSe = 0 then abort
  else do
    modifyStore (fun s => s.set i { s.vars i with refCountSe := (s.vars i).refCountSe - 1 })
    if v.refCount ≠ 0 ∨ v.refCountSe - 1 ≠ 0 then pure () else varFree i

/-- Selection of a table slot in `jitc_var_new()` (src/var.cpp:781-793).  The Boolean is
`from_unused`. -/
def allocSlot : M (Nat × Bool) := fun s =>
  if s.unused.empty || !s.reuseIndices then
    if s.len ≥ 2 ^ 32 then .stop .limit
    else .ok (s.len, false) { s.set s.len {} with len := s.len + 1 }
  else match s.unused.pop with
    | none => .stop .ub
    | some (i, u) => .ok (i, true) { s with unused := u }

/-- Undo of the speculative allocation after an LVN hit (src/var.cpp:817-820). -/
def unallocSlot (i : Nat) (fromUnused : Bool) : M Unit := modifyStore fun s =>
  if fromUnused then { s with unused := s.unused.push i } else { s with len := s.len - 1 }

/-- The condition `lvn` of `jitc_var_new()` (src/var.cpp:771-772). -/
def useLvn (s : Store) (v : Var) (disableLvn : Bool) : Bool :=
  !disableLvn && v.type != .void && !v.isEvaluated && s.valueNumbering

/-- The scope given to a new variable (src/var.cpp:776). -/
def Var.placed (v : Var) (s : Store) : Var :=
  { v with scope := if v.isEvaluated && !v.isArray then 1 else s.scope }

/-- Writing the variable into its slot (src/var.cpp:805-806); the counter of the slot is kept. -/
def Store.write (s : Store) (i : Nat) (v : Var) : Store :=
  s.set i { v with counter := (s.vars i).counter, uid := s.variableCounter }

/-- Releasing the operands of `v` after an LVN hit (src/var.cpp:822-827). -/
def dropRefs (v : Var) : M Unit :=
  if v.writePtr then decRefSe v.d3
  else do
    decRef v.d0
    decRef v.d1
    decRef v.d2
    decRef v.d3

/-- Bookkeeping for a variable that is really new: the LVN entry inserted by
`try_emplace_hash` (src/var.cpp:810), `variable_counter++` (line 861), and the ghost log. -/
def Store.newEntry (s : Store) (i : Nat) (v : Var) (lvn : Bool) : Store :=
  { s with
    lvn := if lvn then (v.key, i) :: s.lvn else s.lvn
    acquired := if v.isEvaluated && !v.retainData then v.literal :: s.acquired else s.acquired
    variableCounter := s.variableCounter + 1 }

/-- `jitc_var_new(v, disable_lvn)` (src/var.cpp:724-931). -/
def varNew (v : Var) (disableLvn : Bool) : M Nat := do
  let s0 ← getStore
  let lvn := useLvn s0 v disableLvn
  let v' := v.placed s0
  let a ← allocSlot
  let s1 ← getStore
  modifyStore (fun s => s.write a.1 v')
  match (if lvn then s1.lvn.lookup v'.key else none) with
  | some j => do
    unallocSlot a.1 a.2
    dropRefs v'
    incRefV j
    pure j
  | none => do
    modifyStore (fun s => s.newEntry a.1 v' lvn)
    incRefV a.1
    pure a.1

/-- Keep the low `type_size[type]` bytes (`memcpy` into a zero-initialised 64-bit field). -/
def VType.mask (t : VType) (x : BitVec 64) : BitVec 64 := (x.setWidth (8 * t.bytes)).setWidth 64

/-- `jitc_var_literal(backend, type, value, size, eval = 0)` (src/var.cpp:933-961); `value`
is given as a 64-bit container. -/
def varLiteral (backend : Nat) (type : VType) (value : BitVec 64) (size : Nat) : M Nat :=
  if size = 0 then pure 0
  else if size > 0xFFFFFFFF then raise
  else varNew { literal := type.mask value, kind := .literal, type := type, size := size,
                backend := backend } false

/-- `jitc_var_undefined()` (src/var.cpp:1047-1059). -/
def varUndefined (backend : Nat) (type : VType) (size : Nat) : M Nat :=
  if size = 0 then pure 0
  else if size > 0xFFFFFFFF then raise
  else varNew { kind := .undefined, backend := backend, type := type, size := size,
                literal := BitVec.allOnes 64 } false

/-- `jitc_var_counter()` (src/var.cpp:1061-1075). -/
def varCounter (backend : Nat) (size : Nat) (simplifyScalar : Bool) : M Nat := do
  let s ← getStore
  if size = 1 ∧ simplifyScalar ∧ !s.symbolicScope then varLiteral backend .u32 0#64 1
  else if size > 0xFFFFFFFF then raise
  else varNew { kind := .counter, backend := backend, type := .u32, size := size } false

/-- The record filled in by `jitc_var_pointer()` (src/var.cpp:1001-1016). -/
def pointerVar (backend : Nat) (value : BitVec 64) (dep : Nat) (write written : Bool) : Var :=
  { kind := .literal, type := .pointer, size := 1, literal := value, backend := backend,
    d3 := dep, writePtr := write, written := write || written }

/-- `jitc_var_pointer()` (src/var.cpp:990-1033). -/
def varPointer (backend : Nat) (value : BitVec 64) (dep : Nat) (write written disableLvn : Bool) :
    M Nat := do
  if write then incRefSe dep else incRef dep
  let s ← getStore
  modifyStore (fun s => { s with scope := 1 })
  let r ← varNew (pointerVar backend value dep write written) disableLvn
  modifyStore (fun s' => { s' with scope := s.scope })
  pure r

/-- `jitc_var_mem_map()` (src/var.cpp:1786-1819): register a memory region; `free = false` retains it.
Alignment information is not modelled. -/
def varMemMap (backend : Nat) (type : VType) (ptr : BitVec 64) (size : Nat) (free : Bool) : M Nat :=
  if size = 0 then pure 0
  else if size > 0xFFFFFFFF then raise
  else varNew { kind := .evaluated, type := type, backend := backend, literal := ptr, size := size,
                retainData := !free } true

/-- `if (v0->is_dirty()) { jitc_eval(); check again }`, the common prefix of
`jitc_var_new_node_1 … 4` (src/var.cpp:1206-1212 ff).  `ops` are the operands inspected
before the evaluation and `again` those inspected after it. -/
def cleanOps (ev : M Unit) (ops again : List Nat) : M Unit := fun s =>
  if ops.any (fun a => (s.vars a).isDirty) then
    match ev s with
    | .ok () s' => if again.any (fun a => (s'.vars a).isDirty) then .raise s' else .ok () s'
    | .raise s' => .raise s'
    | .abort => .abort
    | .stop r => .stop r
  else .ok () s

/-- `jitc_var_new_node_0()` (src/var.cpp:1185-1197). -/
def newNode0 (backend : Nat) (kind : Kind) (type : VType) (size : Nat) (symbolic : Bool)
    (payload : BitVec 64) : M Nat :=
  varNew { literal := payload, size := size, kind := kind, backend := backend, type := type,
           symbolic := symbolic } false

/-- `jitc_var_new_node_1()` (src/var.cpp:1199-1226). -/
def newNode1 (ev : M Unit) (backend : Nat) (kind : Kind) (type : VType) (size : Nat)
    (symbolic : Bool) (a0 : Nat) (payload : BitVec 64) : M Nat := do
  cleanOps ev [a0] [a0]
  incRefV a0
  varNew { d0 := a0, literal := payload, size := size, kind := kind, backend := backend,
           type := type, symbolic := symbolic } false

/-- `jitc_var_new_node_2()` (src/var.cpp:1228-1260). -/
def newNode2 (ev : M Unit) (backend : Nat) (kind : Kind) (type : VType) (size : Nat)
    (symbolic : Bool) (a0 a1 : Nat) (payload : BitVec 64) : M Nat := do
  cleanOps ev [a0, a1] [a0, a1]
  incRefV a0
  incRefV a1
  varNew { d0 := a0, d1 := a1, literal := payload, size := size, kind := kind,
           backend := backend, type := type, symbolic := symbolic } false

/-- `jitc_var_new_node_3()` (src/var.cpp:1262-1298).  The check after the evaluation looks at
`a0`, `a1` and again at `a1` (line 1276: `v2 = jitc_var(a2); if (v1->is_dirty())`), so `a2` is
not inspected. -/
def newNode3 (ev : M Unit) (backend : Nat) (kind : Kind) (type : VType) (size : Nat)
    (symbolic : Bool) (a0 a1 a2 : Nat) (payload : BitVec 64) : M Nat := do
  cleanOps ev [a0, a1, a2] [a0, a1, a1]
  incRefV a0
  incRefV a1
  incRefV a2
  varNew { d0 := a0, d1 := a1, d2 := a2, literal := payload, size := size, kind := kind,
           backend := backend, type := type, symbolic := symbolic } false

/-- `jitc_var_new_node_4()` (src/var.cpp:1300-1344), with the same flaw for `a2` and `a3`. -/
def newNode4 (ev : M Unit) (backend : Nat) (kind : Kind) (type : VType) (size : Nat)
    (symbolic : Bool) (a0 a1 a2 a3 : Nat) (payload : BitVec 64) : M Nat := do
  cleanOps ev [a0, a1, a2, a3] [a0, a1, a1, a1]
  incRefV a0
  incRefV a1
  incRefV a2
  incRefV a3
  varNew { d0 := a0, d1 := a1, d2 := a2, d3 := a3, literal := payload, size := size,
           kind := kind, backend := backend, type := type, symbolic := symbolic } false

/-- `jitc_var_resize(index, size)` (src/var.cpp:1999-2053). -/
def varResize (ev : M Unit) (i : Nat) (size : Nat) : M Nat :=
  if i = 0 ∧ size = 0 then pure 0
  else if size > 0xFFFFFFFF then raise
  else do
    let v ← getVar i
    if v.consumed then raise
    else if v.size = size then do
      incRefV i
      pure i
    else if v.size ≠ 1 ∧ !v.isLiteral then raise
    else do
      cleanOps ev [i] [i]
      let v ← getVar i
      if !v.isEvaluated ∧ v.refCount = 1 then do
        incRefV i
        modifyStore (fun s => s.lvnDrop i)
        modifyStore (fun s => s.set i { s.vars i with size := size })
        modifyStore (fun s => s.lvnPut i)
        pure i
      else if v.isLiteral then varLiteral v.backend v.type v.literal size
      else do
        incRefV i
        varNew { kind := .bitcast, type := v.type, backend := v.backend, symbolic := v.symbolic,
                 size := size, d0 := i, coopVec := v.coopVec, arrayLength := v.arrayLength } true

/-- `jitc_var_mark_side_effect(index)` (src/var.cpp:1369-1383): the caller's reference is handed
to the list of pending side effects.  The flag `side_effect` of the variable and the separate list
for symbolic variables are not modelled. -/
def markSideEffect (i : Nat) : M Unit := if i = 0 then pure () else do
  let _ ← getVar i
  modifyStore (fun s => { s with sideEffects := s.sideEffects ++ [i] })

end Verif.Var
