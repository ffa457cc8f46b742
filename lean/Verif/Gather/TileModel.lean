import Verif.Gather.Model
/-!
# Model of tiling, repetition and reversal
-/
namespace Verif.Gather
open Verif.Var Verif.Ops

variable (ev : M Unit)

/-- The common end of the functions below: compute the index from the operands `a` and `b`, gather with
an enabled mask, and release the temporaries in the reverse order of their declaration (destructors of
`Ref`).  If one of the steps raises an exception, the release of the temporaries by the destructors is
not modelled. -/
def gatherVia (evalVar : Nat → M Unit) (alloc : M (BitVec 64)) (cb : Nat → Bool) (stack : List Nat)
    (fuel src backend a b : Nat) (op : Nat → Nat → M Nat) : M Nat := do
  let o ← op a b
  let t ← varLiteral backend .bool 1#64 1
  let r ← varGather ev evalVar alloc cb stack fuel src o t
  decRef t
  decRef o
  decRef b
  decRef a
  pure r

/-- `jitc_var_tile(index, block_size)` (src/var.cpp:2563-2583). -/
def varTile (evalVar : Nat → M Unit) (alloc : M (BitVec 64)) (cb : Nat → Bool) (stack : List Nat)
    (fuel src blockSize : Nat) : M Nat :=
  if src = 0 then pure 0
  else do
    let v ← getVar src
    if v.size * blockSize > 0xFFFFFFFF then raise
    else do
      let c ← varCounter v.backend (v.size * blockSize) true
      let m ← varLiteral v.backend .u32 (BitVec.ofNat 64 v.size) 1
      gatherVia ev evalVar alloc cb stack fuel src v.backend c m (varMod ev)

/-- The size of the result of `jitc_var_repeat()` (src/var.cpp:2592-2597). -/
def repeatSize (size blockSize maxSize : Nat) : Nat :=
  if 0 < maxSize ∧ maxSize < size * blockSize then maxSize else size * blockSize

/-- `jitc_var_repeat(index, block_size, max_size)` (src/var.cpp:2585-2607). -/
def varRepeat (evalVar : Nat → M Unit) (alloc : M (BitVec 64)) (cb : Nat → Bool) (stack : List Nat)
    (fuel src blockSize maxSize : Nat) : M Nat :=
  if src = 0 then pure 0
  else do
    let v ← getVar src
    if repeatSize v.size blockSize maxSize > 0xFFFFFFFF then raise
    else do
      let c ← varCounter v.backend (repeatSize v.size blockSize maxSize) true
      let m ← varLiteral v.backend .u32 (BitVec.ofNat 64 blockSize) 1
      gatherVia ev evalVar alloc cb stack fuel src v.backend c m (varDiv ev)

/-- `jitc_var_reverse(index)` (src/var.cpp:3039-3052). -/
def varReverse (evalVar : Nat → M Unit) (alloc : M (BitVec 64)) (cb : Nat → Bool) (stack : List Nat)
    (fuel src : Nat) : M Nat :=
  if src = 0 then pure 0
  else do
    let v ← getVar src
    let a ← varLiteral v.backend .u32 (BitVec.ofNat 64 (v.size - 1)) 1
    let c ← varCounter v.backend v.size true
    gatherVia ev evalVar alloc cb stack fuel src v.backend a c (varSub ev)

end Verif.Gather
