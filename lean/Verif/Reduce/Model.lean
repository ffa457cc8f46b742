import Verif.Ops.Model
import Verif.Llvm.IntRed
import Verif.Llvm.U32
/-!
# Model of reductions of literals

`jit_var_reduce()`, `jit_var_block_reduce()` and `jit_var_block_prefix_reduce()` have shortcuts for
literals.  The other paths, which evaluate the array and launch a reduction kernel or perform a scatter,
are parameters `other` here; the reduction kernels are modelled in `Verif.Llvm`.  If one of the steps
raises an exception, the release of the temporaries by the destructors of `Ref` is not modelled.
-/
namespace Verif.Reduce
open Verif.Var Verif.Ops
open Verif.Llvm (ROp ceilDiv32)

variable (ev : M Unit)

/-- Result of compile-time arithmetic: undefined behaviour and floating point arithmetic are outcomes
of their own. -/
def scalarResult : FoldRes → M (BitVec 64)
  | .val x => pure x
  | .ub => stop .ub
  | .fail => abort
  | .unmodelled => stop .unmodelled

/-- `jitc_reduce_scalar_add()` (src/var.cpp:2416-2421, 2430-2446): `T(value * T(size))`.  Only the
integer types are modelled. -/
def scalarAdd (t : VType) (size : Nat) (x : BitVec 64) : M (BitVec 64) :=
  if t.isInt then scalarResult (foldInt2 t (· * ·) x (BitVec.ofNat 64 size))
  else if t.isFloat then stop .unmodelled
  else raise

/-- The integer part of the double precision number `std::pow((double) a, (double) b)`; `none` if it is
infinite or not a number. -/
abbrev Pow := Int → Int → Option Int

/-- Conversion from double precision (C++17 [conv.fpint]): undefined if the value does not fit. -/
def fromDouble (t : VType) : Option Int → FoldRes
  | none => .ub
  | some z =>
    if t.isSint then if -2 ^ (t.bits - 1) ≤ z ∧ z < 2 ^ (t.bits - 1) then .val (BitVec.ofInt 64 z) else .ub
    else if 0 ≤ z ∧ z < 2 ^ t.bits then .val (BitVec.ofInt 64 z) else .ub

/-- `jitc_reduce_scalar_mul()` (src/var.cpp:2423-2428, 2448-2464):
`T(std::pow((double) value, (double) T(size)))`.  Only the integer types are modelled. -/
def scalarMul (pow : Pow) (t : VType) (size : Nat) (x : BitVec 64) : M (BitVec 64) :=
  if t.isInt then scalarResult (fromDouble t (pow (cInt t x) (cInt t (BitVec.ofNat 64 size))))
  else if t.isFloat then stop .unmodelled
  else raise

/-- The `switch` statements that reduce `size` copies of a literal (src/var.cpp:2489-2502, 2691-2695). -/
def scalarReduce (pow : Pow) (op : ROp) (t : VType) (size : Nat) (x : BitVec 64) : M (BitVec 64) :=
  match op with
  | .add => scalarAdd t size x
  | .mul => scalarMul pow t size x
  | _ => pure x

/-- The combination of the value of the last block with the others (src/var.cpp:2506-2513). -/
def joinTrailer (b : Nat) (t : VType) (y : BitVec 64) (reduced res : Nat) : M Nat := do
  let trailer ← varLiteral b t y reduced
  let counter ← varCounter b reduced true
  let limit ← varLiteral b .u32 (BitVec.ofNat 64 ((reduced + 2 ^ 32 - 1) % 2 ^ 32)) 1
  let mask ← varLt ev counter limit
  let r ← varSelect ev mask res trailer
  decRef res
  decRef mask
  decRef limit
  decRef counter
  decRef trailer
  pure r

/-- The path of `jitc_var_block_reduce()` for literals (src/var.cpp:2480-2516).  The arithmetic on
`uint32_t` wraps around. -/
def blockReduceLit (pow : Pow) (op : ROp) (v : Var) (blockSize : Nat) : M Nat := do
  let reduced := ceilDiv32 v.size blockSize
  let trailerSize := (v.size + 2 ^ 32 - (reduced + 2 ^ 32 - 1) * blockSize % 2 ^ 32) % 2 ^ 32
  let x ← scalarReduce pow op v.type blockSize v.literal
  let y ← scalarReduce pow op v.type trailerSize v.literal
  let res ← varLiteral v.backend v.type x reduced
  if reduced * blockSize % 2 ^ 32 ≠ v.size then joinTrailer ev v.backend v.type y reduced res
  else pure res

/-- `jitc_var_block_reduce()` (src/var.cpp:2466-2561). -/
def varBlockReduce (pow : Pow) (other : M Nat) (op : ROp) (index blockSize : Nat) : M Nat :=
  if index = 0 then pure 0
  else if blockSize = 0 then raise
  else if blockSize = 1 then do incRef index; pure index
  else do
    let v ← getVar index
    if v.isLiteral then blockReduceLit ev pow op v blockSize
    else other

/-- `jitc_reduce_identity()` (src/var.cpp:2640-2651) with the tables at src/var.cpp:140-166, for the
integer types. -/
def identity (t : VType) : ROp → BitVec 64
  | .or | .add => 0#64
  | .and => (BitVec.allOnes t.bits).setWidth 64
  | .mul => 1#64
  | .min => ((if t.isSint then BitVec.intMax t.bits else BitVec.allOnes t.bits) : BitVec t.bits).setWidth 64
  | .max => ((if t.isSint then BitVec.intMin t.bits else 0#t.bits) : BitVec t.bits).setWidth 64

/-- `jitc_var_reduce()` (src/var.cpp:2653-2713).  The identity of floating point types is not modelled,
nor is the replacement of double precision on Metal.  Backend 0 stands for `JitBackend::None`. -/
def varReduce (pow : Pow) (other : M Nat) (backend : Nat) (vt : VType) (op : ROp) (index : Nat) : M Nat :=
  if op = .and ∨ op = .or then raise
  else if index = 0 then
    if backend = 0 ∨ vt = .void then raise
    else if vt.isInt then varLiteral backend vt (identity vt op) 1
    else stop .unmodelled
  else do
    let v ← getVar index
    if v.type ≠ (if vt = .void then v.type else vt) ∨ v.backend ≠ (if backend = 0 then v.backend else backend) then raise
    else if v.isLiteral then do
      let x ← if v.size > 1 then scalarReduce pow op v.type v.size v.literal else pure v.literal
      varLiteral v.backend v.type x 1
    else other

/-- `ctr = steal(f(ctr, z))` for a literal `z` (src/var.cpp:2825-2838). -/
def withLiteral (b : Nat) (x : Nat) (f : Nat → Nat → M Nat) (c : Nat) : M Nat := do
  let z ← varLiteral b .u32 (BitVec.ofNat 64 x) 1
  let c' ← f c z
  decRef c
  decRef z
  pure c'

/-- The position within the block (src/var.cpp:2824-2827). -/
def blockPos (v : Var) (blockSize c : Nat) : M Nat :=
  if blockSize ≠ v.size then withLiteral v.backend blockSize (varMod ev) c else pure c

/-- The distance to the end of the block (src/var.cpp:2829-2832). -/
def flip (v : Var) (blockSize : Nat) (reverse : Bool) (c : Nat) : M Nat :=
  if reverse then withLiteral v.backend ((blockSize + 2 ^ 32 - 1) % 2 ^ 32) (fun c z => varSub ev z c) c
  else pure c

/-- Include the entry itself (src/var.cpp:2834-2837). -/
def addSelf (v : Var) (exclusive : Bool) (c : Nat) : M Nat :=
  if exclusive then pure c else withLiteral v.backend 1 (varAdd ev) c

/-- Conversion to the type of the array (src/var.cpp:2839-2840). -/
def toType (t : VType) (c : Nat) : M Nat :=
  if t ≠ .u32 then do
    let c' ← varCast ev c t false
    decRef c
    pure c'
  else pure c

/-- The path of `jitc_var_block_prefix_reduce()` for sums of literals (src/var.cpp:2822-2843). -/
def prefixSumLit (v : Var) (index blockSize : Nat) (exclusive reverse : Bool) : M Nat := do
  let c ← varCounter v.backend v.size true
  let c ← blockPos ev v blockSize c
  let c ← flip ev v blockSize reverse c
  let c ← addSelf ev v exclusive c
  let c ← toType ev v.type c
  let r ← varMul ev c index
  decRef c
  pure r

/-- `jitc_var_block_prefix_reduce()` (src/var.cpp:2807-2865). -/
def varBlockPrefixReduce (other : M Nat) (op : ROp) (index blockSize : Nat) (exclusive reverse : Bool) : M Nat :=
  if index = 0 then pure 0
  else do
    let v ← getVar index
    if v.isLiteral ∧ (op = .max ∨ op = .min) then do incRef index; pure index
    else if v.isLiteral ∧ op = .add then prefixSumLit ev v index blockSize exclusive reverse
    else other

end Verif.Reduce
