import Verif.Ops.Spec
import Verif.Llvm.Prefix
import Verif.Llvm.IntRed
/-!
# Specification of reductions

The reductions themselves are specified by `Verif.Llvm.IsReduction`, in the same way as those of the
reduction kernels (C22, C23).
-/
namespace Verif.Reduce
open Verif.Var Verif.Ops
open Verif.Llvm (ROp IsReduction slice scanList num)

/-- The entries of the array `i` are the numbers `f 0`, ..., `f (n - 1)`. -/
def Entries (s : Store) (i n : Nat) {w : Nat} (f : Nat → BitVec w) : Prop :=
  ∀ j < n, Val s i j ((f j).setWidth 64)

/-- `z` is the reduction of block `b` of the array `i`.  Blocks have `k` entries; the last one may have
fewer. -/
def BlockValue (s : Store) (i k : Nat) (op : ROp) (b : Nat) (z : BitVec 64) : Prop :=
  b * k < (s.vars i).size ∧
  ∃ (f : Nat → BitVec (s.vars i).type.bits) (y : BitVec (s.vars i).type.bits),
    Entries s i (s.vars i).size f ∧ z = y.setWidth 64 ∧
    IsReduction (s.vars i).type.isSint op (slice f (b * k) (min (b * k + k) (s.vars i).size)) y

/-- `z` is the reduction of those entries of the block of entry `j` that precede it (or follow it, if
`reverse`). -/
def PrefixValue (s : Store) (i k : Nat) (exclusive reverse : Bool) (op : ROp) (j : Nat) (z : BitVec 64) : Prop :=
  j < (s.vars i).size ∧
  ∃ (f : Nat → BitVec (s.vars i).type.bits) (y : BitVec (s.vars i).type.bits),
    Entries s i (s.vars i).size f ∧ z = y.setWidth 64 ∧
    IsReduction (s.vars i).type.isSint op (scanList reverse exclusive f (s.vars i).size k j) y

/-- What is assumed about `std::pow()`: powers that are integers of magnitude up to 2^53 are exact. -/
def PowOK (pow : Int → Int → Option Int) : Prop :=
  ∀ (a : Int) (n : Nat), (a ^ n).natAbs ≤ 2 ^ 53 → pow a n = some (a ^ n)

/-- The product of `n` copies of `x` is at most 2^53, and `n` is representable in type `t`. -/
def ProductFits (t : VType) (x : BitVec 64) (n : Nat) : Prop :=
  (num t.isSint (x.setWidth t.bits) ^ n).natAbs ≤ 2 ^ 53 ∧
  n < 2 ^ (if t.isSint then t.bits - 1 else t.bits)

end Verif.Reduce
