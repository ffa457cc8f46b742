import Verif.Jit.TileDemo
import Verif.Reduce.Findings
/-!
# Example runs of reductions of literals
-/
namespace Verif.Jit
open Verif.Var Verif.Ops Verif.Gather Verif.Reduce

/-- A function with the properties of `std::pow()`. -/
def refPow : Pow := fun a b =>
  if 0 ≤ b then if (a ^ b.toNat).natAbs ≤ 2 ^ 53 then some (a ^ b.toNat) else none else none

theorem refPow_ok : PowOK refPow := by
  intro a n h
  unfold refPow
  rw [if_pos (Int.natCast_nonneg n), Int.toNat_natCast, if_pos h]

/-- The arguments that the properties assume. -/
def RArgs (s : Store) (u : Nat → Nat) (src : Nat) : Prop :=
  Operand s u src ∧ (s.vars src).kind = .literal ∧ (s.vars src).type.isInt = true ∧ (s.vars src).size < 2 ^ 31
instance (s : Store) (u : Nat → Nat) (src : Nat) : Decidable (RArgs s u src) := by unfold RArgs; infer_instance

instance (t : VType) (x : BitVec 64) (n : Nat) : Decidable (ProductFits t x n) := by unfold ProductFits; infer_instance

def refBlock (op : Llvm.ROp) (i k : Nat) : M Nat := varBlockReduce refEval refPow raise op i k
def refRed (op : Llvm.ROp) (i : Nat) : M Nat := varReduce refPow raise 0 .void op i
def refPrefix (op : Llvm.ROp) (i k : Nat) (ex rev : Bool) : M Nat := varBlockPrefixReduce refEval raise op i k ex rev

/-- An array of ten 3s, an array of three ones, eight 64-bit numbers -7, and 256 8-bit numbers 2. -/
def rdemo : List MOp :=
  [.call (.literal 1 .u32 3#64 10), .call (.literal 1 .u32 1#64 3), .call (.literal 1 .i64 (BitVec.ofInt 64 (-7)) 8),
    .call (.literal 1 .u8 2#64 256), .call (.literal 1 .i32 0x40000000#64 4)]

/-- Sums of blocks of four: 12, 12, 6. -/
example : ∃ s u st, Hist s u st ∧ WritesOK s ∧ (st = [] ∧ RArgs s u 1 ∧
    got (refBlock .add 1 4 s) (fun r s' => (s'.vars r).size == 3 && entry 0 12#64 r s' && entry 1 12#64 r s' &&
      entry 2 6#64 r s') = true) :=
  greach rdemo (fun s u st => st = [] ∧ RArgs s u 1 ∧
    got (refBlock .add 1 4 s) (fun r s' => (s'.vars r).size == 3 && entry 0 12#64 r s' && entry 1 12#64 r s' &&
      entry 2 6#64 r s') = true) (by decide +kernel)

/-- Products of blocks of four: 81, 81, 9. -/
example : ∃ s u st, Hist s u st ∧ WritesOK s ∧ (st = [] ∧ RArgs s u 1 ∧
    (∀ n ∈ List.range 5, ProductFits (s.vars 1).type (s.vars 1).literal n) ∧
    got (refBlock .mul 1 4 s) (fun r s' => (s'.vars r).size == 3 && entry 1 81#64 r s' && entry 2 9#64 r s') = true) :=
  greach rdemo (fun s u st => st = [] ∧ RArgs s u 1 ∧
    (∀ n ∈ List.range 5, ProductFits (s.vars 1).type (s.vars 1).literal n) ∧
    got (refBlock .mul 1 4 s) (fun r s' => (s'.vars r).size == 3 && entry 1 81#64 r s' && entry 2 9#64 r s') = true)
    (by decide +kernel)

/-- Blocks that are larger than the array, and complete blocks. -/
example : ∃ s u st, Hist s u st ∧ WritesOK s ∧ (st = [] ∧ RArgs s u 1 ∧
    got (refBlock .add 1 100 s) (fun r s' => (s'.vars r).size == 1 && entry 0 30#64 r s') = true ∧
    got (refBlock .add 1 5 s) (fun r s' => (s'.vars r).kind == .literal && (s'.vars r).size == 2 && entry 1 15#64 r s') = true ∧
    got (refBlock .max 1 4 s) (fun r s' => (s'.vars r).size == 3 && entry 2 3#64 r s') = true) :=
  greach rdemo (fun s u st => st = [] ∧ RArgs s u 1 ∧
    got (refBlock .add 1 100 s) (fun r s' => (s'.vars r).size == 1 && entry 0 30#64 r s') = true ∧
    got (refBlock .add 1 5 s) (fun r s' => (s'.vars r).kind == .literal && (s'.vars r).size == 2 && entry 1 15#64 r s') = true ∧
    got (refBlock .max 1 4 s) (fun r s' => (s'.vars r).size == 3 && entry 2 3#64 r s') = true) (by decide +kernel)

/-- Reductions: the sum of eight numbers -7, the product of ten 3s, and the neutral elements. -/
example : ∃ s u st, Hist s u st ∧ WritesOK s ∧ (st = [] ∧ RArgs s u 3 ∧
    got (refRed .add 3 s) (fun r s' => (s'.vars r).size == 1 && entry 0 (BitVec.ofInt 64 (-56)) r s') = true ∧
    ProductFits (s.vars 1).type (s.vars 1).literal (s.vars 1).size ∧
    got (refRed .mul 1 s) (fun r s' => (s'.vars r).size == 1 && entry 0 59049#64 r s') = true ∧
    got (varReduce refPow raise 1 .i16 .max 0 s) (fun r s' => (s'.vars r).size == 1 && entry 0 0x8000#64 r s') = true) :=
  greach rdemo (fun s u st => st = [] ∧ RArgs s u 3 ∧
    got (refRed .add 3 s) (fun r s' => (s'.vars r).size == 1 && entry 0 (BitVec.ofInt 64 (-56)) r s') = true ∧
    ProductFits (s.vars 1).type (s.vars 1).literal (s.vars 1).size ∧
    got (refRed .mul 1 s) (fun r s' => (s'.vars r).size == 1 && entry 0 59049#64 r s') = true ∧
    got (varReduce refPow raise 1 .i16 .max 0 s) (fun r s' => (s'.vars r).size == 1 && entry 0 0x8000#64 r s') = true)
    (by decide +kernel)

/-- Prefix sums: exclusive, inclusive, from the end. -/
example : ∃ s u st, Hist s u st ∧ WritesOK s ∧ (st = [] ∧ RArgs s u 1 ∧ RArgs s u 3 ∧
    got (refPrefix .add 1 4 true false s) (fun r s' => (s'.vars r).size == 10 && entry 6 6#64 r s' && entry 8 0#64 r s') = true ∧
    got (refPrefix .add 1 10 false false s) (fun r s' => (s'.vars r).size == 10 && entry 9 30#64 r s') = true ∧
    got (refPrefix .add 3 4 false true s) (fun r s' => (s'.vars r).size == 8 && entry 5 (BitVec.ofInt 64 (-21)) r s') = true ∧
    got (refPrefix .min 1 4 false true s) (fun r s' => (s'.vars r).size == 10 && entry 5 3#64 r s') = true) :=
  greach rdemo (fun s u st => st = [] ∧ RArgs s u 1 ∧ RArgs s u 3 ∧
    got (refPrefix .add 1 4 true false s) (fun r s' => (s'.vars r).size == 10 && entry 6 6#64 r s' && entry 8 0#64 r s') = true ∧
    got (refPrefix .add 1 10 false false s) (fun r s' => (s'.vars r).size == 10 && entry 9 30#64 r s') = true ∧
    got (refPrefix .add 3 4 false true s) (fun r s' => (s'.vars r).size == 8 && entry 5 (BitVec.ofInt 64 (-21)) r s') = true ∧
    got (refPrefix .min 1 4 false true s) (fun r s' => (s'.vars r).size == 10 && entry 5 3#64 r s') = true)
    (by decide +kernel)

/-- The failures: the last entry of a reversed sum is 2 instead of 1; the product of 256 twos modulo 256
is 1 instead of 0; the sum of four numbers 2^30 is undefined. -/
example : ∃ s u st, Hist s u st ∧ WritesOK s ∧ (st = [] ∧ RArgs s u 2 ∧ (s.vars 2).size % 2 ≠ 0 ∧
    got (refPrefix .add 2 2 false true s) (entry 2 2#64) = true ∧
    got (refPrefix .min 1 4 true false s) (entry 0 3#64) = true ∧
    RArgs s u 4 ∧ got (refRed .mul 4 s) (entry 0 1#64) = true ∧
    RArgs s u 5 ∧ (match refRed .add 5 s with | .stop .ub => true | _ => false) = true) :=
  greach rdemo (fun s u st => st = [] ∧ RArgs s u 2 ∧ (s.vars 2).size % 2 ≠ 0 ∧
    got (refPrefix .add 2 2 false true s) (entry 2 2#64) = true ∧
    got (refPrefix .min 1 4 true false s) (entry 0 3#64) = true ∧
    RArgs s u 4 ∧ got (refRed .mul 4 s) (entry 0 1#64) = true ∧
    RArgs s u 5 ∧ (match refRed .add 5 s with | .stop .ub => true | _ => false) = true)
    (by decide +kernel)

/-- A block size close to 2^32 makes the number of blocks wrap around to zero; this raises. -/
example : ∃ s u st, Hist s u st ∧ WritesOK s ∧ (st = [] ∧ RArgs s u 2 ∧ (s.vars 2).size = 3 ∧
    (match refBlock .add 2 (2 ^ 32 - 1) s with | .raise _ => true | _ => false) = true) :=
  greach rdemo (fun s u st => st = [] ∧ RArgs s u 2 ∧ (s.vars 2).size = 3 ∧
    (match refBlock .add 2 (2 ^ 32 - 1) s with | .raise _ => true | _ => false) = true) (by decide +kernel)

end Verif.Jit
