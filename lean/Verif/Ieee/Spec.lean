import Mathlib.Data.Rat.Defs
import Mathlib.Algebra.Order.Field.Rat
import Mathlib.Algebra.Order.Field.Power
/-!
# Specification: IEEE 754 binary interchange formats

A format has `eb` exponent bits and `mb` fraction bits; a number is given by its bit pattern,
a natural number of which only the low `1 + eb + mb` bits matter.
-/
namespace Verif.Ieee

/-- The datum represented by a bit pattern (signs of zeros and NaN payloads are dropped). -/
inductive FP where
  | nan
  | inf (neg : Bool)
  | fin (q : ℚ)

/-- Fraction, biased exponent and sign of a bit pattern. -/
def frac (mb n : Nat) : Nat := n % 2 ^ mb
@[inherit_doc frac] def expo (eb mb n : Nat) : Nat := n / 2 ^ mb % 2 ^ eb
@[inherit_doc frac] def sign (eb mb n : Nat) : Bool := n / 2 ^ (mb + eb) % 2 == 1

/-- The exponent bias. -/
def bias (eb : Nat) : ℤ := 2 ^ (eb - 1) - 1

/-- IEEE 754-2008, 3.4. -/
def decode (eb mb n : Nat) : FP :=
  if expo eb mb n = 2 ^ eb - 1 then
    if frac mb n = 0 then .inf (sign eb mb n) else .nan
  else .fin ((if sign eb mb n then -1 else 1) *
    (if expo eb mb n = 0 then ((frac mb n : ℚ) / 2 ^ mb) * 2 ^ (1 - bias eb)
     else (1 + (frac mb n : ℚ) / 2 ^ mb) * 2 ^ ((expo eb mb n : ℤ) - bias eb)))

/-- `a < b` (IEEE 754-2008, 5.11): false if an operand is a NaN. -/
def FP.lt : FP → FP → Prop
  | .nan, _ => False
  | _, .nan => False
  | .fin a, .fin b => a < b
  | .fin _, .inf n => n = false
  | .inf n, .fin _ => n = true
  | .inf n, .inf m => n = true ∧ m = false

/-- `a = b`: false if an operand is a NaN. -/
def FP.eq : FP → FP → Prop
  | .nan, _ => False
  | _, .nan => False
  | .fin a, .fin b => a = b
  | .inf n, .inf m => n = m
  | _, _ => False

end Verif.Ieee
