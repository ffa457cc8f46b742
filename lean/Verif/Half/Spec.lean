import Verif.Ieee.Round
import Verif.Half.Model

/-!
# Specification of conversions and multiplication
-/
namespace Verif.Half
open Verif.Ieee

/-- The datum and the sign bit of a half precision number (1 sign, 5 exponent, 10 fraction bits) -/
def half (h : BitVec 16) : FP := decode 5 10 h.toNat
def halfNeg (h : BitVec 16) : Bool := h.msb

/-- The datum and the sign bit of a single precision number (1 sign, 8 exponent, 23 fraction
bits) -/
def single (f : F32) : FP := decode 8 23 f.toNat
def singleNeg (f : F32) : Bool := f.msb

/-- `f` is the single precision number nearest to `q` (ties to even), with the given sign. -/
def NearestSingle (q : ℚ) (neg : Bool) (f : F32) : Prop := Rounds 8 23 q neg f.toNat
/-- `h` is the half precision number nearest to `q` (ties to even), with the given sign. -/
def NearestHalf (q : ℚ) (neg : Bool) (h : BitVec 16) : Prop := Rounds 5 10 q neg h.toNat

/-- IEEE 754 multiplication of single precision numbers, rounding to nearest even. -/
structure IsMul (mul : F32 → F32 → F32) : Prop where
  nan_left : ∀ a b, single a = .nan → single (mul a b) = .nan
  nan_right : ∀ a b, single b = .nan → single (mul a b) = .nan
  inf_zero : ∀ a b s, single a = .inf s → single b = .fin 0 → single (mul a b) = .nan
  zero_inf : ∀ a b s, single a = .fin 0 → single b = .inf s → single (mul a b) = .nan
  inf_inf : ∀ a b s t, single a = .inf s → single b = .inf t → single (mul a b) = .inf (s ^^ t)
  inf_fin : ∀ a b s q, single a = .inf s → single b = .fin q → q ≠ 0 →
    single (mul a b) = .inf (s ^^ singleNeg b)
  fin_inf : ∀ a b s q, single a = .fin q → single b = .inf s → q ≠ 0 →
    single (mul a b) = .inf (singleNeg a ^^ s)
  fin_fin : ∀ a b p q, single a = .fin p → single b = .fin q →
    NearestSingle (p * q) (singleNeg a ^^ singleNeg b) (mul a b)

end Verif.Half
