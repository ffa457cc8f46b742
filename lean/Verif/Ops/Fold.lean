import Verif.Ops.Spec
import Mathlib.Tactic.ByContra
import Mathlib.Tactic.Ring
import Mathlib.Tactic.Zify
import Mathlib.Tactic.Positivity
/-!
# Folding of literals agrees with the instructions
-/
namespace Verif.Ops
open Verif.Var

theorem bits_le (t : VType) : t.bits ≤ 64 := by cases t <;> decide
theorem isInt_bits {t : VType} (h : t.isInt = true) : 8 ≤ t.bits := by revert h; cases t <;> decide
theorem isInt_iff {t : VType} (h : t.isInt = true) : (t.isSint = true ∧ t.isUint = false) ∨
    (t.isSint = false ∧ t.isUint = true) := by revert h; cases t <;> decide

theorem setWidth_setWidth {w : Nat} (h : w ≤ 64) (a : BitVec w) :
    (a.setWidth 64).setWidth w = a := by
  apply BitVec.eq_of_toNat_eq
  simp only [BitVec.toNat_setWidth]
  have := a.isLt
  have h2 : 2 ^ w ≤ 2 ^ 64 := Nat.pow_le_pow_right (by decide) h
  rw [Nat.mod_eq_of_lt (lt_of_lt_of_le this h2), Nat.mod_eq_of_lt this]

theorem norm_setWidth (t : VType) (a : BitVec t.bits) : norm t (a.setWidth 64) = a.setWidth 64 := by
  unfold norm; rw [setWidth_setWidth (bits_le t)]

theorem setWidth_norm (t : VType) (x : BitVec 64) : (norm t x).setWidth t.bits = x.setWidth t.bits := by
  unfold norm; rw [setWidth_setWidth (bits_le t)]

theorem norm_norm (t : VType) (x : BitVec 64) : norm t (norm t x) = norm t x := norm_setWidth t _

theorem setWidth_ofInt {w : Nat} (h : w ≤ 64) (r : Int) :
    (BitVec.ofInt 64 r).setWidth w = BitVec.ofInt w r := by
  apply BitVec.eq_of_toNat_eq
  rw [BitVec.toNat_setWidth, BitVec.toNat_ofInt, BitVec.toNat_ofInt]
  have hd : (2 ^ w : Nat) ∣ 2 ^ 64 := Nat.pow_dvd_pow 2 h
  have h1 : (0 : Int) ≤ r % 2 ^ 64 := Int.emod_nonneg _ (by decide)
  have h2 : (0 : Int) ≤ r % 2 ^ w := Int.emod_nonneg _ (by positivity)
  zify
  rw [Int.toNat_of_nonneg h1, Int.toNat_of_nonneg h2]
  exact Int.emod_emod_of_dvd r (by exact_mod_cast hd)

/-- Storing an integer as a literal of type `t`. -/
theorem norm_ofInt (t : VType) (r : Int) :
    norm t (BitVec.ofInt 64 r) = (BitVec.ofInt t.bits r).setWidth 64 := by
  unfold norm; rw [setWidth_ofInt (bits_le t)]

/-- Reading a literal of type `t` as an integer. -/
theorem ofInt_cInt (t : VType) (x : BitVec 64) :
    BitVec.ofInt t.bits (cInt t x) = x.setWidth t.bits := by
  unfold cInt
  split
  · exact BitVec.ofInt_toInt
  · rw [BitVec.ofInt_natCast, BitVec.ofNat_toNat, BitVec.setWidth_eq]

theorem cArith_val {t : VType} {r : Int} {v : BitVec 64} (h : cArith t r = .val v) :
    v = BitVec.ofInt 64 r := by
  unfold cArith at h
  split at h
  · cases h
  · cases h; rfl

section
variable {t : VType} {x y z v : BitVec 64}

theorem fold_add (ht : t.isInt = true) (h : foldInt2 t (· + ·) x y = .val v)
    (hs : sem2 .add t t t x y = some z) : norm t v = z := by
  unfold foldInt2 at h
  rw [if_pos ht] at h
  have hs' : (x.setWidth t.bits + y.setWidth t.bits).setWidth 64 = z := by
    simpa [sem2, ht] using hs
  rw [cArith_val h, norm_ofInt, ← hs', BitVec.ofInt_add, ofInt_cInt, ofInt_cInt]

theorem fold_mul (ht : t.isInt = true) (h : foldInt2 t (· * ·) x y = .val v)
    (hs : sem2 .mul t t t x y = some z) : norm t v = z := by
  unfold foldInt2 at h
  rw [if_pos ht] at h
  have hs' : (x.setWidth t.bits * y.setWidth t.bits).setWidth 64 = z := by
    simpa [sem2, ht] using hs
  rw [cArith_val h, norm_ofInt, ← hs', BitVec.ofInt_mul, ofInt_cInt, ofInt_cInt]

theorem fold_sub (ht : t.isInt = true) (h : foldInt2 t (· - ·) x y = .val v)
    (hs : sem2 .sub t t t x y = some z) : norm t v = z := by
  unfold foldInt2 at h
  rw [if_pos ht] at h
  have hs' : (x.setWidth t.bits - y.setWidth t.bits).setWidth 64 = z := by
    simpa [sem2, ht] using hs
  rw [cArith_val h, norm_ofInt, ← hs']
  change (BitVec.ofInt t.bits (cInt t x - cInt t y)).setWidth 64 = _
  rw [Int.sub_eq_add_neg, BitVec.ofInt_add, BitVec.ofInt_neg,
    ofInt_cInt, ofInt_cInt, ← BitVec.sub_eq_add_neg]

theorem cInt_signed (h : t.isSint = true) : cInt t x = (x.setWidth t.bits).toInt := by
  unfold cInt; rw [if_pos h]

theorem cInt_unsigned (h : t.isSint = false) : cInt t x = (x.setWidth t.bits).toNat := by
  unfold cInt; rw [if_neg (by simp [h])]

theorem cInt_eq_zero (t : VType) : cInt t y = 0 ↔ y.setWidth t.bits = 0 := by
  constructor
  · intro h
    rw [← ofInt_cInt, h]; rfl
  · intro h
    unfold cInt; rw [h]; split <;> simp

theorem cInt_inj (t : VType) : cInt t x = cInt t y ↔ x.setWidth t.bits = y.setWidth t.bits := by
  constructor
  · intro h
    rw [← ofInt_cInt, h, ofInt_cInt]
  · intro h
    unfold cInt; rw [h]

theorem toInt_intMin {w : Nat} (hw : 0 < w) : (BitVec.intMin w).toInt = -2 ^ (w - 1) := by
  rw [BitVec.toInt_intMin_of_pos hw]

theorem cInt_min (ht : t.isSint = true) (hi : t.isInt = true) :
    cInt t x = -2 ^ (t.bits - 1) ↔ x.setWidth t.bits = BitVec.intMin _ := by
  have hb := isInt_bits hi
  rw [cInt_signed ht, ← toInt_intMin (by omega : 0 < t.bits), BitVec.toInt_inj]

theorem cInt_neg_one (ht : t.isSint = true) (hi : t.isInt = true) :
    cInt t x = -1 ↔ x.setWidth t.bits = -1 := by
  have hb := isInt_bits hi
  have : (-1 : BitVec t.bits).toInt = -1 := by
    have : (-1 : BitVec t.bits) = BitVec.allOnes _ := BitVec.neg_one_eq_allOnes
    rw [this, BitVec.toInt_allOnes, if_pos (by omega)]
  rw [cInt_signed ht, ← this, BitVec.toInt_inj]

theorem fold_div (ht : t.isInt = true) (h : evalDiv t x y = .val v)
    (hs : sem2 .div t t t x y = some z) : norm t v = z := by
  unfold evalDiv at h
  rw [if_pos ht] at h
  simp only [sem2, ht, and_self, if_true] at hs
  by_cases h0 : y.setWidth t.bits = 0
  · rw [if_pos h0] at hs; cases hs
  rw [if_neg h0] at hs
  rw [if_neg (fun e => h0 ((cInt_eq_zero t).1 e))] at h
  rcases isInt_iff ht with ⟨h1, _⟩ | ⟨h1, _⟩
  · rw [if_pos h1] at hs
    by_cases h2 : x.setWidth t.bits = BitVec.intMin _ ∧ y.setWidth t.bits = -1
    · rw [if_pos h2] at hs; cases hs
    rw [if_neg h2] at hs
    rw [if_neg (by
      rintro ⟨_, e1, e2⟩
      exact h2 ⟨(cInt_min h1 ht).1 e1, (cInt_neg_one h1 ht).1 e2⟩)] at h
    cases h
    simp only [Option.map_some, Option.some.injEq] at hs
    rw [norm_ofInt, ← hs, cInt_signed h1, cInt_signed h1]
    congr 1
    apply BitVec.eq_of_toInt_eq
    rw [BitVec.toInt_sdiv, BitVec.toInt_ofInt]
  · rw [if_neg (by simp [h1])] at hs
    rw [if_neg (by simp [h1])] at h
    cases h
    simp only [Option.map_some, Option.some.injEq] at hs
    rw [norm_ofInt, ← hs, cInt_unsigned h1, cInt_unsigned h1]
    congr 1
    rw [← Int.ofNat_tdiv, BitVec.ofInt_natCast]
    apply BitVec.eq_of_toNat_eq
    rw [BitVec.toNat_ofNat]
    change _ = (x.setWidth t.bits / y.setWidth t.bits).toNat
    rw [BitVec.toNat_udiv]
    exact Nat.mod_eq_of_lt (lt_of_le_of_lt (Nat.div_le_self _ _) (BitVec.isLt _))

theorem fold_mod (ht : t.isInt = true) (h : evalMod t x y = .val v)
    (hs : sem2 .mod t t t x y = some z) : norm t v = z := by
  unfold evalMod at h
  rw [if_pos ht] at h
  simp only [sem2, ht, and_self, if_true] at hs
  by_cases h0 : y.setWidth t.bits = 0
  · rw [if_pos h0] at hs; cases hs
  rw [if_neg h0] at hs
  rw [if_neg (fun e => h0 ((cInt_eq_zero t).1 e))] at h
  rcases isInt_iff ht with ⟨h1, _⟩ | ⟨h1, _⟩
  · rw [if_pos h1] at hs
    by_cases h2 : x.setWidth t.bits = BitVec.intMin _ ∧ y.setWidth t.bits = -1
    · rw [if_pos h2] at hs; cases hs
    rw [if_neg h2] at hs
    rw [if_neg (by
      rintro ⟨_, e1, e2⟩
      exact h2 ⟨(cInt_min h1 ht).1 e1, (cInt_neg_one h1 ht).1 e2⟩)] at h
    cases h
    simp only [Option.map_some, Option.some.injEq] at hs
    rw [norm_ofInt, ← hs, cInt_signed h1, cInt_signed h1]
    congr 1
    apply BitVec.eq_of_toInt_eq
    rw [BitVec.toInt_ofInt, ← BitVec.toInt_srem]
    exact BitVec.toInt_bmod_cancel _
  · rw [if_neg (by simp [h1])] at hs
    rw [if_neg (by simp [h1])] at h
    cases h
    simp only [Option.map_some, Option.some.injEq] at hs
    rw [norm_ofInt, ← hs, cInt_unsigned h1, cInt_unsigned h1]
    congr 1
    rw [← Int.ofNat_tmod, BitVec.ofInt_natCast]
    apply BitVec.eq_of_toNat_eq
    rw [BitVec.toNat_ofNat]
    change _ = (x.setWidth t.bits % y.setWidth t.bits).toNat
    rw [BitVec.toNat_umod]
    exact Nat.mod_eq_of_lt (lt_of_le_of_lt (Nat.mod_le _ _) (BitVec.isLt _))

theorem ofInt_shiftRight_mul {w : Nat} (r : Int) :
    BitVec.ofInt w (r >>> w) = ((BitVec.ofInt (2 * w) r) >>> w).setWidth w := by
  apply BitVec.eq_of_toNat_eq
  rw [BitVec.toNat_setWidth, BitVec.toNat_ushiftRight, BitVec.toNat_ofInt, BitVec.toNat_ofInt]
  have hp : (0 : Int) < 2 ^ w := by positivity
  have h1 : (0 : Int) ≤ r >>> w % 2 ^ w := Int.emod_nonneg _ (by positivity)
  have h2 : (0 : Int) ≤ r % 2 ^ (2 * w) := Int.emod_nonneg _ (by positivity)
  rw [Nat.shiftRight_eq_div_pow]
  zify
  rw [Int.toNat_of_nonneg h1, Int.toNat_of_nonneg h2, Int.shiftRight_eq_div_pow]
  push_cast
  have e3 : (2 : Int) ^ (2 * w) = 2 ^ w * 2 ^ w := by rw [two_mul, pow_add]
  rw [e3]
  generalize (2 : Int) ^ w = p at *
  -- r / p % p = r % (p * p) / p % p
  conv_lhs => rw [← Int.emod_add_mul_ediv r (p * p)]
  rw [show r % (p * p) + p * p * (r / (p * p)) = r % (p * p) + p * (r / (p * p)) * p by ring,
    Int.add_mul_ediv_right _ _ (by omega)]
  rw [Int.add_mul_emod_self_left]

theorem fold_mulHi (ht : t.isInt = true) (h : evalMulHi t x y = .val v)
    (hs : sem2 .mulHi t t t x y = some z) : norm t v = z := by
  unfold evalMulHi at h
  split at h
  swap
  · cases h
  cases h
  simp only [sem2, ht, and_self, if_true, Option.map_some, Option.some.injEq] at hs
  rw [norm_ofInt, ofInt_shiftRight_mul, ← hs]
  congr 1
  rcases isInt_iff ht with ⟨h1, _⟩ | ⟨h1, _⟩
  · rw [if_pos h1, cInt_signed h1, cInt_signed h1, BitVec.ofInt_mul]
    rfl
  · rw [if_neg (by simp [h1]), cInt_unsigned h1, cInt_unsigned h1, BitVec.ofInt_mul,
      BitVec.ofInt_natCast, BitVec.ofInt_natCast, BitVec.ofNat_toNat, BitVec.ofNat_toNat]

theorem norm_eq (hx : norm t x = x) : (x.setWidth t.bits).setWidth 64 = x := hx

theorem fold_shl (ht : t.isInt = true) (h : evalShl t x y = .val v)
    (hs : sem2 .shl t t t x y = some z) : norm t v = z := by
  unfold evalShl at h
  rw [if_pos ht] at h
  simp only [sem2, ht, and_self, if_true] at hs
  split at h
  · cases h
  cases h
  by_cases hb : (y.setWidth t.bits).toNat < t.bits
  swap
  · rw [if_neg hb] at hs; cases hs
  rw [if_pos hb] at hs
  simp only [Option.map_some, Option.some.injEq] at hs
  rw [← hs]
  unfold norm
  congr 1
  apply BitVec.eq_of_toNat_eq
  rw [BitVec.toNat_setWidth, BitVec.toNat_shiftLeft, BitVec.toNat_shiftLeft,
    show (x.setWidth t.bits).toNat = x.toNat % 2 ^ t.bits from BitVec.toNat_setWidth _ _,
    Nat.mod_mod_of_dvd _ (Nat.pow_dvd_pow 2 (bits_le t)), Nat.shiftLeft_eq, Nat.shiftLeft_eq,
    Nat.mod_mul_mod]

theorem fold_shr (ht : t.isInt = true) (h : evalShr t x y = .val v)
    (hs : sem2 .shr t t t x y = some z) : norm t v = z := by
  unfold evalShr at h
  rw [if_pos ht] at h
  simp only [sem2, ht, and_self, if_true] at hs
  split at h
  · cases h
  rename_i hy
  cases h
  by_cases hb : (y.setWidth t.bits).toNat < t.bits
  swap
  · rw [if_neg hb] at hs; cases hs
  rw [if_pos hb] at hs
  simp only [Option.map_some, Option.some.injEq] at hs
  have hyn : (cInt t y).toNat = (y.setWidth t.bits).toNat := by
    rcases isInt_iff ht with ⟨h1, _⟩ | ⟨h1, _⟩
    · have := cInt_signed (t := t) (x := y) h1
      rw [this, BitVec.toInt_eq_toNat_cond] at hy ⊢
      split at hy
      · rename_i h2; rw [if_pos h2]; exact Int.toNat_natCast _
      · have := (y.setWidth t.bits).isLt
        omega
    · rw [cInt_unsigned h1]; exact Int.toNat_natCast _
  rw [hyn, norm_ofInt, ← hs]
  congr 1
  rcases isInt_iff ht with ⟨h1, _⟩ | ⟨h1, _⟩
  · rw [if_pos h1, cInt_signed h1]
    apply BitVec.eq_of_toInt_eq
    rw [BitVec.toInt_sshiftRight, ← BitVec.toInt_sshiftRight, BitVec.ofInt_toInt]
  · rw [if_neg (by simp [h1]), cInt_unsigned h1]
    have : ((x.setWidth t.bits).toNat : Int) >>> (y.setWidth t.bits).toNat =
        (((x.setWidth t.bits).toNat >>> (y.setWidth t.bits).toNat : Nat) : Int) := by rfl
    rw [this, BitVec.ofInt_natCast]
    apply BitVec.eq_of_toNat_eq
    rw [BitVec.toNat_ofNat, BitVec.toNat_ushiftRight]
    refine Nat.mod_eq_of_lt (lt_of_le_of_lt ?_ (BitVec.isLt (x.setWidth t.bits)))
    rw [Nat.shiftRight_eq_div_pow]; exact Nat.div_le_self _ _

theorem fold_neg (ht : t.isInt = true) (h : evalNeg t x = .val v)
    (hs : sem1 .neg t t x = some z) : norm t v = z := by
  unfold evalNeg at h
  rw [if_pos ht] at h
  simp only [sem1, ht, and_self, if_true, Option.some.injEq] at hs
  split at h
  · cases h
  cases h
  rw [norm_ofInt, BitVec.ofInt_neg, BitVec.ofInt_toInt, hs]

/-- Values of Booleans. -/
theorem norm_bool (hx : norm .bool x = x) : x = 0#64 ∨ x = 1#64 := by
  have h1 : x.toNat = x.toNat % 2 := by
    have := congrArg BitVec.toNat hx
    unfold norm at this
    rw [BitVec.toNat_setWidth, BitVec.toNat_setWidth] at this
    change x.toNat % 2 ^ 1 % 2 ^ 64 = x.toNat at this
    omega
  rcases Nat.mod_two_eq_zero_or_one x.toNat with h | h
  · left; apply BitVec.eq_of_toNat_eq; rw [h1, h]; rfl
  · right; apply BitVec.eq_of_toNat_eq; rw [h1, h]; rfl

theorem norm_ofBool (b : Bool) : norm .bool (ofBool b) = ofBool b := by cases b <;> rfl

theorem norm_ofBool' (ht : 0 < t.bits) (b : Bool) : norm t (ofBool b) = ofBool b := by
  revert ht; cases t <;> cases b <;> decide

theorem cBool_of (hx : norm .bool x = x) : ∃ b, cBool x = some b ∧ x = ofBool b := by
  rcases norm_bool hx with rfl | rfl
  · exact ⟨false, rfl, rfl⟩
  · exact ⟨true, rfl, rfl⟩

theorem setWidth_not (t : VType) (x : BitVec 64) :
    (~~~ x).setWidth t.bits = ~~~ (x.setWidth t.bits) := by
  apply BitVec.eq_of_getLsbD_eq
  intro i hi
  have := bits_le t
  simp only [BitVec.getLsbD_setWidth, BitVec.getLsbD_not, hi, decide_true, Bool.true_and]
  simp only [show i < 64 by omega, decide_true, Bool.true_and]

theorem fold_not (hx : norm t x = x) (h : evalNot t x = .val v)
    (hs : sem1 .not t t x = some z) : norm t v = z ∧ (t = .bool → norm .bool v = v) := by
  unfold evalNot at h
  by_cases hb : t = .bool
  · subst hb
    rw [if_pos rfl] at h
    obtain ⟨b, e1, e2⟩ := cBool_of hx
    rw [e1] at h
    cases h
    subst e2
    refine ⟨?_, fun _ => norm_ofBool _⟩
    rw [norm_ofBool]
    revert hs
    cases b <;> (intro hs; simp [sem1] at hs; rw [← hs]; rfl)
  · rw [if_neg hb] at h
    refine ⟨?_, fun e => absurd e hb⟩
    split at h
    · rename_i ht
      cases h
      simp only [Bool.or_eq_true] at ht
      rcases ht with ht | ht <;>
      · simp only [sem1, ht, true_or, or_true, and_self, if_true, Option.some.injEq] at hs
        rw [← hs]; unfold norm; rw [setWidth_not]
    · cases h

theorem fold_abs (ht : t.isInt = true) (h : evalAbs t x = .val v)
    (hs : sem1 .abs t t x = some z) : norm t v = z := by
  unfold evalAbs at h
  simp only [sem1, ht, and_self, if_true, Option.some.injEq] at hs
  rcases isInt_iff ht with ⟨h1, _⟩ | ⟨h1, h2⟩
  · rw [if_pos h1] at h
    split at h
    · cases h
    cases h
    rw [norm_ofInt, ← hs, cInt_signed h1]
    congr 1
    split
    · rename_i hn
      rw [Int.ofNat_natAbs_of_nonpos (by omega), BitVec.ofInt_neg, BitVec.ofInt_toInt]
    · rename_i hn
      rw [Int.natAbs_of_nonneg (by
        simp only [h1, true_and] at hn
        omega), BitVec.ofInt_toInt]
  · rw [if_neg (by simp [h1]), if_pos h2] at h
    cases h
    rw [if_neg (by simp [h1])] at hs
    exact hs

end
end Verif.Ops
