import Verif.Ieee.Lemmas
import Mathlib.Algebra.Order.Group.Unbundled.Abs
import Mathlib.Algebra.Order.Archimedean.Basic
import Mathlib.Data.Rat.Floor

/-!
# Rounding to nearest, ties to even
-/
namespace Verif.Ieee

/-- Results of at least this magnitude round to infinity (IEEE 754-2008, 4.3.1:
`b^emax (b - ½ b^(1-p))` with `b = 2`, `p = mb + 1` and `emax = bias`). -/
def limit (eb mb : Nat) : ℚ := 2 ^ (bias eb) * (2 - 1 / 2 * 2 ^ (1 - ((mb : ℤ) + 1)))

/-- `n` is the result of rounding a number with exact value `q` and sign `neg` to the nearest
number of the format; in the case of a tie, to the one with an even significand
(roundTiesToEven, IEEE 754-2008, 4.3.1). -/
def Rounds (eb mb : Nat) (q : ℚ) (neg : Bool) (n : Nat) : Prop :=
  n < 2 ^ (mb + eb + 1) ∧ sign eb mb n = neg ∧
  if limit eb mb ≤ |q| then decode eb mb n = .inf neg
  else ∃ r, decode eb mb n = .fin r ∧ ∀ m r', decode eb mb m = .fin r' →
    |q - r| ≤ |q - r'| ∧ (|q - r| = |q - r'| → r ≠ r' → n % 2 = 0)

/-- `-1` or `1` -/
def sgn (neg : Bool) : ℚ := if neg then -1 else 1

/-- Nearest magnitude bits, for a number given in units -/
def Near (mb : Nat) (v : ℚ) (k : Nat) : Prop :=
  ∃ a, (units mb a : ℚ) ≤ v ∧ v < units mb (a + 1) ∧
    ((2 * v < (units mb a : ℚ) + units mb (a + 1) ∧ k = a) ∨
     ((units mb a : ℚ) + units mb (a + 1) < 2 * v ∧ k = a + 1) ∨
     (2 * v = (units mb a : ℚ) + units mb (a + 1) ∧ k = a + a % 2))

theorem units_le_iff {mb a b : Nat} : units mb a ≤ units mb b ↔ a ≤ b := by
  have := units_lt_iff (mb := mb) (a := b) (b := a); omega

theorem ule {mb a b : Nat} (h : a ≤ b) : (units mb a : ℚ) ≤ units mb b := Nat.cast_le.2 (units_le_iff.2 h)
theorem ult {mb a b : Nat} (h : a < b) : (units mb a : ℚ) < units mb b := Nat.cast_lt.2 (units_lt h)
theorem units_inj {mb a b : Nat} (h : units mb a = units mb b) : a = b := by
  rcases Nat.lt_trichotomy a b with h1 | h1 | h1
  · have := units_lt (mb := mb) h1; omega
  · exact h1
  · have := units_lt (mb := mb) h1; omega

theorem le_units (mb a : Nat) : a ≤ units mb a := by
  induction a with
  | zero => simp
  | succ a ih => have := units_lt (mb := mb) (show a < a + 1 by omega); omega

theorem near_exists (mb : Nat) {v : ℚ} (hv : 0 ≤ v) : ∃ k, Near mb v k := by
  have hex : ∃ a, v < units mb (a + 1) := by
    obtain ⟨n, hn⟩ := exists_nat_gt v
    refine ⟨n, hn.trans_le ?_⟩
    exact_mod_cast (Nat.le_succ n).trans (le_units mb (n + 1))
  classical
  have h1 := Nat.find_spec hex
  have h2 : (units mb (Nat.find hex) : ℚ) ≤ v := by
    rcases Nat.eq_zero_or_pos (Nat.find hex) with h | h
    · rw [h, units_zero]; simpa using hv
    · have := Nat.find_min hex (m := Nat.find hex - 1) (by omega)
      rw [show Nat.find hex - 1 + 1 = Nat.find hex by omega, not_lt] at this
      exact this
  rcases lt_trichotomy (2 * v) ((units mb (Nat.find hex) : ℚ) + units mb (Nat.find hex + 1)) with h | h | h
  · exact ⟨_, _, h2, h1, .inl ⟨h, rfl⟩⟩
  · exact ⟨_, _, h2, h1, .inr (.inr ⟨h, rfl⟩)⟩
  · exact ⟨_, _, h2, h1, .inr (.inl ⟨h, rfl⟩)⟩

theorem near_unique {mb : Nat} {v : ℚ} {k l : Nat} (h1 : Near mb v k) (h2 : Near mb v l) : k = l := by
  obtain ⟨a, a1, a2, a3⟩ := h1
  obtain ⟨b, b1, b2, b3⟩ := h2
  have : a = b := by
    rcases Nat.lt_trichotomy a b with h | h | h
    · have := ule (mb := mb) (show a + 1 ≤ b by omega); linarith
    · exact h
    · have := ule (mb := mb) (show b + 1 ≤ a by omega); linarith
  subst this
  rcases a3 with ⟨x, rfl⟩ | ⟨x, rfl⟩ | ⟨x, rfl⟩ <;> rcases b3 with ⟨y, rfl⟩ | ⟨y, rfl⟩ | ⟨y, rfl⟩ <;>
    first | rfl | (exfalso; linarith)

theorem near_exact (mb k : Nat) : Near mb (units mb k) k :=
  ⟨k, le_refl _, ult (Nat.lt_succ_self _), .inl ⟨by have := ult (mb := mb) (Nat.lt_succ_self k); linarith, rfl⟩⟩

/-- Nothing is closer. -/
theorem near_best {mb : Nat} {v : ℚ} {k : Nat} (h : Near mb v k) (j : Nat) :
    |v - units mb k| ≤ |v - units mb j| ∧ (|v - units mb k| = |v - units mb j| → j ≠ k → k % 2 = 0) := by
  obtain ⟨a, a1, a2, a3⟩ := h
  have hj : (units mb j : ℚ) ≤ units mb a ∧ j ≤ a ∨ (units mb (a + 1) : ℚ) ≤ units mb j ∧ a + 1 ≤ j := by
    rcases Nat.lt_or_ge a j with h | h
    · right; exact ⟨ule h, h⟩
    · left; exact ⟨ule h, h⟩
  have hstrict : j < a → (units mb j : ℚ) < units mb a := fun h => ult h
  have hstrict2 : a + 1 < j → (units mb (a + 1) : ℚ) < units mb j := fun h => ult h
  have e1 : |v - (units mb a : ℚ)| = v - units mb a := abs_of_nonneg (by linarith)
  have e2 : |v - (units mb (a + 1) : ℚ)| = units mb (a + 1) - v := by rw [abs_of_neg (by linarith)]; ring
  have e3 : (j ≤ a → |v - (units mb j : ℚ)| = v - units mb j) := fun h =>
    abs_of_nonneg (by have := ule (mb := mb) h; linarith)
  have e4 : (a + 1 ≤ j → |v - (units mb j : ℚ)| = units mb j - v) := fun h => by
    rw [abs_of_neg (by have := ule (mb := mb) h; linarith)]; ring
  rcases a3 with ⟨x, rfl⟩ | ⟨x, rfl⟩ | ⟨x, rfl⟩
  · rw [e1]
    rcases hj with ⟨h, h'⟩ | ⟨h, h'⟩
    · rw [e3 h']
      refine ⟨by linarith, fun he hne => ?_⟩
      have := hstrict (by omega); exfalso; linarith
    · rw [e4 h']
      exact ⟨by linarith, fun he hne => by exfalso; linarith⟩
  · rw [e2]
    rcases hj with ⟨h, h'⟩ | ⟨h, h'⟩
    · rw [e3 h']
      exact ⟨by linarith, fun he hne => by exfalso; linarith⟩
    · rw [e4 h']
      refine ⟨by linarith, fun he hne => ?_⟩
      have := hstrict2 (by omega); exfalso; linarith
  · refine ⟨?_, fun _ _ => by omega⟩
    rcases Nat.mod_two_eq_zero_or_one a with h | h <;> rw [h]
    · rw [Nat.add_zero, e1]
      rcases hj with ⟨h, h'⟩ | ⟨h, h'⟩
      · rw [e3 h']; linarith
      · rw [e4 h']; linarith
    · rw [e2]
      rcases hj with ⟨h, h'⟩ | ⟨h, h'⟩
      · rw [e3 h']; linarith
      · rw [e4 h']; linarith

/-- Bit pattern of infinity -/
def infMag (eb mb : Nat) : Nat := (2 ^ eb - 1) * 2 ^ mb

theorem infMag_even {eb mb : Nat} (h : 1 ≤ mb) : infMag eb mb % 2 = 0 := by
  obtain ⟨m, rfl⟩ := Nat.exists_eq_add_of_le h
  unfold infMag
  rw [Nat.pow_add, Nat.pow_one, Nat.mul_left_comm]
  exact Nat.mul_mod_right _ _

theorem two_le_pow {eb : Nat} (h : 2 ≤ eb) : 4 ≤ 2 ^ eb := by
  have : 2 ^ 2 ≤ 2 ^ eb := Nat.pow_le_pow_right (by omega) h
  omega

/-- The overflow threshold is halfway between the largest number and the next one. -/
theorem limit_eq {eb mb : Nat} (he : 2 ≤ eb) :
    2 * limit eb mb = ((units mb (infMag eb mb - 1) : ℚ) + units mb (infMag eb mb)) * ulp eb mb := by
  have h4 := two_le_pow he
  have hp : 0 < 2 ^ mb := Nat.two_pow_pos mb
  have hI : infMag eb mb - 1 = (2 ^ eb - 2) * 2 ^ mb + (2 ^ mb - 1) := by
    unfold infMag
    rw [show 2 ^ eb - 1 = (2 ^ eb - 2) + 1 by omega, Nat.add_mul]; omega
  have d1 : infMag eb mb / 2 ^ mb = 2 ^ eb - 1 := Nat.mul_div_cancel _ hp
  have m1 : infMag eb mb % 2 ^ mb = 0 := Nat.mul_mod_left _ _
  have d2 : (infMag eb mb - 1) / 2 ^ mb = 2 ^ eb - 2 := by
    rw [hI, Nat.mul_comm, Nat.mul_add_div hp, Nat.div_eq_of_lt (by omega)]; rfl
  have m2 : (infMag eb mb - 1) % 2 ^ mb = 2 ^ mb - 1 := by
    rw [hI, Nat.mul_comm, Nat.mul_add_mod, Nat.mod_eq_of_lt (by omega)]
  have u1 : units mb (infMag eb mb) = 2 ^ mb * 2 ^ (2 ^ eb - 2) := by
    unfold units; rw [d1, m1, if_neg (by omega)]; rfl
  have u2 : units mb (infMag eb mb - 1) = (2 ^ mb + (2 ^ mb - 1)) * 2 ^ (2 ^ eb - 3) := by
    unfold units; rw [d2, m2, if_neg (by omega)]; rfl
  rw [u1, u2]
  have hb : (bias eb : ℤ) = ((2 ^ eb - 3 : ℕ) : ℤ) + (1 - bias eb) := by
    unfold bias
    have : (2 ^ eb : ℕ) = 2 * 2 ^ (eb - 1) := by rw [← Nat.pow_succ']; congr 1; omega
    have h3 : ((2 ^ eb - 3 : ℕ) : ℤ) = (2 ^ eb : ℕ) - 3 := by omega
    rw [h3, this]; push_cast; ring
  have h2 : (2 : ℚ) ≠ 0 := by norm_num
  have e1 : (2 ^ mb + (2 ^ mb - 1) : ℕ) = 2 * 2 ^ mb - 1 := by omega
  have e2 : (2 ^ eb - 2 : ℕ) = (2 ^ eb - 3) + 1 := by omega
  have e3 : ((2 * 2 ^ mb - 1 : ℕ) : ℚ) = 2 * 2 ^ mb - 1 := by
    have : 1 ≤ 2 * 2 ^ mb := by omega
    push_cast [this]; ring
  unfold limit ulp
  rw [hb, e1, e2, zpow_add₀ h2, zpow_natCast, ← hb]
  rw [show (1 : ℤ) - ((mb : ℤ) + 1) = -(mb : ℤ) by ring, zpow_neg, zpow_natCast, zpow_sub₀ h2 _ (mb : ℤ), zpow_natCast]
  rw [Nat.cast_mul, e3]
  push_cast
  rw [pow_succ]
  field_simp
  ring

theorem sgn_abs (b : Bool) (x : ℚ) : |sgn b * x| = |x| := by cases b <;> simp [sgn]

theorem mag_mod2 {eb mb n : Nat} (h : 1 ≤ mb) : mag eb mb n % 2 = n % 2 := by
  unfold mag
  obtain ⟨m, rfl⟩ := Nat.exists_eq_add_of_le h
  exact Nat.mod_mod_of_dvd _ (by rw [show 1 + m + eb = (m + eb) + 1 by omega, Nat.pow_succ]; exact ⟨_, Nat.mul_comm _ _⟩)

/-- A bit pattern is determined by sign and magnitude. -/
theorem pattern_ext {eb mb n m : Nat} (hn : n < 2 ^ (mb + eb + 1)) (hm : m < 2 ^ (mb + eb + 1))
    (hs : sign eb mb n = sign eb mb m) (h : mag eb mb n = mag eb mb m) : n = m := by
  have hp : 0 < 2 ^ (mb + eb) := Nat.two_pow_pos _
  have q : ∀ x, x < 2 ^ (mb + eb + 1) → x / 2 ^ (mb + eb) < 2 := fun x hx => by
    rw [Nat.div_lt_iff_lt_mul hp, Nat.mul_comm, ← Nat.pow_succ]; exact hx
  have q1 := q n hn
  have q2 := q m hm
  unfold sign at hs
  unfold mag at h
  have e : n / 2 ^ (mb + eb) = m / 2 ^ (mb + eb) := by
    rw [Nat.mod_eq_of_lt q1, Nat.mod_eq_of_lt q2] at hs
    generalize n / 2 ^ (mb + eb) = x at *
    generalize m / 2 ^ (mb + eb) = y at *
    have hx : x = 0 ∨ x = 1 := by omega
    have hy : y = 0 ∨ y = 1 := by omega
    rcases hx with rfl | rfl <;> rcases hy with rfl | rfl <;> simp_all
  rw [← Nat.div_add_mod n (2 ^ (mb + eb)), ← Nat.div_add_mod m (2 ^ (mb + eb)), e, h]

/-- The nearest magnitude, capped at infinity, is the correctly rounded result. -/
theorem rounds_of_near {eb mb : Nat} (he : 2 ≤ eb) (hmb : 1 ≤ mb) {v : ℚ} (hv : 0 ≤ v) {neg : Bool} {n k : Nat}
    (hn : n < 2 ^ (mb + eb + 1)) (hs : sign eb mb n = neg) (hk : Near mb v k)
    (hm : mag eb mb n = min k (infMag eb mb)) : Rounds eb mb (sgn neg * v * ulp eb mb) neg n := by
  have hu := ulp_pos eb mb
  have hlim := limit_eq (eb := eb) (mb := mb) he
  have heven := infMag_even (eb := eb) hmb
  have hIpos : 2 ≤ infMag eb mb := by
    have h4 := two_le_pow he
    have : (2 : Nat) * 1 ≤ (2 ^ eb - 1) * 2 ^ mb := Nat.mul_le_mul (by omega) (Nat.two_pow_pos _)
    exact this
  refine ⟨hn, hs, ?_⟩
  have habs : |sgn neg * v * ulp eb mb| = v * ulp eb mb := by
    rw [mul_assoc, sgn_abs, abs_of_nonneg (by positivity)]
  rw [habs]
  obtain ⟨a, a1, a2, a3⟩ := hk
  by_cases hkI : infMag eb mb ≤ k
  · -- overflow
    have hle : limit eb mb ≤ v * ulp eb mb := by
      have : (units mb (infMag eb mb - 1) : ℚ) + units mb (infMag eb mb) ≤ 2 * v := by
        rcases Nat.lt_or_ge a (infMag eb mb) with h | h
        · have ha : a = infMag eb mb - 1 := by
            rcases a3 with ⟨x, rfl⟩ | ⟨x, rfl⟩ | ⟨x, rfl⟩ <;> omega
          subst ha
          rw [show infMag eb mb - 1 + 1 = infMag eb mb by omega] at a3
          rcases a3 with ⟨x, rfl⟩ | ⟨x, rfl⟩ | ⟨x, rfl⟩
          · omega
          · exact x.le
          · exact x.ge
        · have h1 := ule (mb := mb) h
          have h2 := ule (mb := mb) (show infMag eb mb - 1 ≤ a by omega)
          linarith
      have := mul_le_mul_of_nonneg_right this hu.le
      linarith
    rw [if_pos hle]
    rw [min_eq_right hkI] at hm
    rw [← hs]
    exact inf_iff.2 hm
  · have hkI : k < infMag eb mb := by omega
    have hlt : ¬ limit eb mb ≤ v * ulp eb mb := by
      rw [not_le]
      have : 2 * v < (units mb (infMag eb mb - 1) : ℚ) + units mb (infMag eb mb) := by
        by_cases h : a = infMag eb mb - 1
        · subst h
          rw [show infMag eb mb - 1 + 1 = infMag eb mb by omega] at a3
          rcases a3 with ⟨x, rfl⟩ | ⟨x, rfl⟩ | ⟨x, rfl⟩
          · exact x
          · omega
          · omega
        · have ha : a + 1 ≤ infMag eb mb - 1 := by
            rcases a3 with ⟨x, rfl⟩ | ⟨x, rfl⟩ | ⟨x, rfl⟩ <;> omega
          have h1 := ule (mb := mb) ha
          have h2 := ult (mb := mb) (show infMag eb mb - 1 < infMag eb mb by omega)
          linarith
      have := mul_lt_mul_of_pos_right this hu
      linarith
    rw [if_neg hlt]
    rw [min_eq_left hkI.le] at hm
    have hfin := fin_value (eb := eb) (mb := mb) (n := n) (fin_iff.2 (by rw [hm]; exact hkI))
    rw [hm, hs] at hfin
    refine ⟨_, hfin, fun m r' hr' => ?_⟩
    -- values of numbers
    have hr : r' = sgn (sign eb mb m) * (units mb (mag eb mb m) : ℚ) * ulp eb mb := by
      rcases decode_cases eb mb m with ⟨e, _⟩ | ⟨e, _⟩ | ⟨e, _⟩ <;> rw [e] at hr' <;> cases hr'
      rfl
    have hd : ∀ x : ℚ, |sgn neg * v * ulp eb mb - sgn neg * x * ulp eb mb| = |v - x| * ulp eb mb := by
      intro x
      rw [show sgn neg * v * ulp eb mb - sgn neg * x * ulp eb mb = sgn neg * ((v - x) * ulp eb mb) by ring,
        sgn_abs, abs_mul, abs_of_pos hu]
    have hd2 : ∀ x : ℚ, |sgn neg * v * ulp eb mb - sgn (!neg) * x * ulp eb mb| = |v + x| * ulp eb mb := by
      intro x
      have : sgn (!neg) = - sgn neg := by cases neg <;> simp [sgn]
      rw [this, show sgn neg * v * ulp eb mb - -sgn neg * x * ulp eb mb = sgn neg * ((v + x) * ulp eb mb) by ring,
        sgn_abs, abs_mul, abs_of_pos hu]
    have hbest := near_best (mb := mb) (v := v) (k := k) ⟨a, a1, a2, a3⟩ (mag eb mb m)
    have hb0 := near_best (mb := mb) (v := v) (k := k) ⟨a, a1, a2, a3⟩ 0
    change |sgn neg * v * ulp eb mb - sgn neg * (units mb k : ℚ) * ulp eb mb| ≤ _ ∧
      (|sgn neg * v * ulp eb mb - sgn neg * (units mb k : ℚ) * ulp eb mb| = _ → _)
    rw [hd, ← mag_mod2 (eb := eb) hmb, hm, hr]
    have hj0 : (0 : ℚ) ≤ units mb (mag eb mb m) := Nat.cast_nonneg _
    by_cases hsm : sign eb mb m = neg
    · rw [hsm, hd]
      refine ⟨mul_le_mul_of_nonneg_right hbest.1 hu.le, fun e hne => hbest.2 (mul_right_cancel₀ hu.ne' e) ?_⟩
      intro hj
      rw [hj] at hne
      exact hne rfl
    · have hsm' : sign eb mb m = !neg := by revert hsm; cases sign eb mb m <;> cases neg <;> simp
      rw [hsm', hd2]
      have h3 : |v - (units mb (mag eb mb m) : ℚ)| ≤ |v + (units mb (mag eb mb m) : ℚ)| := by
        rw [abs_of_nonneg (a := v + _) (by linarith)]
        exact abs_le.2 ⟨by linarith, by linarith⟩
      refine ⟨mul_le_mul_of_nonneg_right (hbest.1.trans h3) hu.le, fun e hne => ?_⟩
      have e := mul_right_cancel₀ hu.ne' e
      by_cases hjk : mag eb mb m = k
      · -- both are zero, or the value is
        rw [hjk, abs_of_nonneg (a := v + _) (by rw [hjk] at hj0; linarith)] at e
        rw [hjk] at hj0
        by_cases hk0 : k = 0
        · omega
        · exfalso
          have hkpos := ult (mb := mb) (show 0 < k by omega)
          rw [units_zero] at hkpos
          have hb1 := hb0.1
          rw [e, units_zero] at hb1
          rw [show v - ((0 : ℕ) : ℚ) = v by simp, abs_of_nonneg hv] at hb1
          simp only [Nat.cast_zero] at hkpos
          linarith
      · refine hbest.2 (le_antisymm hbest.1 ?_) hjk
        rw [e]; exact h3

/-- There is only one correctly rounded result. -/
theorem rounds_unique {eb mb : Nat} (he : 2 ≤ eb) (hmb : 1 ≤ mb) {q : ℚ} {neg : Bool} {n m : Nat}
    (h1 : Rounds eb mb q neg n) (h2 : Rounds eb mb q neg m) : n = m := by
  obtain ⟨a1, a2, a3⟩ := h1
  obtain ⟨b1, b2, b3⟩ := h2
  refine pattern_ext a1 b1 (by rw [a2, b2]) ?_
  split at a3
  · rename_i hl
    rw [if_pos hl] at b3
    rw [← a2] at a3
    rw [← b2] at b3
    rw [inf_iff.1 a3, inf_iff.1 b3]
  · rename_i hl
    rw [if_neg hl] at b3
    obtain ⟨r, hr, hA⟩ := a3
    obtain ⟨s, hs, hB⟩ := b3
    have hu := ulp_pos eb mb
    have val : ∀ x y, decode eb mb x = .fin y → sign eb mb x = neg →
        y = sgn neg * (units mb (mag eb mb x) : ℚ) * ulp eb mb ∧ mag eb mb x < infMag eb mb := by
      intro x y hxy hsx
      rcases decode_cases eb mb x with ⟨e, _⟩ | ⟨e, _⟩ | ⟨e, hlt⟩ <;> rw [e] at hxy <;> cases hxy
      exact ⟨by rw [hsx]; rfl, hlt⟩
    obtain ⟨hrv, hrI⟩ := val n r hr a2
    obtain ⟨hsv, hsI⟩ := val m s hs b2
    by_contra hne
    have heq : |q - r| = |q - s| := le_antisymm (hA m s hs).1 (hB n r hr).1
    have hrs : r ≠ s := by
      intro h
      rw [hrv, hsv] at h
      have h := mul_right_cancel₀ hu.ne' h
      have h : (units mb (mag eb mb n) : ℚ) = units mb (mag eb mb m) := by
        have : sgn neg ≠ 0 := by cases neg <;> simp [sgn]
        exact mul_left_cancel₀ this h
      exact hne (units_inj (Nat.cast_inj.1 h))
    have e1 := (hA m s hs).2 heq hrs
    have e2 := (hB n r hr).2 heq.symm hrs.symm
    rw [← mag_mod2 (eb := eb) hmb] at e1 e2
    -- a number in between would be closer
    have main : ∀ x y : Nat, mag eb mb x < mag eb mb y → sign eb mb x = neg → sign eb mb y = neg →
        mag eb mb x % 2 = 0 → mag eb mb y % 2 = 0 → mag eb mb y < infMag eb mb →
        (|q - sgn neg * (units mb (mag eb mb x) : ℚ) * ulp eb mb| =
          |q - sgn neg * (units mb (mag eb mb y) : ℚ) * ulp eb mb|) →
        (∀ m r', decode eb mb m = .fin r' → |q - sgn neg * (units mb (mag eb mb x) : ℚ) * ulp eb mb| ≤ |q - r'|) →
        False := by
      intro x y hlt sx sy ex ey hI heq hbest
      -- the pattern following `x`
      have hmx : mag eb mb x = x % 2 ^ (mb + eb) := rfl
      have hpow : infMag eb mb < 2 ^ (mb + eb) := by
        unfold infMag
        rw [Nat.pow_add, Nat.mul_comm]
        exact Nat.mul_lt_mul_of_pos_left (by have := Nat.two_pow_pos eb; omega) (Nat.two_pow_pos _)
      have hz : mag eb mb (x + 1) = mag eb mb x + 1 := by
        unfold mag
        have : x % 2 ^ (mb + eb) + 1 < 2 ^ (mb + eb) := by rw [← hmx]; omega
        rw [Nat.add_mod, Nat.mod_eq_of_lt (a := 1) (by omega), Nat.mod_eq_of_lt this]
      have hzs : sign eb mb (x + 1) = neg := by
        rw [← sx]
        unfold sign
        have : x % 2 ^ (mb + eb) + 1 < 2 ^ (mb + eb) := by rw [← hmx]; omega
        have hx := Nat.div_add_mod x (2 ^ (mb + eb))
        have : (x + 1) / 2 ^ (mb + eb) = x / 2 ^ (mb + eb) := by
          conv_lhs => rw [← hx, Nat.add_assoc]
          rw [Nat.mul_add_div (Nat.two_pow_pos _), Nat.div_eq_of_lt this]; rfl
        rw [this]
      have hfin := fin_value (eb := eb) (mb := mb) (n := x + 1) (fin_iff.2 (by
        show _ < infMag eb mb
        rw [hz]; omega))
      have hb := hbest _ _ hfin
      rw [hz, hzs] at hb
      change _ ≤ |q - sgn neg * ((units mb (mag eb mb x + 1) : ℕ) : ℚ) * ulp eb mb| at hb
      have hxz := ult (mb := mb) (show mag eb mb x < mag eb mb x + 1 by omega)
      have hzy := ult (mb := mb) (show mag eb mb x + 1 < mag eb mb y by omega)
      generalize (units mb (mag eb mb x + 1) : ℚ) = Z at *
      generalize (units mb (mag eb mb x) : ℚ) = X at *
      generalize (units mb (mag eb mb y) : ℚ) = Y at *
      have hX := mul_lt_mul_of_pos_right hxz hu
      have hY := mul_lt_mul_of_pos_right hzy hu
      cases neg <;> simp only [sgn, Bool.false_eq_true, if_false, if_true, one_mul, neg_one_mul, neg_mul, sub_neg_eq_add] at heq hb
      · rcases abs_eq_abs.1 heq with h | h
        · linarith
        · rcases le_total 0 (q - Z * ulp eb mb) with h0 | h0
          · rw [abs_of_nonneg h0] at hb
            have := (abs_le.1 hb)
            linarith
          · rw [abs_of_nonpos h0] at hb
            have := (abs_le.1 hb)
            linarith
      · rcases abs_eq_abs.1 heq with h | h
        · linarith
        · rcases le_total 0 (q + Z * ulp eb mb) with h0 | h0
          · rw [abs_of_nonneg h0] at hb
            have := (abs_le.1 hb)
            linarith
          · rw [abs_of_nonpos h0] at hb
            have := (abs_le.1 hb)
            linarith
    rcases Nat.lt_trichotomy (mag eb mb n) (mag eb mb m) with h | h | h
    · exact main n m h a2 b2 e1 e2 hsI (by rw [← hrv, ← hsv]; exact heq)
        (fun x y hxy => by rw [← hrv]; exact (hA x y hxy).1)
    · exact hne h
    · exact main m n h b2 a2 e2 e1 hrI (by rw [← hrv, ← hsv]; exact heq.symm)
        (fun x y hxy => by rw [← hsv]; exact (hB x y hxy).1)

theorem pack_lt {eb mb k : Nat} {neg : Bool} (hk : k < 2 ^ (mb + eb)) :
    (if neg then 2 ^ (mb + eb) else 0) + k < 2 ^ (mb + eb + 1) := by
  rw [Nat.pow_succ]; split <;> omega

theorem pack_mag {eb mb k : Nat} {neg : Bool} (hk : k < 2 ^ (mb + eb)) :
    mag eb mb ((if neg then 2 ^ (mb + eb) else 0) + k) = k := by
  unfold mag
  split
  · rw [Nat.add_mod_left, Nat.mod_eq_of_lt hk]
  · rw [Nat.zero_add, Nat.mod_eq_of_lt hk]

theorem pack_sign {eb mb k : Nat} {neg : Bool} (hk : k < 2 ^ (mb + eb)) :
    sign eb mb ((if neg then 2 ^ (mb + eb) else 0) + k) = neg := by
  unfold sign
  have hp : 0 < 2 ^ (mb + eb) := Nat.two_pow_pos _
  cases neg
  · simp [Nat.div_eq_of_lt hk]
  · simp only [if_true]
    rw [Nat.add_div_left _ hp, Nat.div_eq_of_lt hk]; rfl

theorem infMag_lt (eb mb : Nat) : infMag eb mb < 2 ^ (mb + eb) := by
  unfold infMag
  rw [Nat.pow_add, Nat.mul_comm]
  exact Nat.mul_lt_mul_of_pos_left (by have := Nat.two_pow_pos eb; omega) (Nat.two_pow_pos _)

/-- Every number can be rounded. -/
theorem rounds_exists {eb mb : Nat} (he : 2 ≤ eb) (hmb : 1 ≤ mb) {v : ℚ} (hv : 0 ≤ v) (neg : Bool) :
    ∃ n, Rounds eb mb (sgn neg * v * ulp eb mb) neg n := by
  obtain ⟨k, hk⟩ := near_exists mb hv
  have hlt : min k (infMag eb mb) < 2 ^ (mb + eb) := lt_of_le_of_lt (min_le_right _ _) (infMag_lt eb mb)
  exact ⟨_, rounds_of_near he hmb hv (pack_lt hlt) (pack_sign hlt) hk (pack_mag hlt)⟩

/-- Conversely, the correctly rounded result has the nearest magnitude. -/
theorem near_of_rounds {eb mb : Nat} (he : 2 ≤ eb) (hmb : 1 ≤ mb) {v : ℚ} (hv : 0 ≤ v) {neg : Bool} {n k : Nat}
    (h : Rounds eb mb (sgn neg * v * ulp eb mb) neg n) (hk : Near mb v k) :
    mag eb mb n = min k (infMag eb mb) := by
  have hlt : min k (infMag eb mb) < 2 ^ (mb + eb) := lt_of_le_of_lt (min_le_right _ _) (infMag_lt eb mb)
  have h2 := rounds_of_near he hmb hv (pack_lt (neg := neg) hlt) (pack_sign hlt) hk (pack_mag hlt)
  rw [rounds_unique he hmb h h2, pack_mag hlt]

end Verif.Ieee
