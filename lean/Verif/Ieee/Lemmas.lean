import Verif.Ieee.Spec
import Mathlib.Tactic.Ring
import Mathlib.Tactic.Linarith
import Mathlib.Tactic.FieldSimp
import Mathlib.Tactic.Positivity
import Mathlib.Tactic.NormNum
import Mathlib.Tactic.Push
/-!
# Order of floating point bit patterns
-/
namespace Verif.Ieee

/-- Absolute value of a finite number, in units of the smallest subnormal number. -/
def units (mb mag : Nat) : Nat :=
  if mag / 2 ^ mb = 0 then mag else (2 ^ mb + mag % 2 ^ mb) * 2 ^ (mag / 2 ^ mb - 1)

theorem units_lt {mb a b : Nat} (h : a < b) : units mb a < units mb b := by
  have hp : 0 < 2 ^ mb := Nat.two_pow_pos mb
  have ha := Nat.div_add_mod a (2 ^ mb)
  have hb := Nat.div_add_mod b (2 ^ mb)
  have hma := Nat.mod_lt a hp
  have hmb := Nat.mod_lt b hp
  have hle : a / 2 ^ mb ≤ b / 2 ^ mb := Nat.div_le_div_right h.le
  unfold units
  generalize a / 2 ^ mb = ea at *
  generalize b / 2 ^ mb = eb at *
  by_cases he : ea = eb
  · have hm : a % 2 ^ mb < b % 2 ^ mb := by rw [he] at ha; omega
    rw [he]
    split
    · exact h
    · exact Nat.mul_lt_mul_of_pos_right (by omega) (Nat.two_pow_pos _)
  · have hlt : ea < eb := by omega
    have hb0 : eb ≠ 0 := by omega
    rw [if_neg hb0]
    -- the larger exponent dominates
    have h2 : 2 ^ mb * 2 ^ (eb - 1) ≤ (2 ^ mb + b % 2 ^ mb) * 2 ^ (eb - 1) :=
      Nat.mul_le_mul_right _ (by omega)
    split
    · rename_i ha0
      have h1 : a < 2 ^ mb := by rw [ha0] at ha; omega
      have h3 : 2 ^ mb * 1 ≤ 2 ^ mb * 2 ^ (eb - 1) :=
        Nat.mul_le_mul_left _ (Nat.two_pow_pos _)
      omega
    · rename_i ha0
      have h1 : (2 ^ mb + a % 2 ^ mb) * 2 ^ (ea - 1) <
          (2 ^ mb * 2) * 2 ^ (ea - 1) :=
        Nat.mul_lt_mul_of_pos_right (by omega) (Nat.two_pow_pos _)
      have h3 : (2 ^ mb * 2) * 2 ^ (ea - 1) = 2 ^ mb * 2 ^ (ea) := by
        rw [Nat.mul_assoc, ← Nat.pow_succ']
        congr 2
        omega
      have h4 : 2 ^ mb * 2 ^ (ea) ≤ 2 ^ mb * 2 ^ (eb - 1) :=
        Nat.mul_le_mul_left _ (Nat.pow_le_pow_right (by omega) (by omega))
      omega

theorem units_lt_iff {mb a b : Nat} : units mb a < units mb b ↔ a < b := by
  constructor
  · intro h
    by_contra hn
    rcases Nat.lt_or_ge b a with h1 | h1
    · have := units_lt (mb := mb) h1; omega
    · have : a = b := by omega
      subst this; omega
  · exact units_lt

/-- The magnitude bits. -/
def mag (eb mb n : Nat) : Nat := n % 2 ^ (mb + eb)

/-- Position in the order of the floating point numbers. -/
def key (eb mb n : Nat) : Int := if sign eb mb n then -(mag eb mb n : Int) else mag eb mb n

theorem mag_div {eb mb n : Nat} : mag eb mb n / 2 ^ mb = expo eb mb n := by
  unfold mag expo
  rw [Nat.pow_add, Nat.mod_mul_right_div_self]

theorem mag_mod {eb mb n : Nat} : mag eb mb n % 2 ^ mb = frac mb n := by
  unfold mag frac
  rw [Nat.pow_add, Nat.mod_mul_right_mod]

theorem mag_eq {eb mb n : Nat} : mag eb mb n = 2 ^ mb * expo eb mb n + frac mb n := by
  rw [← mag_div, ← mag_mod, Nat.div_add_mod]

theorem frac_lt {mb n : Nat} : frac mb n < 2 ^ mb := Nat.mod_lt _ (Nat.two_pow_pos _)
theorem expo_lt {eb mb n : Nat} : expo eb mb n < 2 ^ eb := Nat.mod_lt _ (Nat.two_pow_pos _)

/-- A NaN is a number above infinity. -/
theorem nan_iff {eb mb n : Nat} :
    decode eb mb n = .nan ↔ (2 ^ eb - 1) * 2 ^ mb < mag eb mb n := by
  have h1 := frac_lt (mb := mb) (n := n)
  have h2 := expo_lt (eb := eb) (mb := mb) (n := n)
  have h3 := mag_eq (eb := eb) (mb := mb) (n := n)
  unfold decode
  by_cases he : expo eb mb n = 2 ^ eb - 1
  · rw [if_pos he]
    rw [he, Nat.mul_comm] at h3
    by_cases hf : frac mb n = 0
    · rw [if_pos hf]
      constructor
      · intro h; cases h
      · intro h; omega
    · rw [if_neg hf]
      exact ⟨fun _ => by omega, fun _ => rfl⟩
  · rw [if_neg he]
    constructor
    · intro h; cases h
    · intro h
      have h4 : expo eb mb n + 1 ≤ 2 ^ eb - 1 := by omega
      have h5 := Nat.mul_le_mul_left (2 ^ mb) h4
      rw [Nat.mul_add, Nat.mul_comm _ (2 ^ eb - 1)] at h5
      omega

theorem inf_iff {eb mb n : Nat} :
    decode eb mb n = .inf (sign eb mb n) ↔ mag eb mb n = (2 ^ eb - 1) * 2 ^ mb := by
  have h1 := frac_lt (mb := mb) (n := n)
  have h2 := expo_lt (eb := eb) (mb := mb) (n := n)
  have h3 := mag_eq (eb := eb) (mb := mb) (n := n)
  unfold decode
  by_cases he : expo eb mb n = 2 ^ eb - 1
  · rw [if_pos he]
    rw [he, Nat.mul_comm] at h3
    by_cases hf : frac mb n = 0
    · rw [if_pos hf]
      exact ⟨fun _ => by omega, fun _ => rfl⟩
    · rw [if_neg hf]
      constructor
      · intro h; cases h
      · intro h; omega
  · rw [if_neg he]
    constructor
    · intro h; cases h
    · intro h
      have h4 : expo eb mb n + 1 ≤ 2 ^ eb - 1 := by omega
      have h5 := Nat.mul_le_mul_left (2 ^ mb) h4
      rw [Nat.mul_add, Nat.mul_comm _ (2 ^ eb - 1)] at h5
      omega

/-- Value of one unit: the smallest subnormal number. -/
def ulp (eb mb : Nat) : ℚ := 2 ^ (1 - bias eb - (mb : ℤ))

theorem ulp_pos (eb mb : Nat) : 0 < ulp eb mb := by unfold ulp; positivity

theorem fin_value {eb mb n : Nat} (h : expo eb mb n ≠ 2 ^ eb - 1) :
    decode eb mb n =
      .fin ((if sign eb mb n then -1 else 1) * (units mb (mag eb mb n) : ℚ) * ulp eb mb) := by
  unfold decode
  rw [if_neg h, mul_assoc]
  congr 2
  unfold units ulp
  rw [mag_div, mag_mod]
  have h2 : (2 : ℚ) ≠ 0 := by norm_num
  split
  · rename_i h0
    have : mag eb mb n = frac mb n := by rw [mag_eq, h0]; omega
    rw [this, zpow_sub₀ h2 (1 - bias eb), zpow_natCast]
    field_simp
  · rename_i h0
    push_cast
    rw [zpow_sub₀ h2 (1 - bias eb), zpow_natCast]
    have e : ((expo eb mb n : ℤ) - bias eb) = ((expo eb mb n - 1 : ℕ) : ℤ) + (1 - bias eb) := by
      have : 1 ≤ expo eb mb n := by omega
      push_cast [this]
      ring
    rw [e, zpow_add₀ h2, zpow_natCast]
    field_simp

theorem fin_iff {eb mb n : Nat} : expo eb mb n ≠ 2 ^ eb - 1 ↔
    mag eb mb n < (2 ^ eb - 1) * 2 ^ mb := by
  have h1 := frac_lt (mb := mb) (n := n)
  have h2 := expo_lt (eb := eb) (mb := mb) (n := n)
  have h3 := mag_eq (eb := eb) (mb := mb) (n := n)
  constructor
  · intro h
    have h4 : expo eb mb n + 1 ≤ 2 ^ eb - 1 := by omega
    have h5 := Nat.mul_le_mul_left (2 ^ mb) h4
    rw [Nat.mul_add, Nat.mul_comm _ (2 ^ eb - 1)] at h5
    omega
  · intro h e
    rw [e, Nat.mul_comm] at h3
    omega

/-- The signed number of units is ordered like the signed magnitude bits. -/
theorem sunits_lt {mb : Nat} (s t : Bool) (a b : Nat) (h0 : units mb 0 = 0) :
    ((if s then -1 else 1) * (units mb a : ℚ) < (if t then -1 else 1) * (units mb b : ℚ)) ↔
    ((if s then -(a : Int) else a) < if t then -(b : Int) else b) := by
  have pos : ∀ c, 0 < c → 0 < units mb c := fun c hc => by
    have := units_lt (mb := mb) hc; omega
  have i1 : ∀ a b : Nat, ((units mb a : ℚ) < units mb b) ↔ a < b := by
    intro a b
    rw [Nat.cast_lt]; exact units_lt_iff
  have p1 : ∀ a : Nat, (0 : ℚ) ≤ units mb a := fun a => Nat.cast_nonneg _
  have z1 : ∀ a : Nat, (units mb a : ℚ) = 0 ↔ a = 0 := by
    intro a
    rw [Nat.cast_eq_zero]
    constructor
    · intro h; by_contra hn; have := pos a (by omega); omega
    · rintro rfl; exact h0
  cases s <;> cases t <;> simp only [Bool.false_eq_true, if_false, if_true, one_mul, neg_one_mul]
  · rw [i1]; omega
  · have := p1 a; have := p1 b
    constructor
    · intro h; linarith
    · intro h; omega
  · have ha := p1 a; have hb := p1 b
    constructor
    · intro h
      by_contra hn
      have e1 : a = 0 := by omega
      have e2 : b = 0 := by omega
      rw [(z1 a).2 e1, (z1 b).2 e2] at h
      norm_num at h
    · intro h
      by_contra hn
      have e1 := (z1 a).1 (by linarith)
      have e2 := (z1 b).1 (by linarith)
      omega
  · rw [neg_lt_neg_iff, i1]; omega

theorem units_zero (mb : Nat) : units mb 0 = 0 := by unfold units; simp

theorem decode_cases (eb mb n : Nat) :
    (decode eb mb n = .nan ∧ (2 ^ eb - 1) * 2 ^ mb < mag eb mb n) ∨
    (decode eb mb n = .inf (sign eb mb n) ∧ mag eb mb n = (2 ^ eb - 1) * 2 ^ mb) ∨
    (decode eb mb n =
      .fin ((if sign eb mb n then -1 else 1) * (units mb (mag eb mb n) : ℚ) * ulp eb mb) ∧
      mag eb mb n < (2 ^ eb - 1) * 2 ^ mb) := by
  rcases Nat.lt_trichotomy (mag eb mb n) ((2 ^ eb - 1) * 2 ^ mb) with h | h | h
  · exact .inr (.inr ⟨fin_value (fin_iff.2 h), h⟩)
  · exact .inr (.inl ⟨inf_iff.2 h, h⟩)
  · exact .inl ⟨nan_iff.2 h, h⟩

theorem key_bounds (eb mb n : Nat) (h : mag eb mb n < (2 ^ eb - 1) * 2 ^ mb) :
    -(((2 ^ eb - 1) * 2 ^ mb : Nat) : Int) < key eb mb n ∧
    key eb mb n < ((2 ^ eb - 1) * 2 ^ mb : Nat) := by
  unfold key
  split <;> omega

/-- IEEE `<` is the order of the keys of two numbers. -/
theorem lt_iff (eb mb n m : Nat) (he : 0 < eb) : (decode eb mb n).lt (decode eb mb m) ↔
    mag eb mb n ≤ (2 ^ eb - 1) * 2 ^ mb ∧ mag eb mb m ≤ (2 ^ eb - 1) * 2 ^ mb ∧
    key eb mb n < key eb mb m := by
  have hp : 0 < (2 ^ eb - 1) * 2 ^ mb := by
    have h1 : 2 ^ 1 ≤ 2 ^ eb := Nat.pow_le_pow_right (by omega) he
    exact Nat.mul_pos (by omega) (Nat.two_pow_pos _)
  have kn := key_bounds eb mb n
  have km := key_bounds eb mb m
  have hu := ulp_pos eb mb
  rcases decode_cases eb mb n with ⟨e1, h1⟩ | ⟨e1, h1⟩ | ⟨e1, h1⟩ <;>
  rcases decode_cases eb mb m with ⟨e2, h2⟩ | ⟨e2, h2⟩ | ⟨e2, h2⟩ <;>
  rw [e1, e2] <;> simp only [FP.lt]
  · constructor
    · intro h; cases h
    · rintro ⟨h, _⟩; omega
  · constructor
    · intro h; cases h
    · rintro ⟨h, _⟩; omega
  · constructor
    · intro h; cases h
    · rintro ⟨h, _⟩; omega
  · constructor
    · intro h; cases h
    · rintro ⟨_, h, _⟩; omega
  · unfold key
    cases sign eb mb n <;> cases sign eb mb m <;> simp <;> omega
  · have := km h2
    have hk : key eb mb n = if sign eb mb n then -(((2 ^ eb - 1) * 2 ^ mb : Nat) : Int) else
        ((2 ^ eb - 1) * 2 ^ mb : Nat) := by unfold key; rw [h1]
    rw [hk]
    cases sign eb mb n <;> simp only [Bool.false_eq_true, if_false, if_true, false_iff, true_iff] <;> omega
  · constructor
    · intro h; cases h
    · rintro ⟨_, h, _⟩; omega
  · have := kn h1
    have hk : key eb mb m = if sign eb mb m then -(((2 ^ eb - 1) * 2 ^ mb : Nat) : Int) else
        ((2 ^ eb - 1) * 2 ^ mb : Nat) := by unfold key; rw [h2]
    rw [hk]
    cases sign eb mb m <;>
      simp only [Bool.false_eq_true, if_false, if_true, true_iff,
        Bool.true_eq_false, false_iff] <;> omega
  · rw [mul_lt_mul_iff_left₀ hu, sunits_lt _ _ _ _ (units_zero mb)]
    unfold key
    constructor
    · intro h; exact ⟨by omega, by omega, h⟩
    · intro h; exact h.2.2

/-- IEEE `=` is equality of the keys of two numbers. -/
theorem eq_iff (eb mb n m : Nat) (he : 0 < eb) : (decode eb mb n).eq (decode eb mb m) ↔
    mag eb mb n ≤ (2 ^ eb - 1) * 2 ^ mb ∧ mag eb mb m ≤ (2 ^ eb - 1) * 2 ^ mb ∧
    key eb mb n = key eb mb m := by
  have l1 := lt_iff eb mb n m he
  have l2 := lt_iff eb mb m n he
  have tri : ∀ a b : FP, a.eq b ↔ a ≠ .nan ∧ b ≠ .nan ∧ ¬ a.lt b ∧ ¬ b.lt a := by
    intro a b
    cases a <;> cases b <;> simp only [FP.eq, FP.lt, ne_eq, reduceCtorEq, not_true_eq_false,
      not_false_eq_true, false_and, and_false, true_and, not_lt, not_and,
      Bool.not_eq_false, Bool.not_eq_true, false_iff]
    · rename_i a b; cases a <;> cases b <;> simp
    · rename_i a b; cases a <;> simp
    · rename_i a b; cases b <;> simp
    · constructor
      · rintro rfl; exact ⟨le_refl _, le_refl _⟩
      · rintro ⟨h1, h2⟩; exact le_antisymm h2 h1
  rw [tri, l1, l2]
  have n1 := nan_iff (eb := eb) (mb := mb) (n := n)
  have n2 := nan_iff (eb := eb) (mb := mb) (n := m)
  rw [ne_eq, ne_eq, n1, n2]
  omega

end Verif.Ieee
