import Verif.Arith.Model
import Mathlib.Tactic.Ring
import Mathlib.Tactic.Linarith
/-! Helper lemmas for the integer helpers. -/
namespace Verif.Arith

/-! ## round_pow2 -/

/-- `y` has a set bit in the window `[i, i + n)`. -/
def Win (y n i : Nat) : Prop := ∃ j, i ≤ j ∧ j < i + n ∧ y.testBit j = true

theorem smear_win (y x k : Nat) (h : ∀ i, x.testBit i = true ↔ Win y k i) (i : Nat) :
    (smear k x).testBit i = true ↔ Win y (k + k) i := by
  unfold smear
  rw [Nat.testBit_or, Nat.testBit_shiftRight, Bool.or_eq_true, h, h]
  constructor
  · rintro (⟨j, a, b, c⟩ | ⟨j, a, b, c⟩)
    · exact ⟨j, a, by omega, c⟩
    · exact ⟨j, by omega, by omega, c⟩
  · rintro ⟨j, a, b, c⟩
    by_cases hj : j < i + k
    · exact Or.inl ⟨j, a, hj, c⟩
    · exact Or.inr ⟨j, by omega, by omega, c⟩

theorem win_one (y i : Nat) : y.testBit i = true ↔ Win y 1 i := by
  constructor
  · intro h; exact ⟨i, Nat.le_refl _, by omega, h⟩
  · rintro ⟨j, a, b, c⟩
    have : j = i := by omega
    subst this; exact c

theorem smear64 (y : Nat) (i : Nat) :
    (smear 32 (smear 16 (smear 8 (smear 4 (smear 2 (smear 1 y)))))).testBit i = true ↔
      Win y 64 i :=
  smear_win y _ 32 (smear_win y _ 16 (smear_win y _ 8 (smear_win y _ 4 (smear_win y _ 2
    (smear_win y _ 1 (win_one y)))))) i

theorem smear32 (y : Nat) (i : Nat) :
    (smear 16 (smear 8 (smear 4 (smear 2 (smear 1 y))))).testBit i = true ↔
      Win y 32 i :=
  smear_win y _ 16 (smear_win y _ 8 (smear_win y _ 4 (smear_win y _ 2
    (smear_win y _ 1 (win_one y))))) i

/-- A number whose bits are "some bit at or above is set in y". -/
theorem smear_full (y z n : Nat) (hy : y < 2 ^ n) (h0 : y ≠ 0)
    (h : ∀ i, z.testBit i = true ↔ Win y n i) : z = 2 ^ (Nat.log2 y + 1) - 1 := by
  apply Nat.eq_of_testBit_eq
  intro i
  rw [Nat.testBit_two_pow_sub_one]
  have hlog := Nat.testBit_log2 h0
  have hl : Nat.log2 y < n := (Nat.log2_lt h0).2 hy
  rw [Bool.eq_iff_iff, h i, decide_eq_true_iff]
  constructor
  · rintro ⟨j, a, b, c⟩
    have : 2 ^ j ≤ y := Nat.ge_two_pow_of_testBit c
    have : j ≤ Nat.log2 y := (Nat.le_log2 h0).2 this
    omega
  · intro hi
    exact ⟨Nat.log2 y, by omega, by omega, hlog⟩

theorem roundPow2_64_eq (x : Nat) (h1 : 1 ≤ x) (h2 : x ≤ 2 ^ 63) :
    roundPow2_64 x = if x = 1 then 1 else 2 ^ (Nat.log2 (x - 1) + 1) := by
  unfold roundPow2_64
  have e : (x + (2 ^ 64 - 1)) % 2 ^ 64 = x - 1 := by omega
  simp only [e]
  by_cases hx : x = 1
  · subst hx; decide
  · rw [if_neg hx]
    have h0 : x - 1 ≠ 0 := by omega
    have := smear_full (x - 1) _ 64 (by omega) h0 (smear64 (x - 1))
    rw [this]
    have hl : Nat.log2 (x - 1) < 63 := (Nat.log2_lt h0).2 (by omega)
    have hp : 0 < 2 ^ (Nat.log2 (x - 1) + 1) := Nat.two_pow_pos _
    have hp2 : 2 ^ (Nat.log2 (x - 1) + 1) ≤ 2 ^ 63 := Nat.pow_le_pow_right (by omega) (by omega)
    rw [Nat.sub_add_cancel hp, Nat.mod_eq_of_lt (by omega)]

theorem roundPow2_32_eq (x : Nat) (h1 : 1 ≤ x) (h2 : x ≤ 2 ^ 31) :
    roundPow2_32 x = if x = 1 then 1 else 2 ^ (Nat.log2 (x - 1) + 1) := by
  unfold roundPow2_32
  have e : (x + (2 ^ 32 - 1)) % 2 ^ 32 = x - 1 := by omega
  simp only [e]
  by_cases hx : x = 1
  · subst hx; decide
  · rw [if_neg hx]
    have h0 : x - 1 ≠ 0 := by omega
    have := smear_full (x - 1) _ 32 (by omega) h0 (smear32 (x - 1))
    rw [this]
    have hl : Nat.log2 (x - 1) < 31 := (Nat.log2_lt h0).2 (by omega)
    have hp : 0 < 2 ^ (Nat.log2 (x - 1) + 1) := Nat.two_pow_pos _
    have hp2 : 2 ^ (Nat.log2 (x - 1) + 1) ≤ 2 ^ 31 := Nat.pow_le_pow_right (by omega) (by omega)
    rw [Nat.sub_add_cancel hp, Nat.mod_eq_of_lt (by omega)]

theorem pow_log_bounds (x : Nat) (h : 2 ≤ x) :
    x ≤ 2 ^ (Nat.log2 (x - 1) + 1) ∧ 2 ^ (Nat.log2 (x - 1) + 1) < 2 * x := by
  have h0 : x - 1 ≠ 0 := by omega
  have h1 : x - 1 < 2 ^ (Nat.log2 (x - 1) + 1) := (Nat.log2_lt h0).1 (by omega)
  have h2 : 2 ^ Nat.log2 (x - 1) ≤ x - 1 := (Nat.le_log2 h0).1 (Nat.le_refl _)
  rw [Nat.pow_succ] at *
  omega

/-! ## divisor -/

theorem shiftLoop_spec (v : Nat) : ∀ s, 0 < v → ∃ k, shiftLoop v s = s + k ∧ 2 ^ k ≤ v ∧ v < 2 ^ (k + 1) := by
  induction v using Nat.strongRecOn with
  | _ v ih =>
    intro s hv
    unfold shiftLoop
    split
    · rename_i h
      obtain ⟨k, h1, h2, h3⟩ := ih (v / 2) (by omega) (s + 1) (by omega)
      refine ⟨k + 1, by omega, ?_, ?_⟩
      · rw [Nat.pow_succ]; omega
      · rw [Nat.pow_succ]; omega
    · exact ⟨0, by omega, by omega, by omega⟩

theorem shiftLoop_zero (s : Nat) : shiftLoop 0 s = s := by unfold shiftLoop; simp

/-- `v & (v-1) = 0` iff `v` is a power of two. -/
theorem and_pred_eq_zero (v k : Nat) (h1 : 2 ^ k ≤ v) (h2 : v < 2 ^ (k + 1)) :
    v &&& (v - 1) = 0 ↔ v = 2 ^ k := by
  constructor
  · intro h
    rcases Nat.lt_or_ge (2 ^ k) v with hlt | hge
    · exfalso
      have a : v.testBit k = true := Nat.testBit_of_two_pow_le_and_two_pow_add_one_gt h1 h2
      have b : (v - 1).testBit k = true :=
        Nat.testBit_of_two_pow_le_and_two_pow_add_one_gt (by omega) (by omega)
      have := congrArg (fun z => Nat.testBit z k) h
      simp [a, b] at this
    · omega
  · rintro rfl
    apply Nat.eq_of_testBit_eq
    intro i
    rw [Nat.testBit_and, Nat.testBit_two_pow_sub_one, Nat.testBit_two_pow]
    simp
    omega

/-- The round-up method. -/
theorem magic_div (n v K M : Nat) (hv : 0 < v) (hM : M = K / v + 1) (hK : n * v < K) :
    n * M / K = n / v := by
  have hKpos : 0 < K := by omega
  have hdm := Nat.div_add_mod K v
  have hrem := Nat.mod_lt K hv
  obtain ⟨e, he1, he2, he3⟩ : ∃ e, M * v = K + e ∧ e ≤ v ∧ 0 < e := by
    refine ⟨v - K % v, ?_, by omega, by omega⟩
    rw [hM, Nat.add_mul, Nat.one_mul, Nat.mul_comm]; omega
  have hq := Nat.div_add_mod n v
  have hr := Nat.mod_lt n hv
  generalize hqd : n / v = q at *
  generalize n % v = r at *
  -- n * M * v = q v K + r K + n e
  have key : n * M * v = q * K * v + (r * K + n * e) := by
    have : n * M * v = n * (M * v) := by ring
    rw [this, he1]
    have : n * (K + e) = (v * q + r) * K + n * e := by rw [hq]; ring
    rw [this]; ring
  have hne : n * e < K := Nat.lt_of_le_of_lt (Nat.mul_le_mul_left n he2) hK
  have hub : r * K + n * e < K * v := by
    have : r * K + K ≤ K * v := by
      have : (r + 1) * K ≤ v * K := Nat.mul_le_mul_right K (by omega)
      linarith
    omega
  have lo : q * K ≤ n * M := by
    have : q * K * v ≤ n * M * v := by omega
    exact Nat.le_of_mul_le_mul_right this hv
  have hi : n * M < (q + 1) * K := by
    have : n * M * v < (q + 1) * K * v := by
      have : (q + 1) * K * v = q * K * v + K * v := by ring
      omega
    exact Nat.lt_of_mul_lt_mul_right this
  exact Nat.div_eq_of_lt_le lo hi

theorem mk_pow2 (k : Nat) (hk : k < 32) : Divisor.mk' (2 ^ k) = ⟨0, k, 2 ^ k⟩ := by
  unfold Divisor.mk'
  obtain ⟨k', h1, h2, h3⟩ := shiftLoop_spec (2 ^ k) 0 (Nat.two_pow_pos k)
  have hk' : k' = k := by
    have a := (Nat.pow_le_pow_iff_right (a := 2) (by omega)).1 h2
    have b := (Nat.pow_lt_pow_iff_right (a := 2) (by omega)).1 h3
    omega
  subst hk'
  have hlt : 2 ^ k' < 2 ^ 32 := Nat.pow_lt_pow_right (by omega) hk
  have hp := Nat.two_pow_pos k'
  have e : (2 ^ k' + (2 ^ 32 - 1)) % 2 ^ 32 = 2 ^ k' - 1 := by omega
  have z := (and_pred_eq_zero (2 ^ k') k' (Nat.le_refl _) h3).2 rfl
  simp only [h1, e, z, Nat.zero_add]
  simp

theorem mk_general (v k : Nat) (h1 : 2 ^ k < v) (h2 : v < 2 ^ (k + 1)) (hk : k < 32) :
    ∃ m, Divisor.mk' v = ⟨m, k, v⟩ ∧ 0 < m ∧ m < 2 ^ 32 ∧ 2 ^ 32 + m = 2 ^ (k + 33) / v + 1 := by
  have hp := Nat.two_pow_pos k
  have hv : 0 < v := by omega
  have hv32 : v < 2 ^ 32 := Nat.lt_of_lt_of_le h2 (Nat.pow_le_pow_right (by omega) (by omega))
  obtain ⟨k', g1, g2, g3⟩ := shiftLoop_spec v 0 hv
  have hk' : k' = k := by
    have a := (Nat.pow_lt_pow_iff_right (a := 2) (by omega)).1 (Nat.lt_of_le_of_lt g2 h2)
    have b := (Nat.pow_lt_pow_iff_right (a := 2) (by omega)).1 (Nat.lt_trans h1 g3)
    omega
  subst hk'
  have e : (v + (2 ^ 32 - 1)) % 2 ^ 32 = v - 1 := by omega
  have nz : v &&& (v - 1) ≠ 0 := fun h => by
    have := (and_pred_eq_zero v k' g2 g3).1 h; omega
  -- bounds on the quotient
  have hw : 2 ^ (k' + 32) = 2 ^ k' * 2 ^ 32 := by rw [Nat.pow_add]
  have hw2 : 2 ^ (k' + 33) = 2 * 2 ^ (k' + 32) := by
    rw [show k' + 33 = (k' + 32) + 1 from rfl, Nat.pow_succ]; omega
  have hq_hi : 2 ^ (k' + 32) / v < 2 ^ 32 := by
    rw [Nat.div_lt_iff_lt_mul hv, hw, Nat.mul_comm]
    exact Nat.mul_lt_mul_of_pos_left h1 (by decide)
  have hq_lo : 2 ^ 31 ≤ 2 ^ (k' + 32) / v := by
    rw [Nat.le_div_iff_mul_le hv, hw]
    have : v ≤ 2 * 2 ^ k' := by rw [Nat.pow_succ] at h2; omega
    have : 2 ^ 31 * v ≤ 2 ^ 31 * (2 * 2 ^ k') := Nat.mul_le_mul_left _ this
    have e3 : 2 ^ 31 * (2 * 2 ^ k') = 2 ^ k' * 2 ^ 32 := by ring
    omega
  have hdm := Nat.div_add_mod (2 ^ (k' + 32)) v
  have hrl := Nat.mod_lt (2 ^ (k' + 32)) hv
  -- top quotient can't be reached
  have hq2 : 2 ^ (k' + 33) / v < 2 ^ 33 - 1 := by
    rw [Nat.div_lt_iff_lt_mul hv]
    have h3 : (2 ^ 33 - 1) * (2 ^ k' + 1) ≤ (2 ^ 33 - 1) * v := Nat.mul_le_mul_left _ h1
    have h4 : 2 ^ k' ≤ 2 ^ 31 := Nat.pow_le_pow_right (by omega) (by omega)
    have h5 : 2 ^ (k' + 33) = 2 ^ 33 * 2 ^ k' := by rw [Nat.pow_add, Nat.mul_comm]
    have h6 : (2 ^ 33 - 1) * (2 ^ k' + 1) = 2 ^ 33 * 2 ^ k' - 2 ^ k' + (2 ^ 33 - 1) := by
      rw [Nat.mul_add, Nat.mul_one, Nat.sub_mul, Nat.one_mul]
    omega
  generalize hq : 2 ^ (k' + 32) / v = q at *
  generalize hr : 2 ^ (k' + 32) % v = r at *
  have hdiv2 : 2 ^ (k' + 33) / v = 2 * q + (if 2 * r ≥ v then 1 else 0) := by
    rw [hw2, ← hdm]
    apply Nat.div_eq_of_lt_le
    · split
      · rw [Nat.add_mul, Nat.one_mul, Nat.mul_comm v q]; nlinarith
      · rw [Nat.add_zero, Nat.mul_comm v q]; nlinarith
    · split
      · rw [Nat.mul_comm v q]; nlinarith
      · rw [Nat.mul_comm v q]; nlinarith
  unfold Divisor.mk'
  simp only [g1, e, ne_eq, nz, not_false_eq_true, if_true, Nat.zero_add, hq, hr]
  have e1 : q % 2 ^ 32 = q := Nat.mod_eq_of_lt hq_hi
  have e2 : r % 2 ^ 32 = r := Nat.mod_eq_of_lt (by omega)
  simp only [e1, e2]
  rw [hdiv2] at hq2 ⊢
  by_cases hc : 2 * r ≥ v
  · have hcond : (r * 2 % 2 ^ 32 ≥ v ∨ r * 2 % 2 ^ 32 < r) := by omega
    rw [if_pos hc] at hq2 ⊢
    rw [if_pos hcond]
    refine ⟨_, rfl, ?_, ?_, ?_⟩ <;> omega
  · have hcond : ¬ (r * 2 % 2 ^ 32 ≥ v ∨ r * 2 % 2 ^ 32 < r) := by omega
    rw [if_neg hc] at hq2 ⊢
    rw [if_neg hcond]
    refine ⟨_, rfl, ?_, ?_, ?_⟩ <;> omega

end Verif.Arith
