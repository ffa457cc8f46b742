import Verif.Arith.Lemmas
/-! # C33 (and the arithmetic part of C05): integer helpers -/
namespace Verif.Arith

/-- **C33.**  For every nonzero 32-bit divisor and every 32-bit input, the precomputed divisor
returns the exact quotient and remainder. -/
theorem C33_divisor_exact (v n : Nat) (hv : 0 < v) (hv32 : v < 2 ^ 32) (hn : n < 2 ^ 32) :
    (Divisor.mk' v).divRem n = (n / v, n % v) := by
  obtain ⟨k, _, h2, h3⟩ := shiftLoop_spec v 0 hv
  have hk : k < 32 := by
    rcases Nat.lt_or_ge k 32 with h | h
    · exact h
    · have : 2 ^ 32 ≤ 2 ^ k := Nat.pow_le_pow_right (by omega) h
      omega
  have hmod := Nat.div_add_mod n v
  have hdl : n / v ≤ n := Nat.div_le_self n v
  have hrl := Nat.mod_lt n hv
  by_cases hpow : v = 2 ^ k
  · rw [hpow, mk_pow2 k hk, ← hpow]
    unfold Divisor.divRem
    simp only [if_true, ← hpow]
    rw [Nat.mul_comm (n / v) v]
    generalize v * (n / v) = t at *
    have : (n + (2 ^ 32 - t % 2 ^ 32)) % 2 ^ 32 = n % v := by omega
    rw [this]
  · obtain ⟨m, hm, m0, m1, m2⟩ := mk_general v k (by omega) h3 hk
    rw [hm]
    unfold Divisor.divRem
    simp only
    have hm0 : m ≠ 0 := by omega
    rw [if_neg hm0]
    have hhi : n * m / 2 ^ 32 ≤ n := by
      have : n * m / 2 ^ 32 ≤ n * 2 ^ 32 / 2 ^ 32 :=
        Nat.div_le_div_right (Nat.mul_le_mul_left n (by omega))
      rwa [Nat.mul_div_cancel _ (by decide)] at this
    have hM := magic_div n v (2 ^ (k + 33)) (2 ^ 32 + m) hv m2 (by
      have a : n * v < 2 ^ 32 * 2 ^ (k + 1) := Nat.mul_lt_mul'' hn h3
      have b : 2 ^ 32 * 2 ^ (k + 1) = 2 ^ (k + 33) := by rw [← Nat.pow_add]; congr 1; omega
      omega)
    have hsplit : n * (2 ^ 32 + m) / 2 ^ (k + 33) = (n + n * m / 2 ^ 32) / 2 / 2 ^ k := by
      have e1 : n * (2 ^ 32 + m) = n * m + n * 2 ^ 32 := by ring
      have e2 : 2 ^ (k + 33) = 2 ^ 32 * (2 * 2 ^ k) := by
        rw [show k + 33 = 32 + (1 + k) by omega, Nat.pow_add, Nat.pow_add]
      rw [e1, e2, ← Nat.div_div_eq_div_mul, Nat.add_mul_div_right _ _ (by decide),
        ← Nat.div_div_eq_div_mul, Nat.add_comm]
    generalize hhi' : n * m / 2 ^ 32 = hi at *
    have e3 : hi % 2 ^ 32 = hi := Nat.mod_eq_of_lt (by omega)
    have e4 : ((n + (2 ^ 32 - hi)) % 2 ^ 32 / 2 + hi) % 2 ^ 32 = (n + hi) / 2 := by omega
    rw [e3, e4, ← hsplit, hM, Nat.mul_comm (n / v) v]
    generalize v * (n / v) = t at *
    have : (n + (2 ^ 32 - t % 2 ^ 32)) % 2 ^ 32 = n % v := by omega
    rw [this]

/-- Non-vacuity: a divisor that needs the magic number. -/
example : (Divisor.mk' 7).magic ≠ 0 ∧ (Divisor.mk' 7).divRem 4294967295 = (613566756, 3) := by
  decide +kernel

/-- `ceil_div` is exact unless the sum wraps. -/
theorem ceilDiv_exact (a b : Nat) (hb : 0 < b) (h : a + b - 1 < 2 ^ 32) :
    ceilDiv a b = (a + b - 1) / b := by
  unfold ceilDiv
  have : (a + b + (2 ^ 32 - 1)) % 2 ^ 32 = a + b - 1 := by omega
  rw [this]

/-- `align_up` returns the smallest multiple of `a` that is at least `x`, unless it wraps. -/
theorem alignUp_exact (x a : Nat) (ha : 0 < a) (h : x + a - 1 < 2 ^ 32) :
    x ≤ alignUp x a ∧ alignUp x a < x + a ∧ a ∣ alignUp x a := by
  unfold alignUp
  rw [ceilDiv_exact x a ha h]
  have h1 := Nat.div_add_mod (x + a - 1) a
  have h2 := Nat.mod_lt (x + a - 1) ha
  rw [Nat.mul_comm] at h1
  rw [Nat.mod_eq_of_lt (by omega)]
  exact ⟨by omega, by omega, Nat.dvd_mul_left _ _⟩

/-- `log2i_ceil(x)` is the smallest `k` with `x <= 2^k`. -/
theorem log2iCeil_exact (x : Nat) (hx : x < 2 ^ 32) :
    x ≤ 2 ^ log2iCeil x ∧ ∀ k, x ≤ 2 ^ k → log2iCeil x ≤ k := by
  unfold log2iCeil clz32
  split
  · rename_i h
    exact ⟨by simpa using h, fun k _ => Nat.zero_le _⟩
  · rename_i h
    have h0 : x - 1 ≠ 0 := by omega
    have hl : Nat.log2 (x - 1) < 32 := (Nat.log2_lt h0).2 (by omega)
    have e : 32 - (31 - Nat.log2 (x - 1)) = Nat.log2 (x - 1) + 1 := by omega
    rw [e]
    refine ⟨(pow_log_bounds x (by omega)).1, fun k hk => ?_⟩
    have : Nat.log2 (x - 1) < k := (Nat.log2_lt h0).2 (by omega)
    omega

/-- **C05 (rounding).**  `round_pow2` returns the smallest power of two that is at least `x`, for
every `1 <= x <= 2^63`. -/
theorem C05_round_pow2_least (x : Nat) (h1 : 1 ≤ x) (h2 : x ≤ 2 ^ 63) :
    (∃ k, roundPow2_64 x = 2 ^ k) ∧ x ≤ roundPow2_64 x ∧
      ∀ k, x ≤ 2 ^ k → roundPow2_64 x ≤ 2 ^ k := by
  rw [roundPow2_64_eq x h1 h2]
  split
  · rename_i h
    exact ⟨⟨0, rfl⟩, by omega, fun k _ => Nat.one_le_two_pow⟩
  · refine ⟨⟨_, rfl⟩, (pow_log_bounds x (by omega)).1, fun k hk => ?_⟩
    apply Nat.pow_le_pow_right (by omega)
    exact (Nat.log2_lt (by omega)).2 (by omega)

/-- Same for the 32-bit variant. -/
theorem C05_round_pow2_32_least (x : Nat) (h1 : 1 ≤ x) (h2 : x ≤ 2 ^ 31) :
    (∃ k, roundPow2_32 x = 2 ^ k) ∧ x ≤ roundPow2_32 x ∧
      ∀ k, x ≤ 2 ^ k → roundPow2_32 x ≤ 2 ^ k := by
  rw [roundPow2_32_eq x h1 h2]
  split
  · rename_i h
    exact ⟨⟨0, rfl⟩, by omega, fun k _ => Nat.one_le_two_pow⟩
  · refine ⟨⟨_, rfl⟩, (pow_log_bounds x (by omega)).1, fun k hk => ?_⟩
    apply Nat.pow_le_pow_right (by omega)
    exact (Nat.log2_lt (by omega)).2 (by omega)

example : roundPow2_64 65 = 128 ∧ roundPow2_64 64 = 64 := by decide

/-- Outside of that range the result wraps to zero. -/
theorem C05_round_pow2_wraps : roundPow2_64 (2 ^ 63 + 1) = 0 ∧ roundPow2_64 0 = 0 := by decide

end Verif.Arith
