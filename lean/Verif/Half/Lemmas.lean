import Verif.Half.Spec
import Mathlib.Tactic.NormNum.Pow

namespace Verif.Half
open Verif.Ieee

/-! ### Bits -/

theorem sign_msb16 (h : BitVec 16) : sign 5 10 h.toNat = h.msb := by
  have := h.isLt
  unfold sign
  rw [BitVec.msb_eq_decide, Nat.mod_eq_of_lt (a := h.toNat / 2 ^ (10 + 5)) (by omega)]
  by_cases hc : 2 ^ (16 - 1) ≤ h.toNat
  · rw [show h.toNat / 2 ^ (10 + 5) = 1 by omega, decide_eq_true hc]; rfl
  · rw [show h.toNat / 2 ^ (10 + 5) = 0 by omega, decide_eq_false hc]; rfl

theorem sign_msb32 (h : BitVec 32) : sign 8 23 h.toNat = h.msb := by
  have := h.isLt
  unfold sign
  rw [BitVec.msb_eq_decide, Nat.mod_eq_of_lt (a := h.toNat / 2 ^ (23 + 8)) (by omega)]
  by_cases hc : 2 ^ (32 - 1) ≤ h.toNat
  · rw [show h.toNat / 2 ^ (23 + 8) = 1 by omega, decide_eq_true hc]; rfl
  · rw [show h.toNat / 2 ^ (23 + 8) = 0 by omega, decide_eq_false hc]; rfl

theorem xor_and_self {w : Nat} (x m : BitVec w) : x ^^^ (x &&& m) = x &&& ~~~m := by
  ext i hi
  simp only [BitVec.getElem_xor, BitVec.getElem_and, BitVec.getElem_not]
  cases x[i] <;> cases m[i] <;> rfl

theorem toNat_split {w : Nat} (x : BitVec (w + 1)) : x.toNat = (if x.msb then 2 ^ w else 0) + x.toNat % 2 ^ w := by
  have := x.isLt
  rw [BitVec.msb_eq_decide]
  simp only [Nat.add_sub_cancel, decide_eq_true_eq]
  split
  · rename_i h
    rw [Nat.pow_succ] at this
    rw [Nat.mod_eq_sub_mod h, Nat.mod_eq_of_lt (by omega)]; omega
  · rename_i h
    rw [Nat.mod_eq_of_lt (by omega)]; omega

theorem sel (c : Bool) (x y : F32) : x ^^^ (-(bit c) &&& (y ^^^ x)) = if c then y else x := by
  cases c
  · simp [bit]
  · have : -(bit true) = BitVec.allOnes 32 := by decide
    rw [this, BitVec.allOnes_and, BitVec.xor_comm y x, ← BitVec.xor_assoc]
    simp

/-! ### Units -/

theorem units_scale (m : Nat) : units 23 (m * 2 ^ 13) = units 10 m * 2 ^ 13 := by
  unfold units
  have e1 : m * 2 ^ 13 / 2 ^ 23 = m / 2 ^ 10 := by omega
  have e2 : m * 2 ^ 13 % 2 ^ 23 = m % 2 ^ 10 * 2 ^ 13 := by omega
  rw [e1, e2]
  split
  · rfl
  · rw [show (2 ^ 23 : Nat) = 2 ^ 10 * 2 ^ 13 by norm_num, ← Nat.add_mul]
    ring

/-- Numbers with few significant bits are representable. -/
theorem units_rep (mb : Nat) (j : Nat) : ∀ v, v < 2 ^ (mb + 1) → ∃ k, units mb k = v * 2 ^ j := by
  have big : ∀ v j, 2 ^ mb ≤ v → v < 2 ^ (mb + 1) → ∃ k, units mb k = v * 2 ^ j := by
    intro v j h1 h2
    rw [Nat.pow_succ] at h2
    refine ⟨2 ^ mb * (j + 1) + (v - 2 ^ mb), ?_⟩
    unfold units
    have hp : 0 < 2 ^ mb := Nat.two_pow_pos mb
    rw [Nat.mul_add_div hp, Nat.mul_add_mod, Nat.div_eq_of_lt (by omega), Nat.mod_eq_of_lt (by omega), if_neg (by omega)]
    congr 1
    omega
  induction j with
  | zero =>
    intro v hv
    by_cases h : 2 ^ mb ≤ v
    · exact big v 0 h hv
    · exact ⟨v, by unfold units; rw [Nat.div_eq_of_lt (by omega)]; simp⟩
  | succ j ih =>
    intro v hv
    by_cases h : 2 ^ mb ≤ v
    · exact big v _ h hv
    · obtain ⟨k, hk⟩ := ih (2 * v) (by rw [Nat.pow_succ]; omega)
      exact ⟨k, by rw [hk]; ring⟩

theorem units_small {mb a : Nat} (h : a ≤ 2 ^ mb) : units mb a = a := by
  unfold units
  have hp : 0 < 2 ^ mb := Nat.two_pow_pos mb
  rcases Nat.lt_or_ge a (2 ^ mb) with h1 | h1
  · rw [Nat.div_eq_of_lt h1]; simp
  · have : a = 2 ^ mb := by omega
    subst this
    rw [Nat.div_self hp]; simp

theorem units_inf32 : units 23 (infMag 8 23) = 2 ^ 277 := by decide +kernel

theorem lt_inf32 {k v : Nat} (h : units 23 k = v) (hv : v < 2 ^ 277) : k < infMag 8 23 := by
  rw [← units_inf32, ← h] at hv
  exact units_lt_iff.1 hv

/-! ### Multiplication by a power of two -/

theorem scale_spec {mul : F32 → F32 → F32} (hm : IsMul mul) {a c : F32} {p : ℚ} (hp : 0 < p)
    (hc : single c = .fin p) (hcs : c.msb = false) (ha : mag 8 23 a.toNat < infMag 8 23) {k : Nat}
    (hk : Near 23 (units 23 (mag 8 23 a.toNat) * p) k) :
    mag 8 23 (mul a c).toNat = min k (infMag 8 23) ∧ (mul a c).msb = a.msb := by
  have hfin := fin_value (eb := 8) (mb := 23) (n := a.toNat) (fin_iff.2 ha)
  have h := hm.fin_fin a c _ _ hfin hc
  rw [show singleNeg c = false from hcs, Bool.xor_false] at h
  have e : (if sign 8 23 a.toNat = true then (-1 : ℚ) else 1) * (units 23 (mag 8 23 a.toNat) : ℚ) * ulp 8 23 * p =
      sgn (singleNeg a) * ((units 23 (mag 8 23 a.toNat) : ℚ) * p) * ulp 8 23 := by
    rw [sign_msb32]
    unfold sgn singleNeg
    ring
  rw [e] at h
  refine ⟨near_of_rounds (by omega) (by omega) (by positivity) h hk, ?_⟩
  rw [← sign_msb32]
  exact h.2.1

theorem single_pow112 : single 0x77800000#32 = .fin (2 ^ 112) := by
  show decode 8 23 0x77800000 = _
  rw [fin_value (by decide)]
  simp [sign, units, mag, ulp, bias]
  norm_num
theorem single_powm125 : single 0x01000000#32 = .fin (1 / 2 ^ 125) := by
  show decode 8 23 0x01000000 = _
  rw [fin_value (by decide)]
  simp [sign, units, mag, ulp, bias]
  norm_num
theorem single_pow13 : single 0x46000000#32 = .fin (2 ^ 13) := by
  show decode 8 23 0x46000000 = _
  rw [fin_value (by decide)]
  simp [sign, units, mag, ulp, bias]
  norm_num
theorem single_powm112 : single 0x07800000#32 = .fin (1 / 2 ^ 112) := by
  show decode 8 23 0x07800000 = _
  rw [fin_value (by decide)]
  simp [sign, units, mag, ulp, bias]
  norm_num

theorem ulp_half : ulp 5 10 = 2 ^ 125 * ulp 8 23 := by
  simp [ulp, bias]; norm_num

/-! ### Half to single precision -/

theorem mag16 (h : BitVec 16) : mag 5 10 h.toNat = h.toNat % 2 ^ 15 := rfl
theorem mag32 (f : F32) : mag 8 23 f.toNat = f.toNat % 2 ^ 31 := rfl

theorem clear16 (h : BitVec 16) : (h.setWidth 32 ^^^ (h &&& 0x8000#16).setWidth 32).toNat = mag 5 10 h.toNat := by
  rw [← BitVec.setWidth_xor, xor_and_self, show ~~~0x8000#16 = 0x7fff#16 by decide, BitVec.toNat_setWidth, BitVec.toNat_and,
    show (0x7fff#16).toNat = 2 ^ 15 - 1 by decide, Nat.and_two_pow_sub_one_eq_mod, mag16]
  omega

theorem hi16 (h : BitVec 16) : h &&& 0x8000#16 = if h.msb then 0x8000#16 else 0#16 := by
  rw [show 0x8000#16 = BitVec.twoPow 16 15 by decide, BitVec.and_twoPow, BitVec.msb_eq_getLsbD_last]

theorem clear32 (f : F32) : (f ^^^ (f &&& 0x80000000#32)).toNat = mag 8 23 f.toNat := by
  rw [xor_and_self, show ~~~0x80000000#32 = 0x7fffffff#32 by decide, BitVec.toNat_and,
    show (0x7fffffff#32).toNat = 2 ^ 31 - 1 by decide, Nat.and_two_pow_sub_one_eq_mod, mag32]

theorem hi32 (f : F32) : f &&& 0x80000000#32 = if f.msb then 0x80000000#32 else 0#32 := by
  rw [show 0x80000000#32 = BitVec.twoPow 32 31 by decide, BitVec.and_twoPow, BitVec.msb_eq_getLsbD_last]

/-- The operand of the multiplication -/
theorem shifted (h : BitVec 16) :
    (((h &&& 0x8000#16).setWidth 32 <<< 16) ||| ((h.setWidth 32 ^^^ (h &&& 0x8000#16).setWidth 32) <<< 13)).toNat =
      (if h.msb then 2 ^ 31 else 0) + mag 5 10 h.toNat * 2 ^ 13 := by
  have hlt : mag 5 10 h.toNat < 2 ^ 15 := Nat.mod_lt _ (by norm_num)
  rw [BitVec.toNat_or, BitVec.toNat_shiftLeft (x := BitVec.setWidth 32 h ^^^ _), clear16, hi16, Nat.shiftLeft_eq,
    Nat.mod_eq_of_lt (by omega)]
  cases h.msb
  · simp
  · have : (BitVec.setWidth 32 (if true = true then 0x8000#16 else 0#16) <<< 16).toNat = 2 ^ 31 * 1 := by decide
    rw [this, ← Nat.two_pow_add_eq_or_of_lt (by omega)]; simp

theorem or_ones {x n : Nat} (h : x < 2 ^ n) : x ||| (2 ^ n - 1) = 2 ^ n - 1 := by
  apply Nat.eq_of_testBit_eq
  intro i
  rw [Nat.testBit_or, Nat.testBit_two_pow_sub_one]
  by_cases hi : i < n
  · simp [hi]
  · have : x.testBit i = false := Nat.testBit_lt_two_pow (lt_of_lt_of_le h (Nat.pow_le_pow_right (by omega) (by omega)))
    simp [hi, this]

/-- Setting all exponent bits -/
theorem or_inf (r : F32) : expo 8 23 (r ||| 0x7f800000#32).toNat = 255 ∧
    frac 23 (r ||| 0x7f800000#32).toNat = frac 23 r.toNat ∧ (r ||| 0x7f800000#32).msb = r.msb := by
  refine ⟨?_, ?_, ?_⟩
  · unfold expo
    rw [BitVec.toNat_or, ← Nat.shiftRight_eq_div_pow, Nat.shiftRight_or_distrib, Nat.or_mod_two_pow]
    rw [show ((0x7f800000#32).toNat >>> 23) % 2 ^ 8 = 2 ^ 8 - 1 by decide]
    exact or_ones (Nat.mod_lt _ (by norm_num))
  · unfold frac
    rw [BitVec.toNat_or, Nat.or_mod_two_pow, show (0x7f800000#32).toNat % 2 ^ 23 = 0 by decide, Nat.or_zero]
  · rw [BitVec.msb_or, show (0x7f800000#32).msb = false by decide, Bool.or_false]

theorem toFloat_spec {mul : F32 → F32 → F32} (hm : IsMul mul) (h : BitVec 16) :
    single (toFloat mul h) = half h ∧ (toFloat mul h).msb = h.msb := by
  unfold toFloat
  dsimp only
  generalize hB : ((h &&& 0x8000#16).setWidth 32 <<< 16) |||
    ((h.setWidth 32 ^^^ (h &&& 0x8000#16).setWidth 32) <<< 13) = B
  have hBn := shifted h
  rw [hB] at hBn
  have hlt : mag 5 10 h.toNat < 2 ^ 15 := Nat.mod_lt _ (by norm_num)
  have hBm : mag 8 23 B.toNat = mag 5 10 h.toNat * 2 ^ 13 := by
    rw [mag32, hBn]; split <;> omega
  have hBs : B.msb = h.msb := by
    rw [← sign_msb32]
    unfold sign
    rw [hBn]
    cases h.msb
    · have : (0 + mag 5 10 h.toNat * 2 ^ 13) / 2 ^ (23 + 8) = 0 := by omega
      simp only [Bool.false_eq_true, if_false, this]; rfl
    · have : (2 ^ 31 + mag 5 10 h.toNat * 2 ^ 13) / 2 ^ (23 + 8) = 1 := by omega
      simp only [if_true, this]; rfl
  have hBfin : mag 8 23 B.toNat < infMag 8 23 := by
    rw [hBm]; have : infMag 8 23 = 255 * 2 ^ 23 := by decide
    omega
  have hcond : (decide ((h.setWidth 32 ^^^ (h &&& 0x8000#16).setWidth 32) < 0x7c00#32)) =
      decide (mag 5 10 h.toNat < 0x7c00) := by
    rw [decide_eq_decide, BitVec.lt_def, clear16]; rfl
  rw [hcond]
  have hinf : infMag 5 10 = 0x7c00 := by decide
  have hv : ∀ k, units 23 k = units 10 (mag 5 10 h.toNat) * 2 ^ 125 →
      Near 23 (units 23 (mag 8 23 B.toNat) * 2 ^ 112) k := by
    intro k hk
    have := near_exact 23 k
    have e : ((units 23 k : ℕ) : ℚ) = units 23 (mag 8 23 B.toNat) * 2 ^ 112 := by
      rw [hk, hBm, units_scale]; push_cast; ring
    rw [e] at this
    exact this
  by_cases hn : mag 5 10 h.toNat < 0x7c00
  · have hb : (-(bit (!decide (mag 5 10 h.toNat < 0x7c00))) &&& 0x7f800000#32) = 0#32 := by simp [hn, bit]
    rw [hb, BitVec.or_zero]
    have hu : units 10 (mag 5 10 h.toNat) < 2 ^ 41 := by
      have h1 := units_lt (mb := 10) hn
      have h2 : units 10 0x7c00 ≤ 2 ^ 41 := by decide +kernel
      omega
    -- representable
    have hrep : ∃ k, units 23 k = units 10 (mag 5 10 h.toNat) * 2 ^ 125 := by
      generalize mag 5 10 h.toNat = m at *
      by_cases h0 : m / 2 ^ 10 = 0
      · obtain ⟨k, hk⟩ := units_rep 23 125 m (by omega)
        exact ⟨k, by rw [hk]; unfold units; rw [if_pos h0]⟩
      · obtain ⟨k, hk⟩ := units_rep 23 (125 + (m / 2 ^ 10 - 1)) (2 ^ 10 + m % 2 ^ 10) (by omega)
        exact ⟨k, by rw [hk]; unfold units; rw [if_neg h0, Nat.pow_add]; ring⟩
    obtain ⟨k, hk⟩ := hrep
    obtain ⟨r1, r2⟩ := scale_spec hm (by norm_num) single_pow112 (by decide) hBfin (hv k hk)
    have hkI := lt_inf32 hk (by
      calc units 10 (mag 5 10 h.toNat) * 2 ^ 125 < 2 ^ 41 * 2 ^ 125 := Nat.mul_lt_mul_of_pos_right hu (by norm_num)
        _ < 2 ^ 277 := by rw [← Nat.pow_add]; exact Nat.pow_lt_pow_right (by omega) (by omega))
    rw [min_eq_left hkI.le] at r1
    refine ⟨?_, by rw [r2, hBs]⟩
    unfold single half
    rw [fin_value (fin_iff.2 (by rw [r1]; exact hkI)), fin_value (n := h.toNat) (fin_iff.2 (by show _ < infMag 5 10; rw [hinf]; exact hn)),
      r1, sign_msb32, r2, hBs, sign_msb16, ulp_half, hk]
    congr 1
    push_cast
    ring
  · have hb : (-(bit (!decide (mag 5 10 h.toNat < 0x7c00))) &&& 0x7f800000#32) = 0x7f800000#32 := by
      have : bit (!decide (mag 5 10 h.toNat < 0x7c00)) = 1#32 := by simp [hn, bit]
      rw [this]; decide
    rw [hb]
    have hk : units 23 (mag 5 10 h.toNat * 2 ^ 13 + 112 * 2 ^ 23) = units 10 (mag 5 10 h.toNat) * 2 ^ 125 := by
      generalize mag 5 10 h.toNat = m at *
      unfold units
      have e1 : (m * 2 ^ 13 + 112 * 2 ^ 23) / 2 ^ 23 = 143 := by omega
      have e2 : (m * 2 ^ 13 + 112 * 2 ^ 23) % 2 ^ 23 = (m % 2 ^ 10) * 2 ^ 13 := by omega
      have e3 : m / 2 ^ 10 = 31 := by omega
      rw [e1, e2, e3]
      norm_num
      omega
    obtain ⟨r1, r2⟩ := scale_spec hm (by norm_num) single_pow112 (by decide) hBfin (hv _ hk)
    have hI : infMag 8 23 = 255 * 2 ^ 23 := by decide
    rw [min_eq_left (by rw [hI]; omega)] at r1
    generalize mul B 0x77800000#32 = R at *
    obtain ⟨o1, o2, o3⟩ := or_inf R
    refine ⟨?_, by rw [o3, r2, hBs]⟩
    have hfr : frac 23 R.toNat = frac 10 h.toNat * 2 ^ 13 := by
      rw [← mag_mod (eb := 8), r1, ← mag_mod (eb := 5)]
      omega
    have hex : expo 5 10 h.toNat = 2 ^ 5 - 1 := by
      rw [← mag_div]; omega
    unfold single half decode
    rw [o1, if_pos (by norm_num), o2, hfr, if_pos hex, sign_msb32, o3, r2, hBs, sign_msb16]
    by_cases h0 : frac 10 h.toNat = 0
    · simp [h0]
    · rw [if_neg h0, if_neg (by omega)]

/-! ### Single to half precision -/

theorem near_small {v : ℚ} {k : Nat} (hv : v < 2 ^ 10) (h : Near 23 v k) : Near 10 v k ∧ k ≤ 2 ^ 10 := by
  obtain ⟨a, a1, a2, a3⟩ := h
  have ha : a < 2 ^ 10 := by
    have h1 : ((a : ℕ) : ℚ) ≤ v := le_trans (Nat.cast_le.2 (le_units 23 a)) a1
    have : ((a : ℕ) : ℚ) < ((2 ^ 10 : ℕ) : ℚ) := by push_cast; linarith
    exact Nat.cast_lt.1 this
  rw [units_small (mb := 23) (a := a) (by omega), units_small (mb := 23) (a := a + 1) (by omega)] at *
  refine ⟨⟨a, ?_⟩, ?_⟩
  · rw [units_small (mb := 10) (a := a) (by omega), units_small (mb := 10) (a := a + 1) (by omega)]
    exact ⟨a1, a2, a3⟩
  · rcases a3 with ⟨_, rfl⟩ | ⟨_, rfl⟩ | ⟨_, rfl⟩ <;> omega

theorem frac_aux {t : ℚ} (h : t < 2 ^ 13) : t / 2 ^ 13 < 1 := by
  have h13 : (0 : ℚ) < 2 ^ 13 := by norm_num
  exact (div_lt_one h13).2 h

theorem near_aux {m n e g t : Nat} (hgl : g < 2 ^ 10) (htl : t < 2 ^ 13) (he : m / 2 ^ 23 = e + 113)
    (hf : m % 2 ^ 23 = g * 2 ^ 13 + t) (ha : n / 2 ^ 13 = (e + 1) * 2 ^ 10 + g) :
    units 23 m = (2 ^ 23 + (g * 2 ^ 13 + t)) * 2 ^ (e + 112) ∧ units 10 (n / 2 ^ 13) = (2 ^ 10 + g) * 2 ^ e ∧
    units 10 (n / 2 ^ 13 + 1) = (2 ^ 10 + g + 1) * 2 ^ e := by
  refine ⟨?_, ?_, ?_⟩
  · unfold units; rw [he, hf, if_neg (by omega)]; rfl
  · unfold units
    rw [ha, show ((e + 1) * 2 ^ 10 + g) / 2 ^ 10 = e + 1 by omega, show ((e + 1) * 2 ^ 10 + g) % 2 ^ 10 = g by omega,
      if_neg (by omega)]; rfl
  · unfold units
    rw [ha]
    by_cases hc : g + 1 < 2 ^ 10
    · rw [show ((e + 1) * 2 ^ 10 + g + 1) / 2 ^ 10 = e + 1 by omega,
        show ((e + 1) * 2 ^ 10 + g + 1) % 2 ^ 10 = g + 1 by omega, if_neg (by omega)]; rfl
    · rw [show ((e + 1) * 2 ^ 10 + g + 1) / 2 ^ 10 = e + 2 by omega,
        show ((e + 1) * 2 ^ 10 + g + 1) % 2 ^ 10 = 0 by omega, if_neg (by omega),
        show g = 2 ^ 10 - 1 by omega, show e + 2 - 1 = e + 1 by omega, Nat.pow_succ]
      omega

theorem near_interp {a k t : Nat} {G P : ℚ} (hP : 0 < P) (htl : t < 2 ^ 13)
    (c1 : (units 10 a : ℚ) = G * P) (c2 : (units 10 (a + 1) : ℚ) = (G + 1) * P)
    (hk : (t < 4096 → k = a) ∧ (t = 4096 → k = a + a % 2) ∧ (4096 < t → k = a + 1)) :
    Near 10 ((G + t / 2 ^ 13) * P) k := by
  have htq : (t : ℚ) < 2 ^ 13 := by exact_mod_cast htl
  have hx0 : (0 : ℚ) ≤ t / 2 ^ 13 := by positivity
  have hx1 : (t : ℚ) / 2 ^ 13 < 1 := frac_aux htq
  have hx : (t : ℚ) = 2 ^ 13 * (t / 2 ^ 13) := by field_simp
  generalize hX : (t : ℚ) / 2 ^ 13 = x at *
  have p0 : 0 ≤ x * P := mul_nonneg hx0 hP.le
  have p1 : x * P < 1 * P := mul_lt_mul_of_pos_right hx1 hP
  have ex : (G + x) * P = G * P + x * P := by ring
  have ex1 : (G + 1) * P = G * P + P := by ring
  refine ⟨a, ?_, ?_, ?_⟩
  · rw [c1, ex]; linarith
  · rw [c2, ex, ex1]; linarith
  · rw [c1, c2, ex, ex1]
    rcases Nat.lt_trichotomy t 4096 with h1 | h1 | h1
    · left
      have h2 : (t : ℚ) < 4096 := by exact_mod_cast h1
      refine ⟨?_, hk.1 h1⟩
      have h3 : x < 1 / 2 := by rw [hx] at h2; linarith
      have := mul_lt_mul_of_pos_right h3 hP
      linarith
    · right; right
      have h2 : (t : ℚ) = 4096 := by exact_mod_cast h1
      refine ⟨?_, hk.2.1 h1⟩
      have h3 : x = 1 / 2 := by rw [hx] at h2; linarith
      rw [h3]; ring
    · right; left
      have h2 : (4096 : ℚ) < t := by exact_mod_cast h1
      refine ⟨?_, hk.2.2 h1⟩
      have h3 : 1 / 2 < x := by rw [hx] at h2; linarith
      have := mul_lt_mul_of_pos_right h3 hP
      linarith

/-- Rounding the bit pattern rounds the number. -/
theorem near_normal {m n : Nat} (h : m = n + 112 * 2 ^ 23) (hn : 2 ^ 23 ≤ n) :
    Near 10 (units 23 m * (1 / 2 ^ 125)) ((n + n / 2 ^ 13 % 2 + 4095) / 2 ^ 13) := by
  -- exponent and fraction
  obtain ⟨e, he⟩ : ∃ e, m / 2 ^ 23 = e + 113 := ⟨m / 2 ^ 23 - 113, by omega⟩
  obtain ⟨g, hg⟩ : ∃ g, m % 2 ^ 23 / 2 ^ 13 = g := ⟨_, rfl⟩
  obtain ⟨t, ht⟩ : ∃ t, m % 2 ^ 13 = t := ⟨_, rfl⟩
  have hf : m % 2 ^ 23 = g * 2 ^ 13 + t := by omega
  have hgl : g < 2 ^ 10 := by omega
  have htl : t < 2 ^ 13 := by omega
  have ha : n / 2 ^ 13 = (e + 1) * 2 ^ 10 + g := by omega
  have hnt : n % 2 ^ 13 = t := by omega
  obtain ⟨u0, u1, u2⟩ := near_aux hgl htl he hf ha
  have hP : (0 : ℚ) < 2 ^ e := by positivity
  have hv : (units 23 m : ℚ) * (1 / 2 ^ 125) = (2 ^ 10 + g + t / 2 ^ 13) * 2 ^ e := by
    rw [u0]; push_cast
    rw [pow_add]
    field_simp
    ring
  rw [hv]
  refine near_interp (a := n / 2 ^ 13) hP htl ?_ ?_ ⟨?_, ?_, ?_⟩
  · rw [u1]; push_cast; rfl
  · rw [u2]; push_cast; rfl
  · clear hv hP u0 u1 u2; omega
  · clear hv hP u0 u1 u2; omega
  · clear hv hP u0 u1 u2; omega

end Verif.Half
