import Verif.Half.Lemmas

namespace Verif.Half
open Verif.Ieee

theorem pack_half (f b : F32) (hb : b.toNat < 2 ^ 15) :
    ((b ||| ((f &&& 0x80000000#32) >>> 16)).setWidth 16).toNat = (if f.msb then 2 ^ 15 else 0) + b.toNat := by
  rw [hi32, BitVec.toNat_setWidth, BitVec.toNat_or]
  cases f.msb
  · simp; omega
  · have : ((if true = true then 0x80000000#32 else 0#32) >>> 16).toNat = 2 ^ 15 * 1 := by decide
    rw [this, Nat.or_comm, ← Nat.two_pow_add_eq_or_of_lt hb]
    simp only [if_true]; omega

theorem pack_props (f b : F32) (hb : b.toNat < 2 ^ 15) :
    let r := (b ||| ((f &&& 0x80000000#32) >>> 16)).setWidth 16
    mag 5 10 r.toNat = b.toNat ∧ r.msb = f.msb := by
  intro r
  have e : r.toNat = (if f.msb then 2 ^ (10 + 5) else 0) + b.toNat := pack_half f b hb
  refine ⟨?_, ?_⟩
  · rw [e]; exact pack_mag (eb := 5) (mb := 10) hb
  · rw [← sign_msb16, e]; exact pack_sign (eb := 5) (mb := 10) hb

/-- The magnitude bits computed from the bits `m` of a single precision number without sign,
and the results of the multiplications -/
def core (is_sub is_nan : Bool) (subn norm : F32) : F32 :=
  let bits := norm
  let bits := bits + ((bits >>> 13) &&& 1#32)
  let bits := bits + 4095#32
  let bits := if is_sub then subn else bits
  let bits := bits >>> 13
  let bits := if decide (0x7c00#32 < bits) then 0x7c00#32 else bits
  if is_nan then 0x7e00#32 else bits

theorem toHalf_eq (mul : F32 → F32 → F32) (f : F32) :
    let n := f ^^^ (f &&& 0x80000000#32)
    toHalf mul f = (core (decide (n < 0x38800000#32)) (decide (0x7f800000#32 < n))
      (mul (mul n 0x01000000#32) 0x46000000#32) (mul n 0x07800000#32) ||| ((f &&& 0x80000000#32) >>> 16)).setWidth 16 := by
  intro n
  unfold toHalf core
  simp only [sel]
  rw [show ((1#32) <<< 12) - 1#32 = 4095#32 by decide]

theorem round_bits {r : F32} {n : Nat} (hr : r.toNat = n) (hn : n < 2 ^ 31) :
    ((r + ((r >>> 13) &&& 1#32) + 4095#32) >>> 13).toNat = (n + n / 2 ^ 13 % 2 + 4095) / 2 ^ 13 := by
  rw [BitVec.toNat_ushiftRight, BitVec.toNat_add, BitVec.toNat_add, BitVec.toNat_and, BitVec.toNat_ushiftRight, hr,
    Nat.shiftRight_eq_div_pow, Nat.shiftRight_eq_div_pow, show (1#32).toNat = 1 by decide, Nat.and_one_is_mod,
    show (4095#32).toNat = 4095 by decide]
  omega

theorem cap_bits (b : F32) : (if decide (0x7c00#32 < b) then 0x7c00#32 else b).toNat = min b.toNat 0x7c00 := by
  by_cases h : 0x7c00#32 < b
  · rw [decide_eq_true h, if_pos rfl]
    rw [BitVec.lt_def] at h
    have h2 : (0x7c00#32).toNat = 0x7c00 := by decide
    rw [h2] at h ⊢
    omega
  · rw [decide_eq_false h, if_neg (by simp)]
    rw [BitVec.lt_def] at h
    have h2 : (0x7c00#32).toNat = 0x7c00 := by decide
    rw [h2] at h
    omega

theorem lt_const {x : F32} {m c : Nat} (hx : x.toNat = m) (hc : c < 2 ^ 32) :
    decide (x < BitVec.ofNat 32 c) = decide (m < c) := by
  rw [decide_eq_decide, BitVec.lt_def, hx, BitVec.toNat_ofNat, Nat.mod_eq_of_lt hc]
theorem const_lt {x : F32} {m c : Nat} (hx : x.toNat = m) (hc : c < 2 ^ 32) :
    decide (BitVec.ofNat 32 c < x) = decide (c < m) := by
  rw [decide_eq_decide, BitVec.lt_def, hx, BitVec.toNat_ofNat, Nat.mod_eq_of_lt hc]

theorem msb_of_lt {x : F32} (h : x.toNat < 2 ^ 31) : x.msb = false := by
  rw [BitVec.msb_eq_decide]; simp; omega

theorem toNat_of_msb {x : F32} (h : x.msb = false) : x.toNat = mag 8 23 x.toNat := by
  rw [BitVec.msb_eq_decide] at h
  simp at h
  rw [mag32, Nat.mod_eq_of_lt (by omega)]

/-- The bits of a finite number -/
theorem core_finite {mul : F32 → F32 → F32} (hm : IsMul mul) {n : F32} {m : Nat} (hn : n.toNat = m)
    (hI : m < infMag 8 23) :
    ∃ k, Near 10 (units 23 m * (1 / 2 ^ 125)) k ∧
      (core (decide (n < 0x38800000#32)) (decide (0x7f800000#32 < n))
      (mul (mul n 0x01000000#32) 0x46000000#32) (mul n 0x07800000#32)).toNat = min k (infMag 5 10) := by
  have hIv : infMag 8 23 = 255 * 2 ^ 23 := by decide
  have hIv2 : infMag 5 10 = 0x7c00 := by decide
  rw [hIv] at hI
  have hmsb : n.msb = false := msb_of_lt (by rw [hn]; omega)
  have hmag : mag 8 23 n.toNat = m := by rw [← toNat_of_msb hmsb, hn]
  rw [lt_const hn (by norm_num), const_lt hn (by norm_num)]
  have hnan : decide (0x7f800000 < m) = false := by simp; omega
  rw [hnan]
  unfold core
  dsimp only
  rw [if_neg (by simp), cap_bits, hIv2]
  by_cases hs : m < 0x38800000
  · -- subnormal result
    rw [decide_eq_true hs, if_pos rfl]
    have hv0 : (0 : ℚ) ≤ units 23 m * (1 / 2 ^ 125) := by positivity
    have hu : units 23 m < 2 ^ 135 := by
      have h1 := units_lt (mb := 23) hs
      have h2 : units 23 0x38800000 = 2 ^ 135 := by decide +kernel
      omega
    have hv : (units 23 m : ℚ) * (1 / 2 ^ 125) < 2 ^ 10 := by
      have : (units 23 m : ℚ) < 2 ^ 135 := by exact_mod_cast hu
      rw [mul_one_div, div_lt_iff₀ (by positivity)]
      calc (units 23 m : ℚ) < 2 ^ 135 := this
        _ = 2 ^ 10 * 2 ^ 125 := by norm_num
    obtain ⟨k, hk⟩ := near_exists 23 hv0
    obtain ⟨hk10, hkle⟩ := near_small hv hk
    obtain ⟨r1, r2⟩ := scale_spec hm (a := n) (by norm_num) single_powm125 (by decide) (by rw [hmag, hIv]; omega)
      (k := k) (by rw [hmag]; exact hk)
    rw [min_eq_left (by rw [hIv]; omega)] at r1
    generalize mul n 0x01000000#32 = S at *
    obtain ⟨s1, s2⟩ := scale_spec hm (a := S) (by norm_num) single_pow13 (by decide) (by rw [r1, hIv]; omega)
      (k := k * 2 ^ 13) (by
        have := near_exact 23 (k * 2 ^ 13)
        have e : (units 23 (mag 8 23 S.toNat) : ℚ) * 2 ^ 13 = ((units 23 (k * 2 ^ 13) : ℕ) : ℚ) := by
          rw [r1, units_small (by omega), units_small (by omega)]; push_cast; ring
        rw [e]; exact this)
    rw [min_eq_left (by rw [hIv]; omega)] at s1
    have hT : (mul S 0x46000000#32).toNat = k * 2 ^ 13 := by
      rw [toNat_of_msb (by rw [s2, r2, hmsb]), s1]
    refine ⟨k, hk10, ?_⟩
    rw [BitVec.toNat_ushiftRight, hT, Nat.shiftRight_eq_div_pow, Nat.mul_div_cancel _ (by norm_num)]
  · rw [decide_eq_false hs, if_neg (by simp)]
    obtain ⟨x, hx⟩ : ∃ x, m = x + 112 * 2 ^ 23 := ⟨m - 112 * 2 ^ 23, by omega⟩
    have hx1 : 2 ^ 23 ≤ x := by omega
    have hu : (units 23 m : ℚ) * (1 / 2 ^ 112) = ((units 23 x : ℕ) : ℚ) := by
      have : units 23 m = units 23 x * 2 ^ 112 := by
        unfold units
        rw [show m / 2 ^ 23 = x / 2 ^ 23 + 112 by omega, show m % 2 ^ 23 = x % 2 ^ 23 by omega,
          if_neg (by omega), if_neg (by omega), Nat.mul_assoc, ← Nat.pow_add]
        congr 2; omega
      rw [this, Nat.cast_mul, Nat.cast_pow, mul_assoc]; norm_num
    obtain ⟨r1, r2⟩ := scale_spec hm (a := n) (by norm_num) single_powm112 (by decide) (by rw [hmag, hIv]; omega)
      (k := x) (by rw [hmag, hu]; exact near_exact 23 x)
    rw [min_eq_left (by rw [hIv]; omega)] at r1
    have hR : (mul n 0x07800000#32).toNat = x := by
      rw [toNat_of_msb (by rw [r2, hmsb]), r1]
    refine ⟨_, near_normal hx hx1, ?_⟩
    rw [round_bits hR (by omega)]

theorem near_zero {mb k : Nat} {v : ℚ} (hv : v = 0) (h : Near mb v k) : k = 0 := by
  have := near_exact mb 0
  rw [units_zero, Nat.cast_zero, ← hv] at this
  exact near_unique h this

theorem toHalf_finite {mul : F32 → F32 → F32} (hm : IsMul mul) (f : F32) {q : ℚ} (h : single f = .fin q) :
    NearestHalf q (singleNeg f) (toHalf mul f) := by
  obtain ⟨hd, hlt⟩ : single f = .fin ((if sign 8 23 f.toNat then -1 else 1) * (units 23 (mag 8 23 f.toNat) : ℚ) * ulp 8 23) ∧
      mag 8 23 f.toNat < infMag 8 23 := by
    rcases decode_cases 8 23 f.toNat with ⟨e, _⟩ | ⟨e, _⟩ | ⟨e, hl⟩
    · rw [single, e] at h; cases h
    · rw [single, e] at h; cases h
    · exact ⟨e, hl⟩
  rw [hd] at h
  cases h
  obtain ⟨k, hk, hb⟩ := core_finite hm (clear32 f) hlt
  have heq := toHalf_eq mul f
  dsimp only at heq
  rw [heq]
  generalize core _ _ _ _ = b at *
  have hIv2 : infMag 5 10 = 0x7c00 := by decide
  have hb15 : b.toNat < 2 ^ 15 := by rw [hb, hIv2]; omega
  obtain ⟨p1, p2⟩ := pack_props f b hb15
  have := rounds_of_near (eb := 5) (mb := 10) (neg := f.msb) (by omega) (by omega) (by positivity)
    (n := ((b ||| ((f &&& 0x80000000#32) >>> 16)).setWidth 16).toNat) (BitVec.isLt _) (by rw [sign_msb16, p2]) hk (by rw [p1, hb])
  have e : sgn f.msb * ((units 23 (mag 8 23 f.toNat) : ℚ) * (1 / 2 ^ 125)) * ulp 5 10 =
      (if sign 8 23 f.toNat then -1 else 1) * (units 23 (mag 8 23 f.toNat) : ℚ) * ulp 8 23 := by
    rw [ulp_half, sign_msb32]; unfold sgn; field_simp
  rw [e] at this
  exact this

/-- Infinities and NaN -/
theorem toHalf_special {mul : F32 → F32 → F32} (hm : IsMul mul) (f : F32) (h : infMag 8 23 ≤ mag 8 23 f.toNat) :
    mag 5 10 (toHalf mul f).toNat = (if mag 8 23 f.toNat = infMag 8 23 then 0x7c00 else 0x7e00) ∧
      (toHalf mul f).msb = f.msb := by
  have heq := toHalf_eq mul f
  dsimp only at heq
  rw [heq]
  have hn := clear32 f
  generalize f ^^^ (f &&& 0x80000000#32) = n at *
  have hIv : infMag 8 23 = 0x7f800000 := by decide
  rw [hIv] at h ⊢
  have key : (core (decide (n < 0x38800000#32)) (decide (0x7f800000#32 < n))
      (mul (mul n 0x01000000#32) 0x46000000#32) (mul n 0x07800000#32)).toNat =
      if mag 8 23 f.toNat = 0x7f800000 then 0x7c00 else 0x7e00 := by
    rw [lt_const hn (by norm_num), const_lt hn (by norm_num)]
    by_cases hi : mag 8 23 f.toNat = 0x7f800000
    · rw [if_pos hi]
      rw [hi] at hn ⊢
      rw [show decide (0x7f800000 < 0x7f800000) = false by decide, show decide (0x7f800000 < 0x38800000) = false by decide]
      unfold core
      dsimp only
      rw [if_neg (by simp), cap_bits, if_neg (by simp)]
      have hinf : single n = .inf false := by
        unfold single; rw [hn]; rfl
      have hmul := hm.inf_fin n 0x07800000#32 false _ hinf single_powm112 (by positivity)
      rw [show (false ^^ singleNeg 0x07800000#32) = false by decide] at hmul
      generalize mul n 0x07800000#32 = R at *
      have hR : R.toNat = 0x7f800000 := by
        rcases decode_cases 8 23 R.toNat with ⟨e, _⟩ | ⟨e, hl⟩ | ⟨e, _⟩
        · rw [single, e] at hmul; cases hmul
        · rw [single, e] at hmul
          injection hmul with hs
          rw [sign_msb32] at hs
          rw [toNat_of_msb hs, hl]; rfl
        · rw [single, e] at hmul; cases hmul
      rw [round_bits hR (by norm_num)]
      decide
    · rw [if_neg hi]
      have : decide (0x7f800000 < mag 8 23 f.toNat) = true := by simp; omega
      rw [this]
      unfold core
      dsimp only
      rw [if_pos rfl]; rfl
  generalize core _ _ _ _ = b at *
  obtain ⟨p1, p2⟩ := pack_props f b (by rw [key]; split <;> norm_num)
  exact ⟨by rw [p1, key], p2⟩

/-! ### An IEEE multiplication exists -/

theorem result_exists (a b : F32) : ∃ c : F32,
    ((single a = .nan → single c = .nan) ∧ (single b = .nan → single c = .nan)) ∧
    ((∀ s, single a = .inf s → single b = .fin 0 → single c = .nan) ∧
     (∀ s, single a = .fin 0 → single b = .inf s → single c = .nan)) ∧
    (∀ s t, single a = .inf s → single b = .inf t → single c = .inf (s ^^ t)) ∧
    ((∀ s q, single a = .inf s → single b = .fin q → q ≠ 0 → single c = .inf (s ^^ singleNeg b)) ∧
     (∀ s q, single a = .fin q → single b = .inf s → q ≠ 0 → single c = .inf (singleNeg a ^^ s))) ∧
    (∀ p q, single a = .fin p → single b = .fin q → NearestSingle (p * q) (singleNeg a ^^ singleNeg b) c) := by
  have hnan : single 0x7fc00000#32 = .nan := rfl
  have hinf : ∀ s, ∃ c, single c = .inf s := by
    intro s
    cases s
    · exact ⟨0x7f800000#32, rfl⟩
    · exact ⟨0xff800000#32, rfl⟩
  cases ha : single a with
  | nan => exact ⟨0x7fc00000#32, by simp [hnan]⟩
  | inf s =>
    cases hb : single b with
    | nan => exact ⟨0x7fc00000#32, by simp [hnan]⟩
    | inf t =>
      obtain ⟨c, hc⟩ := hinf (s ^^ t)
      exact ⟨c, by simp [hc]⟩
    | fin q =>
      by_cases hq : q = 0
      · exact ⟨0x7fc00000#32, by simp [hnan, hq]⟩
      · obtain ⟨c, hc⟩ := hinf (s ^^ singleNeg b)
        exact ⟨c, by simp [hc, hq]⟩
  | fin p =>
    cases hb : single b with
    | nan => exact ⟨0x7fc00000#32, by simp [hnan]⟩
    | inf t =>
      by_cases hp : p = 0
      · exact ⟨0x7fc00000#32, by simp [hnan, hp]⟩
      · obtain ⟨c, hc⟩ := hinf (singleNeg a ^^ t)
        exact ⟨c, by simp [hc, hp]⟩
    | fin q =>
      have hu := ulp_pos 8 23
      have val : ∀ (x : F32) (y : ℚ), single x = .fin y → y = sgn x.msb * (units 23 (mag 8 23 x.toNat) : ℚ) * ulp 8 23 := by
        intro x y hxy
        rcases decode_cases 8 23 x.toNat with ⟨e, _⟩ | ⟨e, _⟩ | ⟨e, _⟩ <;> rw [single, e] at hxy <;> cases hxy
        rw [sign_msb32]; rfl
      obtain ⟨n, hn⟩ := rounds_exists (eb := 8) (mb := 23) (by omega) (by omega)
        (v := (units 23 (mag 8 23 a.toNat) : ℚ) * units 23 (mag 8 23 b.toNat) * ulp 8 23) (by positivity)
        (singleNeg a ^^ singleNeg b)
      have e : sgn (singleNeg a ^^ singleNeg b) *
          ((units 23 (mag 8 23 a.toNat) : ℚ) * units 23 (mag 8 23 b.toNat) * ulp 8 23) * ulp 8 23 = p * q := by
        rw [val a p ha, val b q hb]
        have : sgn (singleNeg a ^^ singleNeg b) = sgn a.msb * sgn b.msb := by
          unfold singleNeg sgn; cases a.msb <;> cases b.msb <;> simp
        rw [this]; ring
      rw [e] at hn
      refine ⟨BitVec.ofNat 32 n, by simp, by simp, by simp, by simp, ?_⟩
      intro p' q' h1 h2
      cases h1
      cases h2
      unfold NearestSingle
      rw [BitVec.toNat_ofNat, Nat.mod_eq_of_lt hn.1]
      exact hn

theorem isMul_exists : ∃ mul, IsMul mul := by
  choose mul h using result_exists
  exact ⟨mul, {
    nan_left := fun a b => (h a b).1.1
    nan_right := fun a b => (h a b).1.2
    inf_zero := fun a b => (h a b).2.1.1
    zero_inf := fun a b => (h a b).2.1.2
    inf_inf := fun a b => (h a b).2.2.1
    inf_fin := fun a b => (h a b).2.2.2.1.1
    fin_inf := fun a b => (h a b).2.2.2.1.2
    fin_fin := fun a b => (h a b).2.2.2.2 }⟩

end Verif.Half
