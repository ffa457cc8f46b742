import Verif.Half.ToHalf

/-!
# Properties of half precision conversion (C39)
-/
namespace Verif.Half
open Verif.Ieee

variable {mul : F32 → F32 → F32}

/-- **C39.**  Conversion to single precision is exact: it preserves the datum and the sign bit
of every half precision number (NaN becomes NaN). -/
theorem C39_to_float (hm : IsMul mul) (h : BitVec 16) :
    single (toFloat mul h) = half h ∧ singleNeg (toFloat mul h) = halfNeg h :=
  toFloat_spec hm h

theorem half_of_mag {h : BitVec 16} {m : Nat} (e : mag 5 10 h.toNat = m) :
    (infMag 5 10 < m → half h = .nan) ∧ (m = infMag 5 10 → half h = .inf h.msb) := by
  rw [← sign_msb16, ← e]
  rcases decode_cases 5 10 h.toNat with ⟨d, hl⟩ | ⟨d, hl⟩ | ⟨d, hl⟩ <;>
    refine ⟨fun x => ?_, fun x => ?_⟩ <;> first | exact d | (exfalso; unfold infMag at x; omega)

/-- **C39.**  Conversion to half precision rounds to the nearest half precision number, ties to
even, overflowing to infinity; infinities and NaN are preserved, and so is the sign bit in every
case. -/
theorem C39_to_half (hm : IsMul mul) (f : F32) :
    halfNeg (toHalf mul f) = singleNeg f ∧
    (match single f with
     | .nan => half (toHalf mul f) = .nan
     | .inf s => half (toHalf mul f) = .inf s
     | .fin q => NearestHalf q (singleNeg f) (toHalf mul f)) := by
  cases hd : single f with
  | fin q =>
    have := toHalf_finite hm f hd
    refine ⟨?_, this⟩
    rw [halfNeg, ← sign_msb16]; exact this.2.1
  | nan =>
    have hl : infMag 8 23 < mag 8 23 f.toNat := by
      rcases decode_cases 8 23 f.toNat with ⟨d, hl⟩ | ⟨d, hl⟩ | ⟨d, hl⟩
      · exact hl
      · rw [single, d] at hd; cases hd
      · rw [single, d] at hd; cases hd
    obtain ⟨e, s⟩ := toHalf_special hm f (Nat.le_of_lt hl)
    rw [if_neg (Nat.ne_of_gt hl)] at e
    exact ⟨s, (half_of_mag e).1 (by decide)⟩
  | inf s =>
    obtain ⟨hl, hs⟩ : mag 8 23 f.toNat = infMag 8 23 ∧ s = f.msb := by
      rcases decode_cases 8 23 f.toNat with ⟨d, hl⟩ | ⟨d, hl⟩ | ⟨d, hl⟩
      · rw [single, d] at hd; cases hd
      · rw [single, d] at hd; injection hd with h; rw [← h, sign_msb32]; exact ⟨hl, rfl⟩
      · rw [single, d] at hd; cases hd
    obtain ⟨e, s'⟩ := toHalf_special hm f (Nat.le_of_eq hl.symm)
    rw [if_pos hl] at e
    refine ⟨s', ?_⟩
    dsimp only
    rw [(half_of_mag e).2 (by decide), s', hs]

/-- The specification determines the result: there is exactly one nearest half precision number
of a given sign. -/
theorem C39_nearest_unique {q : ℚ} {neg : Bool} {a b : BitVec 16} (ha : NearestHalf q neg a)
    (hb : NearestHalf q neg b) : a = b :=
  BitVec.eq_of_toNat_eq (rounds_unique (by omega) (by omega) ha hb)

/-- **C39.**  Converting a half precision number to single precision and back gives the same
bits, for every number that is not NaN.  -/
theorem C39_roundtrip (hm : IsMul mul) (h : BitVec 16) (hn : half h ≠ .nan) :
    toHalf mul (toFloat mul h) = h := by
  obtain ⟨e, s⟩ := C39_to_float hm h
  obtain ⟨s2, r⟩ := C39_to_half hm (toFloat mul h)
  rw [e] at r
  have ext : ∀ {a b : BitVec 16}, mag 5 10 a.toNat = mag 5 10 b.toNat → a.msb = b.msb → a = b := by
    intro a b h1 h2
    exact BitVec.eq_of_toNat_eq (pattern_ext (eb := 5) (mb := 10) a.isLt b.isLt (by rw [sign_msb16, sign_msb16, h2]) h1)
  have hs : (toHalf mul (toFloat mul h)).msb = h.msb := by
    have := s2.trans s; exact this
  cases hd : half h with
  | nan => exact absurd hd hn
  | inf t =>
    rw [hd] at r
    dsimp only at r
    have inf : ∀ {a : BitVec 16}, half a = .inf t → mag 5 10 a.toNat = infMag 5 10 := by
      intro a ha
      rcases decode_cases 5 10 a.toNat with ⟨d, hl⟩ | ⟨d, hl⟩ | ⟨d, hl⟩
      · rw [half, d] at ha; cases ha
      · exact hl
      · rw [half, d] at ha; cases ha
    exact ext ((inf r).trans (inf hd).symm) hs
  | fin q =>
    rw [hd] at r
    dsimp only at r
    refine C39_nearest_unique r ?_
    rw [s]
    rcases decode_cases 5 10 h.toNat with ⟨d, hl⟩ | ⟨d, hl⟩ | ⟨d, hl⟩
    · rw [half, d] at hd; cases hd
    · rw [half, d] at hd; cases hd
    · rw [half, d] at hd
      injection hd with hq
      have := rounds_of_near (eb := 5) (mb := 10) (neg := h.msb) (by omega) (by omega) (by positivity)
        (n := h.toNat) h.isLt (by rw [sign_msb16]) (near_exact 10 (mag 5 10 h.toNat)) (by
          rw [min_eq_left]; exact Nat.le_of_lt hl)
      rw [← hq, sign_msb16]
      exact this

theorem fin_half {h : BitVec 16} {q : ℚ} (hd : half h = .fin q) :
    mag 5 10 h.toNat < infMag 5 10 ∧ q = sgn h.msb * (units 10 (mag 5 10 h.toNat) : ℚ) * ulp 5 10 := by
  rcases decode_cases 5 10 h.toNat with ⟨d, hl⟩ | ⟨d, hl⟩ | ⟨d, hl⟩
  · rw [half, d] at hd; cases hd
  · rw [half, d] at hd; cases hd
  · rw [half, d] at hd
    injection hd with hq
    exact ⟨hl, by rw [← hq, sign_msb16]; rfl⟩

theorem units10 {m : Nat} (h : m < infMag 5 10) : ∃ x i, units 10 m = x * 2 ^ i ∧ x < 2 ^ 11 ∧ i ≤ 29 := by
  have hI : infMag 5 10 = 31 * 2 ^ 10 := by decide
  rw [hI] at h
  unfold units
  split
  · exact ⟨m, 0, by simp, by omega, by omega⟩
  · exact ⟨_, _, rfl, by omega, by omega⟩

/-- The product of two half precision numbers is representable in single precision. -/
theorem product_exact {a b : BitVec 16} {p q : ℚ} (ha : half a = .fin p) (hb : half b = .fin q) :
    ∃ k, k < infMag 8 23 ∧ p * q = sgn (a.msb ^^ b.msb) * (units 23 k : ℚ) * ulp 8 23 := by
  obtain ⟨a1, a2⟩ := fin_half ha
  obtain ⟨b1, b2⟩ := fin_half hb
  obtain ⟨x, i, hx, hx1, hi⟩ := units10 a1
  obtain ⟨y, j, hy, hy1, hj⟩ := units10 b1
  obtain ⟨k, hk⟩ := units_rep 23 (i + j + 101) (x * y) (by
    have : x * y < 2 ^ 11 * 2 ^ 11 := Nat.mul_lt_mul'' hx1 hy1
    omega)
  refine ⟨k, lt_inf32 hk ?_, ?_⟩
  · calc x * y * 2 ^ (i + j + 101) < 2 ^ 22 * 2 ^ (i + j + 101) :=
        Nat.mul_lt_mul_of_pos_right (by
          have : x * y < 2 ^ 11 * 2 ^ 11 := Nat.mul_lt_mul'' hx1 hy1
          omega) (Nat.two_pow_pos _)
      _ = 2 ^ (22 + (i + j + 101)) := (Nat.pow_add 2 22 _).symm
      _ ≤ 2 ^ 277 := Nat.pow_le_pow_right (by omega) (by omega)
  · rw [a2, b2, hx, hy, hk]
    have hs : sgn (a.msb ^^ b.msb) = sgn a.msb * sgn b.msb := by
      unfold sgn; cases a.msb <;> cases b.msb <;> simp
    have hu : ulp 5 10 * ulp 5 10 = 2 ^ 101 * ulp 8 23 := by simp [ulp, bias]; norm_num
    rw [hs]
    push_cast
    rw [show sgn a.msb * ((x : ℚ) * 2 ^ i) * ulp 5 10 * (sgn b.msb * ((y : ℚ) * 2 ^ j) * ulp 5 10) =
      sgn a.msb * sgn b.msb * (x * 2 ^ i) * (y * 2 ^ j) * (ulp 5 10 * ulp 5 10) by ring, hu]
    ring

/-- **C57.**  The product of two half precision numbers (computed by multiplying in single
precision and converting back, i.e. with two roundings) is correctly rounded; special values
follow IEEE 754. -/
theorem C57_mul (hm : IsMul mul) (a b : BitVec 16) :
    match half a, half b with
    | .fin p, .fin q => NearestHalf (p * q) (halfNeg a ^^ halfNeg b) (mulHalf mul a b)
    | .nan, _ => half (mulHalf mul a b) = .nan
    | _, .nan => half (mulHalf mul a b) = .nan
    | .inf s, .inf t => half (mulHalf mul a b) = .inf (s ^^ t)
    | .inf s, .fin q => half (mulHalf mul a b) = if q = 0 then .nan else .inf (s ^^ halfNeg b)
    | .fin p, .inf t => half (mulHalf mul a b) = if p = 0 then .nan else .inf (halfNeg a ^^ t) := by
  obtain ⟨ea, sa⟩ := C39_to_float hm a
  obtain ⟨eb, sb⟩ := C39_to_float hm b
  unfold mulHalf
  generalize toFloat mul a = A at *
  generalize toFloat mul b = B at *
  obtain ⟨s, r⟩ := C39_to_half hm (mul A B)
  cases ha : half a with
  | nan =>
    rw [ha] at ea
    rw [hm.nan_left A B ea] at r
    cases half b <;> exact r
  | inf s =>
    rw [ha] at ea
    cases hb : half b with
    | nan =>
      rw [hb] at eb
      rw [hm.nan_right A B eb] at r
      exact r
    | inf t =>
      rw [hb] at eb
      rw [hm.inf_inf A B s t ea eb] at r
      exact r
    | fin q =>
      rw [hb] at eb
      dsimp only
      split
      · rename_i hq; subst hq
        rw [hm.inf_zero A B s ea eb] at r
        exact r
      · rename_i hq
        rw [hm.inf_fin A B s q ea eb hq, sb] at r
        exact r
  | fin p =>
    rw [ha] at ea
    cases hb : half b with
    | nan =>
      rw [hb] at eb
      rw [hm.nan_right A B eb] at r
      exact r
    | inf t =>
      rw [hb] at eb
      dsimp only
      split
      · rename_i hq; subst hq
        rw [hm.zero_inf A B t ea eb] at r
        exact r
      · rename_i hq
        rw [hm.fin_inf A B t p ea eb hq, sa] at r
        exact r
    | fin q =>
      rw [hb] at eb
      dsimp only
      obtain ⟨k, hk, hpq⟩ := product_exact ha hb
      have h := hm.fin_fin A B p q ea eb
      rw [sa, sb] at h
      rw [hpq] at h
      have hmg := near_of_rounds (eb := 8) (mb := 23) (by omega) (by omega) (by positivity) h (near_exact 23 k)
      rw [min_eq_left (Nat.le_of_lt hk)] at hmg
      have hsg : (mul A B).msb = (a.msb ^^ b.msb) := by rw [← sign_msb32]; exact h.2.1
      have hval : single (mul A B) = .fin (p * q) := by
        unfold single
        rw [fin_value (eb := 8) (mb := 23) (fin_iff.2 (by rw [hmg]; exact hk)), hmg, sign_msb32, hsg, hpq]
        rfl
      rw [hval] at r
      dsimp only at r
      rw [show singleNeg (mul A B) = (halfNeg a ^^ halfNeg b) from hsg] at r
      exact r

/-- **C57.**  Negation flips the sign and nothing else. -/
theorem C57_neg (a : BitVec 16) :
    halfNeg (negHalf a) = !halfNeg a ∧
    (match half a with
     | .nan => half (negHalf a) = .nan
     | .inf s => half (negHalf a) = .inf !s
     | .fin q => half (negHalf a) = .fin (-q)) := by
  have hmsb : (negHalf a).msb = !a.msb := by
    unfold negHalf; rw [BitVec.msb_xor, show (0x8000#16).msb = true by decide, Bool.xor_true]
  have hmag : mag 5 10 (negHalf a).toNat = mag 5 10 a.toNat := by
    rw [mag16, mag16]
    unfold negHalf
    rw [BitVec.toNat_xor, Nat.xor_mod_two_pow]
    simp
  refine ⟨hmsb, ?_⟩
  have h1 := decode_cases 5 10 a.toNat
  have h2 := decode_cases 5 10 (negHalf a).toNat
  rw [hmag, sign_msb16, hmsb] at h2
  rw [sign_msb16] at h1
  unfold half
  rcases h1 with ⟨d, hl⟩ | ⟨d, hl⟩ | ⟨d, hl⟩ <;> rcases h2 with ⟨e, hl2⟩ | ⟨e, hl2⟩ | ⟨e, hl2⟩ <;>
    first | (exfalso; omega) | (rw [d, e])
  dsimp only
  congr 1
  cases a.msb <;> simp

/-- The hypothesis of the theorems above is satisfiable: an IEEE 754 multiplication exists. -/
theorem C39_mul_exists : ∃ mul, IsMul mul := isMul_exists

/-- Concrete data -/
theorem ex_one : half 0x3c00#16 = .fin 1 := by
  show decode 5 10 0x3c00 = _
  rw [fin_value (by decide)]
  simp [sign, units, mag, ulp, bias]; norm_num
theorem ex_tiny : half 0x8001#16 = .fin (-1 / 2 ^ 24) := by
  show decode 5 10 0x8001 = _
  rw [fin_value (by decide)]
  simp [sign, units, mag, ulp, bias]; norm_num
theorem ex_max : single 0x477fe000#32 = .fin 65504 := by
  show decode 8 23 0x477fe000 = _
  rw [fin_value (by decide)]
  simp [sign, units, mag, ulp, bias]; norm_num
theorem ex_over : single 0x477ff000#32 = .fin 65520 := by
  show decode 8 23 0x477ff000 = _
  rw [fin_value (by decide)]
  simp [sign, units, mag, ulp, bias]; norm_num
example : half 0xfc00#16 = .inf true := rfl
example : half 0x7e00#16 = .nan := rfl

example (hm : IsMul mul) : single (toFloat mul 0x8001#16) = .fin (-1 / 2 ^ 24) := by
  rw [(C39_to_float hm _).1, ex_tiny]

/-- 65504 is the largest finite number -/
example (hm : IsMul mul) : toHalf mul 0x477fe000#32 = 0x7bff#16 := by
  obtain ⟨s, r⟩ := C39_to_half hm 0x477fe000#32
  rw [ex_max] at r
  refine C39_nearest_unique r ?_
  have := rounds_of_near (eb := 5) (mb := 10) (neg := false) (by omega) (by omega) (by positivity)
    (n := 0x7bff) (by norm_num) (by decide) (near_exact 10 0x7bff) (by decide)
  have e : sgn false * (units 10 0x7bff : ℚ) * ulp 5 10 = 65504 := by
    simp [sgn, units, ulp, bias]; norm_num
  rw [e] at this
  exact this

/-- 65520 overflows -/
example (hm : IsMul mul) : half (toHalf mul 0x477ff000#32) = .inf false := by
  obtain ⟨s, r⟩ := C39_to_half hm 0x477ff000#32
  rw [ex_over] at r
  have hl : limit 5 10 ≤ |(65520 : ℚ)| := by unfold limit bias; norm_num
  have := r.2.2
  rw [if_pos hl] at this
  exact this

example (hm : IsMul mul) : toHalf mul (toFloat mul 0x8001#16) = 0x8001#16 :=
  C39_roundtrip hm _ (by rw [ex_tiny]; simp)

example (hm : IsMul mul) : NearestHalf (1 * (-1 / 2 ^ 24)) true (mulHalf mul 0x3c00#16 0x8001#16) := by
  have := C57_mul hm 0x3c00#16 0x8001#16
  rw [ex_one, ex_tiny] at this
  exact this

end Verif.Half
