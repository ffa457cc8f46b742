import Verif.Ops.Fold
import Mathlib.Tactic.IntervalCases
/-!
# Folding of bit counting operations
-/
namespace Verif.Ops
open Verif.Var

theorem popcLoop_eq : ∀ (n v r : Nat), v < 2 ^ n →
    popcLoop n v r = r + (List.range n).countP (fun i => v.testBit i)
  | 0, v, r, h => by simp [popcLoop]
  | n + 1, v, r, h => by
    unfold popcLoop
    rw [List.range_succ_eq_map, List.countP_cons, List.countP_map]
    by_cases hv : v = 0
    · subst hv; simp
    rw [if_neg hv, popcLoop_eq n (v / 2) _ (by rw [pow_succ] at h; omega)]
    have e : (List.range n).countP (fun i => (v / 2).testBit i) =
        (List.range n).countP ((fun i => v.testBit i) ∘ Nat.succ) := by
      refine List.countP_congr (fun i _ => ?_)
      simp [Nat.testBit_add_one]
    rw [e, Nat.testBit_zero]
    rcases Nat.mod_two_eq_zero_or_one v with h | h <;> (simp [h]; try omega)

theorem clzLoop_eq : ∀ (n v r : Nat), v < 2 ^ n →
    clzLoop n v r = r - (if v = 0 then 0 else Nat.log2 v + 1)
  | 0, v, r, h => by
    have : v = 0 := by omega
    subst this; simp [clzLoop]
  | n + 1, v, r, h => by
    unfold clzLoop
    by_cases hv : v = 0
    · simp [hv]
    rw [if_neg hv, if_neg hv, clzLoop_eq n (v / 2) _ (by rw [pow_succ] at h; omega)]
    by_cases h1 : v / 2 = 0
    · have : v = 1 := by omega
      subst this; simp [show Nat.log2 1 = 0 from by decide]
    · rw [if_neg h1]
      have : Nat.log2 v = Nat.log2 (v / 2) + 1 := by
        rw [Nat.log2_def v, if_pos (by omega)]
      omega

theorem testBit_shift (w v q : Nat) :
    (v * 2 % 2 ^ w).testBit q = (decide (q < w) && (decide (1 ≤ q) && v.testBit (q - 1))) := by
  rw [Nat.testBit_mod_two_pow]
  congr 1
  have := Nat.testBit_shiftLeft (i := 1) v (j := q)
  rw [Nat.shiftLeft_eq] at this
  simpa using this

theorem ctzLoop_eq (w : Nat) : ∀ (n v r p : Nat), v < 2 ^ w → p < w → w - p ≤ n →
    v.testBit p = true → (∀ q < p, v.testBit q = false) → ctzLoop w n v r = r - (w - p)
  | 0, v, r, p, h, hp, hn, _, _ => by omega
  | n + 1, v, r, p, h, hp, hn, h1, h2 => by
    unfold ctzLoop
    have hv : v ≠ 0 := by rintro rfl; simp at h1
    rw [if_neg hv]
    by_cases hpw : p + 1 < w
    · rw [ctzLoop_eq w n _ (r - 1) (p + 1) (Nat.mod_lt _ (Nat.two_pow_pos w)) hpw (by omega)
        (by rw [testBit_shift]; simp [hpw, h1]) (by
          intro q hq
          rw [testBit_shift]
          by_cases hq0 : 1 ≤ q
          · rw [h2 (q - 1) (by omega)]; simp
          · simp [hq0])]
      omega
    · have hz : v * 2 % 2 ^ w = 0 := by
        apply Nat.eq_of_testBit_eq
        intro q
        rw [testBit_shift, Nat.zero_testBit]
        by_cases hq : q < w
        · by_cases hq0 : 1 ≤ q
          · rw [h2 (q - 1) (by omega)]; simp
          · simp [hq0]
        · simp [hq]
      rw [hz]
      have : ∀ m r, ctzLoop w m 0 r = r := by
        intro m r; cases m <;> simp [ctzLoop]
      rw [this]; omega

theorem brevLoop_eq (w : Nat) (hw : 0 < w) : ∀ (n v r : Nat), r < 2 ^ w →
    brevLoop w n v r < 2 ^ w ∧ ∀ i < w, (brevLoop w n v r).testBit i =
      if i < n then v.testBit (n - 1 - i) else r.testBit (i - n)
  | 0, v, r, h => by simp [brevLoop, h]
  | n + 1, v, r, h => by
    unfold brevLoop
    have he : 2 ^ w = 2 ^ (w - 1) * 2 := by rw [← pow_succ]; congr 1; omega
    have hlt : r * 2 % 2 ^ w + v % 2 < 2 ^ w := by
      rw [he, Nat.mul_mod_mul_right]
      have := Nat.mod_lt r (Nat.two_pow_pos (w - 1))
      omega
    obtain ⟨a, b⟩ := brevLoop_eq w hw n (v / 2) (r * 2 % 2 ^ w + v % 2) hlt
    refine ⟨a, fun i hi => ?_⟩
    rw [b i hi]
    by_cases h1 : i < n
    · rw [if_pos h1, if_pos (by omega)]
      rw [show n + 1 - 1 - i = (n - 1 - i) + 1 by omega, Nat.testBit_add_one]
    · rw [if_neg h1]
      have hr : r * 2 % 2 ^ w + v % 2 = 2 * (r % 2 ^ (w - 1)) + v % 2 := by
        rw [he, Nat.mul_mod_mul_right]; omega
      by_cases h2 : i = n
      · subst h2
        rw [if_pos (by omega), show i - i = 0 by omega, show i + 1 - 1 - i = 0 by omega,
          Nat.testBit_zero, Nat.testBit_zero, hr]
        congr 1
        rw [Nat.mul_add_mod, Nat.mod_mod]
      · rw [if_neg (by omega), show i - n = (i - (n + 1)) + 1 by omega, Nat.testBit_add_one, hr]
        have : (2 * (r % 2 ^ (w - 1)) + v % 2) / 2 = r % 2 ^ (w - 1) := by omega
        rw [this, Nat.testBit_mod_two_pow]
        simp [show i - (n + 1) < w - 1 by omega]

section
variable {t : VType} {x y z v : BitVec 64}

theorem norm_ofNat (ht : t.isInt = true) {n : Nat} (h : n ≤ t.bits) :
    norm t (BitVec.ofNat 64 n) = BitVec.ofNat 64 n := by
  unfold norm
  apply BitVec.eq_of_toNat_eq
  rw [BitVec.toNat_setWidth, BitVec.toNat_setWidth, BitVec.toNat_ofNat]
  have h1 := bits_le t
  have h2 := isInt_bits ht
  have h3 : t.bits < 2 ^ t.bits := Nat.lt_two_pow_self
  have h4 : n < 2 ^ 64 := by omega
  rw [Nat.mod_eq_of_lt h4, Nat.mod_eq_of_lt (by omega : n < 2 ^ t.bits), Nat.mod_eq_of_lt h4]

theorem fold_popc (ht : t.isInt = true) (h : evalPopc t x = .val v)
    (hs : sem1 .popc t t x = some z) : norm t v = z := by
  unfold evalPopc at h
  rw [if_pos ht] at h
  simp only [sem1, ht, and_self, if_true, Option.some.injEq] at hs
  cases h
  rw [popcLoop_eq _ _ _ (BitVec.isLt _), Nat.zero_add, norm_ofNat ht, ← hs]
  · rfl
  · have := List.countP_le_length (p := fun i => (x.setWidth t.bits).toNat.testBit i)
      (l := List.range t.bits)
    rw [List.length_range] at this
    exact this

theorem fold_clz (ht : t.isInt = true) (h : evalClz t x = .val v)
    (hs : sem1 .clz t t x = some z) : norm t v = z := by
  unfold evalClz at h
  rw [if_pos ht] at h
  simp only [sem1, ht, and_self, if_true, Option.some.injEq] at hs
  cases h
  rw [clzLoop_eq _ _ _ (BitVec.isLt _), norm_ofNat ht (by omega), ← hs]
  congr 1
  by_cases h0 : x.setWidth t.bits = 0
  · rw [if_pos h0, if_pos (by rw [h0]; rfl)]; omega
  · rw [if_neg h0, if_neg (by
      intro e; exact h0 (BitVec.eq_of_toNat_eq (by rw [e]; rfl)))]
    omega

theorem lowest_bit {w : Nat} {a : BitVec w} (h : a ≠ 0) :
    ∃ p, p < w ∧ a.getLsbD p = true ∧ (∀ q < p, a.getLsbD q = false) ∧
      (List.range w).find? (fun i => a.getLsbD i) = some p := by
  cases hf : (List.range w).find? (fun i => a.getLsbD i) with
  | none =>
    exfalso
    apply h
    apply BitVec.eq_of_getLsbD_eq
    intro i hi
    have := List.find?_eq_none.1 hf i (List.mem_range.2 hi)
    simpa using this
  | some p =>
    obtain ⟨h1, h2, h3⟩ := List.find?_range_eq_some.1 hf
    refine ⟨p, List.mem_range.1 h2, h1, ?_, rfl⟩
    intro q hq
    simpa using h3 q hq

theorem fold_ctz (ht : t.isInt = true) (h : evalCtz t x = .val v)
    (hs : sem1 .ctz t t x = some z) : norm t v = z := by
  unfold evalCtz at h
  rw [if_pos ht] at h
  simp only [sem1, ht, and_self, if_true, Option.some.injEq] at hs
  cases h
  by_cases h0 : x.setWidth t.bits = 0
  · rw [if_pos h0] at hs
    rw [h0]
    have : ∀ m r, ctzLoop t.bits m (0 : BitVec t.bits).toNat r = r := by
      intro m r; cases m <;> simp [ctzLoop]
    rw [this, norm_ofNat ht (le_refl _), hs]
  · rw [if_neg h0] at hs
    obtain ⟨p, h1, h2, h3, h4⟩ := lowest_bit h0
    rw [h4] at hs
    rw [ctzLoop_eq t.bits t.bits _ _ p (BitVec.isLt _) h1 (by omega) h2 h3,
      show t.bits - (t.bits - p) = p by omega, norm_ofNat ht (by omega)]
    exact hs

theorem fold_brev (ht : t.isInt = true) (h : evalBrev t x = .val v)
    (hs : sem1 .brev t t x = some z) : norm t v = z := by
  unfold evalBrev at h
  rw [if_pos ht] at h
  simp only [sem1, ht, and_self, if_true, Option.some.injEq] at hs
  cases h
  rw [← hs]
  have h8 := isInt_bits ht
  obtain ⟨h1, h2⟩ := brevLoop_eq t.bits (by omega) t.bits (x.setWidth t.bits).toNat 0
    (Nat.two_pow_pos _)
  unfold norm
  congr 1
  apply BitVec.eq_of_getLsbD_eq
  intro i hi
  rw [BitVec.getLsbD_setWidth, BitVec.getLsbD_ofNat, h2 i hi, if_pos hi, BitVec.getLsbD_reverse,
    BitVec.getMsbD]
  have := bits_le t
  simp only [hi, decide_true, Bool.true_and, show i < 64 by omega]
  rfl

theorem setWidth_and (x y : BitVec 64) :
    (x &&& y).setWidth t.bits = x.setWidth t.bits &&& y.setWidth t.bits := by
  apply BitVec.eq_of_getLsbD_eq
  intro i hi
  simp [hi]

theorem setWidth_or (x y : BitVec 64) :
    (x ||| y).setWidth t.bits = x.setWidth t.bits ||| y.setWidth t.bits := by
  apply BitVec.eq_of_getLsbD_eq
  intro i hi
  simp [hi]

theorem setWidth_xor (x y : BitVec 64) :
    (x ^^^ y).setWidth t.bits = x.setWidth t.bits ^^^ y.setWidth t.bits := by
  apply BitVec.eq_of_getLsbD_eq
  intro i hi
  simp [hi]

theorem foldBits_val {fb : Bool → Bool → Bool} {f : BitVec 64 → BitVec 64 → BitVec 64}
    (hx : norm t x = x) (hy : norm t y = y)
    (hf : ∀ a b, f (ofBool a) (ofBool b) = ofBool (fb a b))
    (h : foldBits t fb f x y = .val v) : v = f x y ∧ (t = .bool → norm .bool v = v) := by
  unfold foldBits at h
  by_cases hb : t = .bool
  · subst hb
    rw [if_pos rfl] at h
    obtain ⟨a, e1, e2⟩ := cBool_of hx
    obtain ⟨b, e3, e4⟩ := cBool_of hy
    unfold foldBool2 at h
    rw [e1, e3] at h
    cases h
    refine ⟨by rw [e2, e4, hf], fun _ => norm_ofBool _⟩
  · rw [if_neg hb] at h
    refine ⟨?_, fun e => absurd e hb⟩
    split at h
    · cases h; rfl
    · cases h

theorem fold_and (hx : norm t x = x) (hy : norm t y = y)
    (h : foldBits t (· && ·) (· &&& ·) x y = .val v) (hs : sem2 .and t t t x y = some z) :
    norm t v = z ∧ (t = .bool → norm .bool v = v) := by
  obtain ⟨e, hb⟩ := foldBits_val hx hy (by decide) h
  refine ⟨?_, hb⟩
  simp only [sem2, if_true] at hs
  split at hs
  · cases hs; rw [e]; unfold norm; rw [setWidth_and]
  · cases hs

theorem fold_or (hx : norm t x = x) (hy : norm t y = y)
    (h : foldBits t (· || ·) (· ||| ·) x y = .val v) (hs : sem2 .or t t t x y = some z) :
    norm t v = z ∧ (t = .bool → norm .bool v = v) := by
  obtain ⟨e, hb⟩ := foldBits_val hx hy (by decide) h
  refine ⟨?_, hb⟩
  simp only [sem2, if_true] at hs
  split at hs
  · cases hs; rw [e]; unfold norm; rw [setWidth_or]
  · cases hs

theorem fold_xor (hx : norm t x = x) (hy : norm t y = y)
    (h : foldBits t (· != ·) (· ^^^ ·) x y = .val v) (hs : sem2 .xor t t t x y = some z) :
    norm t v = z ∧ (t = .bool → norm .bool v = v) := by
  obtain ⟨e, hb⟩ := foldBits_val hx hy (by decide) h
  refine ⟨?_, hb⟩
  simp only [sem2] at hs
  split at hs
  · cases hs; rw [e]; unfold norm; rw [setWidth_xor]
  · cases hs

theorem cInt_bool (b : Bool) : cInt .bool (ofBool b) = if b then 1 else 0 := by cases b <;> rfl

theorem fold_cmp {fi : Int → Int → Bool} {ff ff' : BitVec 64 → BitVec 64 → Bool}
    (hx : norm t x = x) (hy : norm t y = y) (hff : t.isFloat = true → ff = ff')
    (h : foldCmp t fi ff x y = .val v) (hs : semCmp .bool t t fi ff' x y = some z) :
    norm .bool v = z ∧ norm .bool v = v := by
  unfold foldCmp at h
  unfold semCmp at hs
  simp only [and_self, if_true] at hs
  by_cases ht : t.isInt = true
  · rw [if_pos ht] at h
    rw [if_pos (.inl ht)] at hs
    cases h; cases hs
    exact ⟨norm_ofBool _, norm_ofBool _⟩
  rw [if_neg ht] at h
  by_cases hf : t.isFloat = true
  · have hnb : t ≠ .bool := by rintro rfl; cases hf
    rw [if_pos hf] at h
    rw [if_neg (by simp [ht, hnb]), if_pos hf, ← hff hf] at hs
    cases h; cases hs
    exact ⟨norm_ofBool _, norm_ofBool _⟩
  rw [if_neg hf] at h
  by_cases hb : t = .bool
  · subst hb
    rw [if_pos rfl] at h
    rw [if_pos (.inr rfl)] at hs
    obtain ⟨a, e1, e2⟩ := cBool_of hx
    obtain ⟨b, e3, e4⟩ := cBool_of hy
    rw [e1, e3] at h
    cases h; cases hs
    rw [e2, e4, cInt_bool, cInt_bool]
    exact ⟨norm_ofBool _, norm_ofBool _⟩
  · rw [if_neg hb] at h; cases h

theorem fold_min (ht : t.isInt = true) (h : evalMin t x y = .val v)
    (hs : sem2 .min t t t x y = some z) : norm t v = z := by
  unfold evalMin at h
  rw [if_pos ht] at h
  simp only [sem2, ht, and_self, if_true, Option.map_some, Option.some.injEq] at hs
  cases h
  rw [← hs]
  by_cases h1 : cInt t x < cInt t y
  · rw [if_pos h1, if_pos (by omega)]; rfl
  · rw [if_neg h1]
    by_cases h2 : cInt t x ≤ cInt t y
    · rw [if_pos h2]
      have : cInt t x = cInt t y := by omega
      unfold norm; rw [(cInt_inj t).1 this]
    · rw [if_neg h2]; rfl

theorem fold_max (ht : t.isInt = true) (h : evalMax t x y = .val v)
    (hs : sem2 .max t t t x y = some z) : norm t v = z := by
  unfold evalMax at h
  rw [if_pos ht] at h
  simp only [sem2, ht, and_self, if_true, Option.map_some, Option.some.injEq] at hs
  cases h
  rw [← hs]
  by_cases h1 : cInt t x > cInt t y
  · rw [if_pos h1, if_pos (by omega)]; rfl
  · rw [if_neg h1]
    by_cases h2 : cInt t x ≥ cInt t y
    · rw [if_pos h2]
      have : cInt t x = cInt t y := by omega
      unfold norm; rw [(cInt_inj t).1 this]
    · rw [if_neg h2]; rfl

theorem fold_fma (ht : t.isInt = true) {w : BitVec 64} (h : evalFma t x y w = .val v)
    (hs : sem3 .fma t t t t x y w = some z) : norm t v = z := by
  unfold evalFma at h
  rw [if_pos ht] at h
  have e : v = BitVec.ofInt 64 (cInt t x * cInt t y + cInt t w) := by
    cases hm : cArith t (cInt t x * cInt t y) with
    | val a =>
      rw [hm] at h
      dsimp only at h
      split at h
      · exact cArith_val h
      · cases h; rfl
    | ub => rw [hm] at h; cases h
    | fail => rw [hm] at h; cases h
    | unmodelled => rw [hm] at h; cases h
  simp only [sem3, ht, and_self, if_true, Option.some.injEq] at hs
  rw [e, norm_ofInt, BitVec.ofInt_add, BitVec.ofInt_mul, ofInt_cInt, ofInt_cInt, ofInt_cInt]
  exact hs

/-- Conversions. -/
theorem fold_cast {t' : VType} (hx : norm t x = x) (ht : t.isInt = true ∨ t = .bool)
    (ht' : t'.isInt = true ∨ t' = .bool) (h : evalCast t t' x = .val v)
    (hs : sem1 .cast t' t x = some z) : norm t' v = z ∧ (t' = .bool → norm .bool v = v) := by
  have hnf : (t.isFloat || t'.isFloat) = false := by
    revert ht ht'; cases t <;> cases t' <;> decide
  unfold evalCast at h
  rw [if_neg (by simp [hnf])] at h
  by_cases hi : t.isInt = true
  · have hnb : t ≠ .bool := by rintro rfl; cases hi
    rw [if_pos hi] at h
    by_cases hb : t' = .bool
    · subst hb
      rw [if_pos rfl] at h
      simp only [sem1, hi, and_self, if_true, Option.some.injEq] at hs
      cases h
      refine ⟨?_, fun _ => norm_ofBool _⟩
      rw [norm_ofBool, ← hs]
      congr 1
      by_cases h0 : cInt t x = 0
      · have h0' := (cInt_eq_zero t).1 h0
        rw [h0, h0']; simp
      · have h0' : ¬ x.setWidth t.bits = 0 := fun e => h0 ((cInt_eq_zero t).2 e)
        rw [bne_iff_ne.2 h0, bne_iff_ne.2 h0']
    · have hi' := ht'.resolve_right hb
      rw [if_neg hb, if_pos hi'] at h
      simp only [sem1, hi, hi', hb, hnb, false_and, and_self, if_false, if_true,
        Option.some.injEq] at hs
      cases h
      refine ⟨?_, fun e => absurd e hb⟩
      rw [norm_setWidth, ← hs]
      congr 1
      rcases isInt_iff hi with ⟨h1, _⟩ | ⟨h1, _⟩
      · rw [if_pos h1, cInt_signed h1]; rfl
      · rw [if_neg (by simp [h1]), cInt_unsigned h1, BitVec.ofInt_natCast, BitVec.ofNat_toNat]
  · have hb := ht.resolve_left hi
    subst hb
    rw [if_neg hi, if_pos rfl] at h
    obtain ⟨b, e1, e2⟩ := cBool_of hx
    rw [e1] at h
    dsimp only at h
    split at h
    · rename_i hi'
      have hb' : t' ≠ .bool := by rintro rfl; cases hi'
      cases h
      refine ⟨?_, fun e => absurd e hb'⟩
      have h8 := isInt_bits hi'
      rw [norm_ofBool' (by omega)]
      simp only [sem1, hi', hb', false_and, and_self, if_false, if_true, Option.some.injEq] at hs
      rw [← hs, e2]
      cases b <;> rfl
    · cases h

theorem sem1_norm {k : Kind} {t0 : VType} (h : sem1 k t t0 x = some z) : norm t z = z := by
  cases k <;> simp only [sem1] at h <;> (try cases h)
  case neg =>
    split at h <;> cases h
    rename_i hh; obtain ⟨rfl, _⟩ := hh; exact norm_setWidth _ _
  case not =>
    split at h <;> cases h
    rename_i hh; obtain ⟨rfl, _⟩ := hh; exact norm_setWidth _ _
  case abs =>
    split at h <;> cases h
    rename_i hh; obtain ⟨rfl, _⟩ := hh; exact norm_setWidth _ _
  case popc =>
    split at h <;> cases h
    rename_i hh; obtain ⟨rfl, hi⟩ := hh
    refine norm_ofNat hi ?_
    have := List.countP_le_length (p := fun i => (x.setWidth t.bits).getLsbD i)
      (l := List.range t.bits)
    rw [List.length_range] at this
    exact this
  case clz =>
    split at h <;> cases h
    rename_i hh; obtain ⟨rfl, hi⟩ := hh
    refine norm_ofNat hi ?_
    split <;> omega
  case ctz =>
    split at h <;> cases h
    rename_i hh; obtain ⟨rfl, hi⟩ := hh
    refine norm_ofNat hi ?_
    split
    · omega
    · rename_i h0
      obtain ⟨p, h1, _, _, h4⟩ := lowest_bit h0
      rw [h4]; exact h1.le
  case brev =>
    split at h <;> cases h
    rename_i hh; obtain ⟨rfl, _⟩ := hh; exact norm_setWidth _ _
  case cast =>
    split at h
    · rename_i hh; cases h; obtain ⟨rfl, _⟩ := hh; exact norm_ofBool _
    split at h
    · rename_i hh; cases h
      have := isInt_bits hh.2
      exact norm_ofBool' (by omega) _
    split at h <;> cases h
    exact norm_setWidth _ _
  case bitcast =>
    split at h <;> cases h
    rename_i hh
    unfold norm
    rw [hh, setWidth_setWidth (bits_le _)]

theorem semCmp_norm {t0 t1 : VType} {fi : Int → Int → Bool} {ff : BitVec 64 → BitVec 64 → Bool}
    (h : semCmp t t0 t1 fi ff x y = some z) : norm t z = z := by
  unfold semCmp at h
  split at h
  · rename_i hh
    obtain ⟨rfl, _⟩ := hh
    split at h
    · cases h; exact norm_ofBool _
    split at h <;> cases h
    exact norm_ofBool _
  · cases h

theorem norm_zero (t : VType) : norm t 0#64 = 0#64 := by
  have := norm_setWidth t 0
  simpa using this

theorem sem2_norm {k : Kind} {t0 t1 : VType} (h : sem2 k t t0 t1 x y = some z) : norm t z = z := by
  have int : ∀ {r : Option (BitVec t0.bits)},
      (if t = t0 ∧ t0 = t1 ∧ t0.isInt = true then r.map (·.setWidth 64) else none) = some z →
      norm t z = z := by
    intro r hr
    split at hr
    · rename_i hh
      obtain ⟨rfl, _⟩ := hh
      cases r with
      | none => cases hr
      | some r => cases hr; exact norm_setWidth _ _
    · cases hr
  have bitwise : ∀ {r : BitVec t0.bits},
      (if t = t0 ∧ t0 = t1 ∧ (t0.isInt = true ∨ t0.isFloat = true ∨ t0 = .bool) then
        some (r.setWidth 64) else none) = some z → norm t z = z := by
    intro r hr
    split at hr
    · rename_i hh
      obtain ⟨rfl, _⟩ := hh
      cases hr; exact norm_setWidth _ _
    · cases hr
  cases k <;> simp only [sem2] at h <;> (try cases h) <;>
    first
    | exact int h
    | exact bitwise h
    | exact semCmp_norm h
    | skip
  case mulWide =>
    split at h <;> cases h
    exact norm_setWidth _ _
  case and =>
    split at h
    · exact bitwise h
    split at h <;> cases h
    rename_i hh
    obtain ⟨rfl, _⟩ := hh
    split
    · exact norm_setWidth _ _
    · exact norm_zero _
  case or =>
    split at h
    · exact bitwise h
    split at h <;> cases h
    rename_i hh
    obtain ⟨rfl, _⟩ := hh
    exact norm_setWidth _ _

theorem sem3_norm {k : Kind} {t0 t1 t2 : VType} {w : BitVec 64}
    (h : sem3 k t t0 t1 t2 x y w = some z) : norm t z = z := by
  cases k <;> simp only [sem3] at h <;> (try cases h)
  case fma =>
    split at h <;> cases h
    rename_i hh; obtain ⟨rfl, _⟩ := hh; exact norm_setWidth _ _
  case select =>
    split at h <;> cases h
    rename_i hh; obtain ⟨_, rfl, _⟩ := hh
    split <;> exact norm_norm _ _

end
end Verif.Ops
