import Verif.Tex.Spec
import Mathlib.Tactic.Ring

namespace Verif.Tex
open Spec

/-! ### Writes -/

theorem apply_append (a b : Writes) (m : Nat → Byte) : apply (a ++ b) m = apply b (apply a m) := List.foldl_append

theorem apply_fold (f : Nat → Writes) (n : Nat) (m : Nat → Byte) :
    (List.range n).foldl (fun m i => apply (f i) m) m = apply ((List.range n).flatMap f) m := by
  induction n with
  | zero => rfl
  | succ n ih => rw [List.range_succ, List.foldl_append, ih, List.flatMap_append, apply_append]; simp

theorem apply_spec (ws : Writes) : ∀ (m : Nat → Byte) (a : Nat), (apply ws m a = m a ∧ ∀ b, (a, b) ∉ ws) ∨ (a, apply ws m a) ∈ ws := by
  induction ws with
  | nil => intro m a; left; exact ⟨rfl, by simp⟩
  | cons w ws ih =>
    intro m a
    have e : apply (w :: ws) m = apply ws (Function.update m w.1 w.2) := rfl
    rw [e]
    rcases ih (Function.update m w.1 w.2) a with ⟨h1, h2⟩ | h
    · by_cases h : a = w.1
      · right
        rw [h1, h, Function.update_self]
        simp
      · left
        rw [h1, Function.update_of_ne h]
        refine ⟨rfl, fun b hb => ?_⟩
        rcases List.mem_cons.1 hb with h3 | h3
        · exact h (by rw [← h3])
        · exact h2 b h3
    · right; exact List.mem_cons_of_mem _ h

theorem apply_eq {ws : Writes} {a : Nat} {b : Byte} (h : (a, b) ∈ ws) (hu : ∀ b', (a, b') ∈ ws → b' = b) (m : Nat → Byte) : apply ws m a = b := by
  rcases apply_spec ws m a with ⟨_, h2⟩ | h2
  · exact absurd h (h2 b)
  · exact hu _ h2

theorem apply_ne {ws : Writes} {a : Nat} (h : ∀ b, (a, b) ∉ ws) (m : Nat → Byte) : apply ws m a = m a := by
  rcases apply_spec ws m a with ⟨h1, _⟩ | h2
  · exact h1
  · exact absurd h2 (h _)

theorem mem_copy2D {src : Nat → Byte} {sx sp dx dp w h a : Nat} {b : Byte} :
    (a, b) ∈ copy2D src sx sp dx dp w h ↔ ∃ y < h, ∃ x < w, a = dx + y * dp + x ∧ b = src (sx + y * sp + x) := by
  unfold copy2D
  simp only [List.mem_flatMap, List.mem_map, List.mem_range, Prod.mk.injEq]
  constructor
  · rintro ⟨y, hy, x, hx, h1, h2⟩; exact ⟨y, hy, x, hx, h1.symm, h2.symm⟩
  · rintro ⟨y, hy, x, hx, h1, h2⟩; exact ⟨y, hy, x, hx, h1.symm, h2.symm⟩

theorem mem_fromArray {arr : Array3} {off pitch rows w h d a : Nat} {b : Byte} :
    (a, b) ∈ fromArray arr off pitch rows w h d ↔ ∃ z < d, ∃ y < h, ∃ x < w, a = off + (z * rows + y) * pitch + x ∧ b = arr z y x := by
  unfold fromArray
  simp only [List.mem_flatMap, List.mem_map, List.mem_range, Prod.mk.injEq]
  constructor
  · rintro ⟨z, hz, y, hy, x, hx, h1, h2⟩; exact ⟨z, hz, y, hy, x, hx, h1.symm, h2.symm⟩
  · rintro ⟨z, hz, y, hy, x, hx, h1, h2⟩; exact ⟨z, hz, y, hy, x, hx, h1.symm, h2.symm⟩

/-! ### Arithmetic -/

theorem split {n a b a' b' : Nat} (h1 : b < n) (h2 : b' < n) (h3 : a * n + b = a' * n + b') : a = a' ∧ b = b' := by
  have e1 : (a * n + b) / n = a := by rw [Nat.add_comm, Nat.add_mul_div_right _ _ (by omega), Nat.div_eq_of_lt h1, Nat.zero_add]
  have e2 : (a' * n + b') / n = a' := by rw [Nat.add_comm, Nat.add_mul_div_right _ _ (by omega), Nat.div_eq_of_lt h2, Nat.zero_add]
  have e3 : a = a' := by rw [← e1, ← e2, h3]
  subst e3
  exact ⟨rfl, by omega⟩

theorem comb_lt {a m b n : Nat} (ha : a < m) (hb : b < n) : a * n + b < m * n :=
  calc a * n + b < a * n + n := by omega
    _ = (a + 1) * n := by ring
    _ ≤ m * n := Nat.mul_le_mul_right _ ha

/-! ### Channels -/

theorem channels_bounds {t : Texture} (hc : 0 < t.nChannels) {i : Nat} (hi : i < t.nTextures) :
    0 < t.channels i ∧ t.channels i ≤ 4 ∧ 4 * i + t.channels i ≤ t.nChannels ∧ (i + 1 < t.nTextures → t.channels i = 4) ∧
      (i + 1 = t.nTextures → 4 * i + t.channels i = t.nChannels) := by
  unfold Texture.nTextures at *
  unfold Texture.channels Texture.nTextures
  by_cases h1 : i = 1 + (t.nChannels - 1) / 4 - 1
  · rw [if_pos h1]
    by_cases h2 : t.nChannels % 4 = 0
    · rw [if_pos h2]; omega
    · rw [if_neg h2]; omega
  · rw [if_neg h1]; omega

theorem storage_bounds {t : Texture} (hc : 0 < t.nChannels) {i : Nat} (hi : i < t.nTextures) :
    0 < t.channelsStorage i ∧ t.channels i ≤ t.channelsStorage i ∧ t.channelsStorage i ≤ 4 := by
  have := channels_bounds hc hi
  unfold Texture.channelsStorage
  by_cases h : t.channels i = 3
  · rw [if_pos h]; omega
  · rw [if_neg h]; omega

theorem channel_split {t : Texture} (hc : 0 < t.nChannels) {ch : Nat} (h : ch < t.nChannels) : ch / 4 < t.nTextures ∧ ch % 4 < t.channels (ch / 4) := by
  have h1 : ch / 4 < t.nTextures := by unfold Texture.nTextures; omega
  refine ⟨h1, ?_⟩
  have h2 := channels_bounds hc h1
  by_cases h3 : ch / 4 + 1 < t.nTextures
  · rw [h2.2.2.2.1 h3]; omega
  · have := h2.2.2.2.2 (by omega)
    omega

/-! ### Sizes -/

theorem levelShape_eq {t : Texture} (hv : Valid t) (level : Nat) {d : Nat} (hd : d < t.ndim) : t.levelShape level d = size t level d := by
  unfold Texture.levelShape size
  have := hv.shape d hd
  rw [if_pos (by omega), if_pos hd, Nat.shiftRight_eq_div_pow]
  by_cases h : t.shape d / 2 ^ level > 0
  · rw [if_pos h]; omega
  · rw [if_neg h]; omega

theorem size_pos (t : Texture) (level d : Nat) : 0 < size t level d := by
  unfold size
  split <;> omega

theorem extent_eq {t : Texture} (hv : Valid t) (level : Nat) : ∃ rows, t.extent level = (rows, size t level 1, size t level 2) ∧
    ∀ z < size t level 2, ∀ y, z * rows + y = z * size t level 1 + y := by
  unfold Texture.extent
  have hn := hv.ndim
  by_cases h3 : t.ndim = 3
  · rw [if_pos h3]
    refine ⟨size t level 1, ?_, fun _ _ _ => rfl⟩
    rw [levelShape_eq hv level (by omega), levelShape_eq hv level (by omega)]
  · rw [if_neg h3]
    refine ⟨0, ?_, ?_⟩
    · have e2 : size t level 2 = 1 := by unfold size; rw [if_neg (by omega)]
      rw [e2]
      by_cases h2 : t.ndim = 2
      · rw [if_pos h2, levelShape_eq hv level (by omega)]
      · rw [if_neg h2]
        have e1 : size t level 1 = 1 := by unfold size; rw [if_neg (by omega)]
        rw [e1]
    · intro z hz y
      have e2 : size t level 2 = 1 := by unfold size; rw [if_neg (by omega)]
      rw [e2] at hz
      have : z = 0 := by omega
      subst this
      simp

theorem nTexels_eq {t : Texture} (hv : Valid t) (level : Nat) : t.nTexels level = size t level 2 * size t level 1 * size t level 0 := by
  have hn := hv.ndim
  have h0 := levelShape_eq hv level (d := 0) (by omega)
  unfold Texture.nTexels
  have : t.ndim = 1 ∨ t.ndim = 2 ∨ t.ndim = 3 := by omega
  rcases this with h | h | h
  · have e1 : size t level 1 = 1 := by unfold size; rw [if_neg (by omega)]
    have e2 : size t level 2 = 1 := by unfold size; rw [if_neg (by omega)]
    rw [h, h0, e1, e2]; simp
  · have e2 : size t level 2 = 1 := by unfold size; rw [if_neg (by omega)]
    have h1 := levelShape_eq hv level (d := 1) (by omega)
    rw [h, h0, e2]; simp [List.range_succ, h1]; ring
  · have h1 := levelShape_eq hv level (d := 1) (by omega)
    have h2 := levelShape_eq hv level (d := 2) (by omega)
    rw [h, h0]; simp [List.range_succ, h1, h2]; ring

/-- Number of a texel -/
theorem texel_lt {W H D x y z : Nat} (hx : x < W) (hy : y < H) (hz : z < D) : (z * H + y) * W + x < D * H * W := comb_lt (comb_lt hz hy) hx

/-! ### Staging area -/

/-- Address of byte `b` of texel `T` of texture `i` in the staging area -/
def staged (t : Texture) (n i T b : Nat) : Nat := i * (n * 4 * t.typeSize) + (T * (t.channelsStorage i * t.typeSize) + b)

theorem staged_lt {t : Texture} (hc : 0 < t.nChannels) {n i T b : Nat} (hi : i < t.nTextures) (hT : T < n) (hb : b < t.channelsStorage i * t.typeSize) :
    T * (t.channelsStorage i * t.typeSize) + b < n * 4 * t.typeSize :=
  calc T * (t.channelsStorage i * t.typeSize) + b < n * (t.channelsStorage i * t.typeSize) := comb_lt hT hb
    _ ≤ n * (4 * t.typeSize) := Nat.mul_le_mul_left _ (Nat.mul_le_mul_right _ (storage_bounds hc hi).2.2)
    _ = n * 4 * t.typeSize := by ring

theorem staged_inj {t : Texture} (hc : 0 < t.nChannels) {n i T b i' T' b' : Nat} (hi : i < t.nTextures) (hT : T < n) (hb : b < t.channelsStorage i * t.typeSize)
    (hi' : i' < t.nTextures) (hT' : T' < n) (hb' : b' < t.channelsStorage i' * t.typeSize) (h : staged t n i T b = staged t n i' T' b') :
    i = i' ∧ T = T' ∧ b = b' := by
  unfold staged at h
  obtain ⟨h1, h2⟩ := split (staged_lt hc hi hT hb) (staged_lt hc hi' hT' hb') h
  subst h1
  obtain ⟨h3, h4⟩ := split hb hb' h2
  exact ⟨rfl, h3, h4⟩

/-- Address of byte `b` (of channels from `4 * i`) of texel `T` in the packed buffer -/
def linear (t : Texture) (i T b : Nat) : Nat := T * (t.nChannels * t.typeSize) + (i * (4 * t.typeSize) + b)

theorem linear_lt {t : Texture} (hc : 0 < t.nChannels) {i b : Nat} (hi : i < t.nTextures) (hb : b < t.channels i * t.typeSize) :
    i * (4 * t.typeSize) + b < t.nChannels * t.typeSize :=
  calc i * (4 * t.typeSize) + b < i * (4 * t.typeSize) + t.channels i * t.typeSize := by omega
    _ = (4 * i + t.channels i) * t.typeSize := by ring
    _ ≤ t.nChannels * t.typeSize := Nat.mul_le_mul_right _ (channels_bounds hc hi).2.2.1

theorem linear_inj {t : Texture} (hc : 0 < t.nChannels) {i T b i' T' b' : Nat} (hi : i < t.nTextures) (hb : b < t.channels i * t.typeSize)
    (hi' : i' < t.nTextures) (hb' : b' < t.channels i' * t.typeSize) (h : linear t i T b = linear t i' T' b') : i = i' ∧ T = T' ∧ b = b' := by
  unfold linear at h
  obtain ⟨h1, h2⟩ := split (linear_lt hc hi hb) (linear_lt hc hi' hb') h
  have l1 : b < 4 * t.typeSize := lt_of_lt_of_le hb (Nat.mul_le_mul_right _ (channels_bounds hc hi).2.1)
  have l2 : b' < 4 * t.typeSize := lt_of_lt_of_le hb' (Nat.mul_le_mul_right _ (channels_bounds hc hi').2.1)
  obtain ⟨h3, h4⟩ := split l1 l2 h2
  exact ⟨h3, h1, h4⟩

theorem mem_stage_true {t : Texture} {n : Nat} {src : Nat → Byte} {a : Nat} {b : Byte} :
    (a, b) ∈ (List.range t.nTextures).flatMap (t.stage true n src) ↔
      ∃ i < t.nTextures, ∃ T < n, ∃ x < t.channels i * t.typeSize, a = staged t n i T x ∧ b = src (linear t i T x) := by
  simp only [List.mem_flatMap, List.mem_range, Texture.stage, if_true, mem_copy2D]
  have e1 : ∀ i T x, n * (i * 4 * t.typeSize) + T * (t.channelsStorage i * t.typeSize) + x = staged t n i T x := by
    intro i T x; unfold staged; ring
  have e2 : ∀ i T x, i * 4 * t.typeSize + T * (t.nChannels * t.typeSize) + x = linear t i T x := by
    intro i T x; unfold linear; ring
  simp only [e1, e2]

theorem mem_stage_false {t : Texture} {n : Nat} {src : Nat → Byte} {a : Nat} {b : Byte} :
    (a, b) ∈ (List.range t.nTextures).flatMap (t.stage false n src) ↔
      ∃ i < t.nTextures, ∃ T < n, ∃ x < t.channels i * t.typeSize, a = linear t i T x ∧ b = src (staged t n i T x) := by
  simp only [List.mem_flatMap, List.mem_range, Texture.stage, Bool.false_eq_true, if_false, mem_copy2D]
  have e1 : ∀ i T x, n * (i * 4 * t.typeSize) + T * (t.channelsStorage i * t.typeSize) + x = staged t n i T x := by
    intro i T x; unfold staged; ring
  have e2 : ∀ i T x, i * 4 * t.typeSize + T * (t.nChannels * t.typeSize) + x = linear t i T x := by
    intro i T x; unfold linear; ring
  simp only [e1, e2]

theorem width_le {t : Texture} (hc : 0 < t.nChannels) {i x : Nat} (hi : i < t.nTextures) (hx : x < t.channels i * t.typeSize) : x < t.channelsStorage i * t.typeSize :=
  lt_of_lt_of_le hx (Nat.mul_le_mul_right _ (storage_bounds hc hi).2.1)

/-- Without a staging area, there is one texture whose texels have the packed layout. -/
theorem no_staging {t : Texture} (hc : 0 < t.nChannels) (h : t.needsStaging = false) : t.nTextures = 1 ∧ t.channelsStorage 0 = t.nChannels ∧ t.channels 0 = t.nChannels := by
  unfold Texture.needsStaging at h
  simp only [Bool.or_eq_false_iff, decide_eq_false_iff_not] at h
  have h1 : t.nTextures = 1 := by have : 1 ≤ t.nTextures := by unfold Texture.nTextures; omega
                                  omega
  have h2 := channels_bounds hc (i := 0) (by omega)
  have h3 := h2.2.2.2.2 (by omega)
  have h4 : t.channels 0 = t.nChannels := by omega
  refine ⟨h1, ?_, h4⟩
  unfold Texture.channelsStorage
  rw [h4, if_neg h.2]

end Verif.Tex
