import Verif.Tex.Lemmas

/-! # C91: hardware textures -/
namespace Verif.Tex
open Spec

theorem bufOff_eq {t : Texture} (hc : 0 < t.nChannels) (n : Nat) {i : Nat} (hi : i < t.nTextures) : t.bufOff n i = i * (n * 4 * t.typeSize) := by
  unfold Texture.bufOff
  cases h : t.needsStaging with
  | true => simp only [if_true]; ring
  | false =>
    have := (no_staging hc h).1
    have : i = 0 := by omega
    subst this; simp

/-- Addresses of texels in the buffer from which (to which) arrays are copied -/
theorem buf_addr {t : Texture} (hv : Valid t) {level n i rows x y z b : Nat} (hi : i < t.nTextures) (hr : z * rows + y = z * size t level 1 + y) :
    t.bufOff n i + (z * rows + y) * t.pitch level i + (x * (t.channelsStorage i * t.typeSize) + b) =
      staged t n i ((z * size t level 1 + y) * size t level 0 + x) b := by
  unfold Texture.pitch staged
  rw [bufOff_eq hv.channels n hi, hr, levelShape_eq hv level (by have := hv.ndim; omega)]
  ring

theorem pitch_eq {t : Texture} (hv : Valid t) (level i : Nat) : t.pitch level i = size t level 0 * (t.channelsStorage i * t.typeSize) := by
  unfold Texture.pitch
  rw [levelShape_eq hv level (by have := hv.ndim; omega)]
  ring

theorem linear_eq {t : Texture} {level x y z ch k : Nat} :
    linear t (ch / 4) ((z * size t level 1 + y) * size t level 0 + x) (ch % 4 * t.typeSize + k) = packed t level x y z ch k := by
  unfold linear packed
  have : (ch / 4 * 4 + ch % 4) * t.typeSize = ch * t.typeSize := by rw [Nat.div_add_mod']
  calc _ = ((z * size t level 1 + y) * size t level 0 + x) * (t.nChannels * t.typeSize) + (ch / 4 * 4 + ch % 4) * t.typeSize + k := by ring
    _ = _ := by rw [this]; ring

theorem staged_eq_linear {t : Texture} (hc : 0 < t.nChannels) (h : t.needsStaging = false) (n T b : Nat) : staged t n 0 T b = linear t 0 T b := by
  have := no_staging hc h
  unfold staged linear
  rw [this.2.1]
  ring

/-- **C91**: an upload stores every channel of every texel of the packed buffer where lookups find it, and does not touch other MIP levels, whatever the
number of channels, the format and the dimensions, and whatever the staging area contains. -/
theorem C91_upload {t : Texture} (hv : Valid t) {level : Nat} (hl : level < t.nLevels) (buf staging : Nat → Byte) (a : Arrays) :
    ∃ a', t.upload level buf staging a = some a' ∧
      (∀ x < size t level 0, ∀ y < size t level 1, ∀ z < size t level 2, ∀ ch < t.nChannels, ∀ k < t.typeSize,
        stored t a' level x y z ch k = buf (packed t level x y z ch k)) ∧
      ∀ l ≠ level, ∀ i, a' i l = a i l := by
  obtain ⟨rows, he, hr⟩ := extent_eq hv level
  unfold Texture.upload
  rw [if_neg (by omega), he]
  dsimp only
  refine ⟨_, rfl, fun x hx y hy z hz ch hch k hk => ?_, fun l hne i => by rw [if_neg (fun h => hne h.2)]⟩
  obtain ⟨hi, hcm⟩ := channel_split hv.channels hch
  have hs := storage_bounds hv.channels hi
  have hb : ch % 4 * t.typeSize + k < t.channels (ch / 4) * t.typeSize := comb_lt hcm hk
  have hb' := width_le hv.channels hi hb
  have ex : (x * t.channelsStorage (ch / 4) + ch % 4) * t.typeSize + k = x * (t.channelsStorage (ch / 4) * t.typeSize) + (ch % 4 * t.typeSize + k) := by ring
  unfold stored
  dsimp only
  rw [if_pos (show ch / 4 < t.nTextures ∧ level = level from ⟨hi, rfl⟩), ex]
  unfold toArray
  rw [if_pos ⟨hz, hy, by rw [pitch_eq hv]; exact comb_lt hx hb'⟩, buf_addr hv hi (hr z hz y)]
  have hT : (z * size t level 1 + y) * size t level 0 + x < t.nTexels level := by rw [nTexels_eq hv]; exact texel_lt hx hy hz
  cases hn : t.needsStaging with
  | false =>
    simp only [Bool.false_eq_true, if_false]
    have h0 : ch / 4 = 0 := by have := (no_staging hv.channels hn).1; omega
    rw [← linear_eq, h0, staged_eq_linear hv.channels hn]
  | true =>
    simp only [if_true]
    rw [apply_fold]
    apply apply_eq
    · exact mem_stage_true.2 ⟨_, hi, _, hT, _, hb, rfl, by rw [linear_eq]⟩
    · intro b' hb2
      obtain ⟨i', hi', T', hT', x', hx', h1, h2⟩ := mem_stage_true.1 hb2
      obtain ⟨e1, e2, e3⟩ := staged_inj hv.channels hi hT hb' hi' hT' (width_le hv.channels hi' hx') h1
      rw [h2, ← e1, ← e2, ← e3, linear_eq]

/-- What reading all arrays yields -/
theorem read_spec {t : Texture} (hv : Valid t) (level : Nat) (a : Arrays) {rows : Nat}
    (hr : ∀ z < size t level 2, ∀ y, z * rows + y = z * size t level 1 + y) (m : Nat → Byte) :
    let ws := (List.range t.nTextures).flatMap fun i =>
      fromArray (a i level) (t.bufOff (t.nTexels level) i) (t.pitch level i) rows (t.pitch level i) (size t level 1) (size t level 2)
    (∀ i < t.nTextures, ∀ x < size t level 0, ∀ y < size t level 1, ∀ z < size t level 2, ∀ b < t.channelsStorage i * t.typeSize,
      apply ws m (staged t (t.nTexels level) i ((z * size t level 1 + y) * size t level 0 + x) b) =
        a i level z y (x * (t.channelsStorage i * t.typeSize) + b)) ∧
    ∀ p b, (p, b) ∈ ws → ∃ i < t.nTextures, ∃ T < t.nTexels level, ∃ q < t.channelsStorage i * t.typeSize, p = staged t (t.nTexels level) i T q := by
  intro ws
  have hmem : ∀ p b, (p, b) ∈ ws ↔ ∃ i < t.nTextures, ∃ z < size t level 2, ∃ y < size t level 1, ∃ x < size t level 0, ∃ q < t.channelsStorage i * t.typeSize,
      p = staged t (t.nTexels level) i ((z * size t level 1 + y) * size t level 0 + x) q ∧ b = a i level z y (x * (t.channelsStorage i * t.typeSize) + q) := by
    intro p b
    simp only [ws, List.mem_flatMap, List.mem_range, mem_fromArray]
    constructor
    · rintro ⟨i, hi, z, hz, y, hy, xb, hxb, h1, h2⟩
      have hst : 0 < t.channelsStorage i * t.typeSize := Nat.mul_pos (storage_bounds hv.channels hi).1 hv.typeSize
      have hd : xb = xb / (t.channelsStorage i * t.typeSize) * (t.channelsStorage i * t.typeSize) + xb % (t.channelsStorage i * t.typeSize) := (Nat.div_add_mod' _ _).symm
      rw [pitch_eq hv] at hxb
      refine ⟨i, hi, z, hz, y, hy, xb / (t.channelsStorage i * t.typeSize), (Nat.div_lt_iff_lt_mul hst).2 hxb, _, Nat.mod_lt _ hst, ?_, by rw [← hd]; exact h2⟩
      rw [← buf_addr hv hi (hr z hz y), ← hd]
      exact h1
    · rintro ⟨i, hi, z, hz, y, hy, x, hx, q, hq, h1, h2⟩
      exact ⟨i, hi, z, hz, y, hy, _, by rw [pitch_eq hv]; exact comb_lt hx hq, by rw [buf_addr hv hi (hr z hz y)]; exact h1, h2⟩
  refine ⟨fun i hi x hx y hy z hz b hb => ?_, fun p b hp => ?_⟩
  · apply apply_eq
    · exact (hmem _ _).2 ⟨i, hi, z, hz, y, hy, x, hx, b, hb, rfl, rfl⟩
    · intro b' hb'
      obtain ⟨i', hi', z', hz', y', hy', x', hx', q, hq, h1, h2⟩ := (hmem _ _).1 hb'
      have l1 : (z * size t level 1 + y) * size t level 0 + x < t.nTexels level := by rw [nTexels_eq hv]; exact texel_lt hx hy hz
      have l2 : (z' * size t level 1 + y') * size t level 0 + x' < t.nTexels level := by rw [nTexels_eq hv]; exact texel_lt hx' hy' hz'
      obtain ⟨e1, e2, e3⟩ := staged_inj hv.channels hi l1 hb hi' l2 hq h1
      obtain ⟨e4, e5⟩ := split hx hx' e2
      obtain ⟨e6, e7⟩ := split hy hy' e4
      subst e1 e3 e5 e6 e7
      exact h2
  · obtain ⟨i, hi, z, hz, y, hy, x, hx, q, hq, h1, _⟩ := (hmem _ _).1 hp
    exact ⟨i, hi, _, by rw [nTexels_eq hv]; exact texel_lt hx hy hz, q, hq, h1⟩

theorem linear_bound {t : Texture} (hv : Valid t) {level i T b : Nat} (hi : i < t.nTextures) (hT : T < t.nTexels level) (hb : b < t.channels i * t.typeSize) :
    linear t i T b < packedSize t level := by
  have h := comb_lt hT (linear_lt hv.channels hi hb)
  unfold linear packedSize
  rw [nTexels_eq hv] at h
  calc _ < _ := h
    _ = _ := by ring

/-- **C91**: a download returns every channel of every texel in the packed buffer, and writes nothing behind it. -/
theorem C91_download {t : Texture} (hv : Valid t) {level : Nat} (hl : level < t.nLevels) (a : Arrays) (staging buf : Nat → Byte) :
    ∃ buf', t.download level a staging buf = some buf' ∧
      (∀ x < size t level 0, ∀ y < size t level 1, ∀ z < size t level 2, ∀ ch < t.nChannels, ∀ k < t.typeSize,
        buf' (packed t level x y z ch k) = stored t a level x y z ch k) ∧
      ∀ p ≥ packedSize t level, buf' p = buf p := by
  obtain ⟨rows, he, hr⟩ := extent_eq hv level
  unfold Texture.download
  rw [if_neg (by omega), he]
  dsimp only
  have hcoord : ∀ x ch k, (x * t.channelsStorage (ch / 4) + ch % 4) * t.typeSize + k = x * (t.channelsStorage (ch / 4) * t.typeSize) + (ch % 4 * t.typeSize + k) := by
    intro x ch k; ring
  cases hn : t.needsStaging with
  | false =>
    simp only [Bool.false_eq_true, if_false]
    rw [apply_fold]
    obtain ⟨h1, h2⟩ := read_spec hv level a hr buf
    refine ⟨_, rfl, fun x hx y hy z hz ch hch k hk => ?_, fun p hp => ?_⟩
    · obtain ⟨hi, hcm⟩ := channel_split hv.channels hch
      have hb := width_le hv.channels hi (comb_lt hcm hk)
      have h0 : ch / 4 = 0 := by have := (no_staging hv.channels hn).1; omega
      unfold stored
      rw [hcoord, ← h1 _ hi x hx y hy z hz _ hb, ← linear_eq, h0, staged_eq_linear hv.channels hn]
    · apply apply_ne
      intro b hb
      obtain ⟨i, hi, T, hT, q, hq, h3⟩ := h2 p b hb
      have hns := no_staging hv.channels hn
      have h0 : i = 0 := by omega
      subst h0
      rw [staged_eq_linear hv.channels hn] at h3
      have := linear_bound hv (level := level) hi hT (by rw [hns.2.2, ← hns.2.1]; exact hq)
      omega
  | true =>
    simp only [if_true]
    rw [apply_fold, apply_fold]
    obtain ⟨h1, _⟩ := read_spec hv level a hr staging
    refine ⟨_, rfl, fun x hx y hy z hz ch hch k hk => ?_, fun p hp => ?_⟩
    · obtain ⟨hi, hcm⟩ := channel_split hv.channels hch
      have hb := comb_lt hcm hk
      have hb' := width_le hv.channels hi hb
      have hT : (z * size t level 1 + y) * size t level 0 + x < t.nTexels level := by rw [nTexels_eq hv]; exact texel_lt hx hy hz
      unfold stored
      rw [hcoord, ← h1 _ hi x hx y hy z hz _ hb', ← linear_eq]
      apply apply_eq
      · exact mem_stage_false.2 ⟨_, hi, _, hT, _, hb, rfl, rfl⟩
      · intro b' hb2
        obtain ⟨i', hi', T', hT', x', hx', h3, h4⟩ := mem_stage_false.1 hb2
        obtain ⟨e1, e2, e3⟩ := linear_inj hv.channels hi hb hi' hx' h3
        rw [h4, ← e1, ← e2, ← e3]
    · apply apply_ne
      intro b hb
      obtain ⟨i, hi, T, hT, x, hx, h3, _⟩ := mem_stage_false.1 hb
      have := linear_bound hv (level := level) hi hT hx
      omega

/-- Every byte of a packed buffer belongs to a channel of a texel. -/
theorem packed_surj {t : Texture} (hv : Valid t) (level : Nat) {p : Nat} (hp : p < packedSize t level) :
    ∃ x < size t level 0, ∃ y < size t level 1, ∃ z < size t level 2, ∃ ch < t.nChannels, ∃ k < t.typeSize, p = packed t level x y z ch k := by
  have hts := hv.typeSize
  have hc := hv.channels
  have h0 := size_pos t level 0
  have h1 := size_pos t level 1
  have e : packedSize t level = size t level 2 * size t level 1 * size t level 0 * t.nChannels * t.typeSize := by unfold packedSize; ring
  rw [e] at hp
  have p1 : p / t.typeSize < size t level 2 * size t level 1 * size t level 0 * t.nChannels := (Nat.div_lt_iff_lt_mul hts).2 hp
  have p2 : p / t.typeSize / t.nChannels < size t level 2 * size t level 1 * size t level 0 := (Nat.div_lt_iff_lt_mul hc).2 p1
  have p3 : p / t.typeSize / t.nChannels / size t level 0 < size t level 2 * size t level 1 := (Nat.div_lt_iff_lt_mul h0).2 p2
  refine ⟨_, Nat.mod_lt (p / t.typeSize / t.nChannels) h0, _, Nat.mod_lt (p / t.typeSize / t.nChannels / size t level 0) h1, _, (Nat.div_lt_iff_lt_mul h1).2 p3,
    _, Nat.mod_lt (p / t.typeSize) hc, _, Nat.mod_lt p hts, ?_⟩
  unfold packed
  rw [Nat.div_add_mod', Nat.div_add_mod', Nat.div_add_mod', Nat.div_add_mod']

/-- **C91**: downloading what was uploaded returns the same buffer. -/
theorem C91_roundtrip {t : Texture} (hv : Valid t) {level : Nat} (hl : level < t.nLevels) (buf staging staging' buf' : Nat → Byte) (a : Arrays) :
    ∃ a' out, t.upload level buf staging a = some a' ∧ t.download level a' staging' buf' = some out ∧ ∀ p, out p = if p < packedSize t level then buf p else buf' p := by
  obtain ⟨a', h1, h2, _⟩ := C91_upload hv hl buf staging a
  obtain ⟨out, h3, h4, h5⟩ := C91_download hv hl a' staging' buf'
  refine ⟨a', out, h1, h3, fun p => ?_⟩
  by_cases hp : p < packedSize t level
  · rw [if_pos hp]
    obtain ⟨x, hx, y, hy, z, hz, ch, hch, k, hk, rfl⟩ := packed_surj hv level hp
    rw [h4 x hx y hy z hz ch hch k hk, h2 x hx y hy z hz ch hch k hk]
  · rw [if_neg hp]
    exact h5 p (by omega)

theorem staged_bound {t : Texture} (hc : 0 < t.nChannels) {n i T b : Nat} (hi : i < t.nTextures) (hT : T < n) (hb : b < t.channelsStorage i * t.typeSize) :
    staged t n i T b < t.stagingSize n := by
  have h1 := comb_lt hT hb
  have h2 : i * 4 + t.channelsStorage i ≤ (t.nTextures - 1) * 4 + t.channelsStorage (t.nTextures - 1) := by
    have h3 := storage_bounds hc hi
    by_cases h : i = t.nTextures - 1
    · rw [h]
    · omega
  unfold staged Texture.stagingSize
  calc i * (n * 4 * t.typeSize) + (T * (t.channelsStorage i * t.typeSize) + b) < i * (n * 4 * t.typeSize) + n * (t.channelsStorage i * t.typeSize) := by omega
    _ = t.typeSize * n * (i * 4 + t.channelsStorage i) := by ring
    _ ≤ _ := Nat.mul_le_mul_left _ h2

/-- **C91**: copies stay inside of the staging area. -/
theorem C91_staging {t : Texture} (hv : Valid t) (level : Nat) (hn : t.needsStaging = true) {i : Nat} (hi : i < t.nTextures) :
    (∀ src a b, (a, b) ∈ t.stage true (t.nTexels level) src i → a < t.stagingSize (t.nTexels level)) ∧
    (∀ arr a b, (a, b) ∈ fromArray arr (t.bufOff (t.nTexels level) i) (t.pitch level i) (t.extent level).1 (t.pitch level i) (t.extent level).2.1 (t.extent level).2.2 →
      a < t.stagingSize (t.nTexels level)) := by
  constructor
  · intro src a b h
    have : (a, b) ∈ (List.range t.nTextures).flatMap (t.stage true (t.nTexels level) src) := List.mem_flatMap.2 ⟨i, List.mem_range.2 hi, h⟩
    obtain ⟨i', hi', T, hT, x, hx, rfl, _⟩ := mem_stage_true.1 this
    exact staged_bound hv.channels hi' hT (width_le hv.channels hi' hx)
  · intro arr a b h
    obtain ⟨rows, he, hr⟩ := extent_eq hv level
    rw [he] at h
    obtain ⟨_, h2⟩ := read_spec hv level (fun _ _ => arr) hr (fun _ => 0)
    obtain ⟨i', hi', T, hT, q, hq, rfl⟩ := h2 a b (List.mem_flatMap.2 ⟨i, List.mem_range.2 hi, h⟩)
    exact staged_bound hv.channels hi' hT hq

/-- MIP levels that do not exist are rejected. -/
theorem C91_level {t : Texture} {level : Nat} (hl : t.nLevels ≤ level) (buf staging : Nat → Byte) (a : Arrays) :
    t.upload level buf staging a = none ∧ t.download level a staging buf = none := by
  unfold Texture.upload Texture.download
  rw [if_pos hl, if_pos hl]
  exact ⟨rfl, rfl⟩

end Verif.Tex
