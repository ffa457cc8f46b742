import Verif.MetalTex.Model
import Verif.Tex.Use

/-!
# C96: Hardware textures on Metal devices
-/
namespace Verif.MetalTex
open Verif.Tex Verif.Tex.Spec

/-- The number of values fits into 32-bit indices of the kernels that separate channels (each texel has three or more channels). -/
def Small (t : Texture) (level : Nat) : Prop := t.needsStaging = true → t.nTexels level * max 4 t.nChannels < 2 ^ 32

theorem height_eq {t : Texture} (hv : Valid t) (level : Nat) : height t level = size t level 1 := by
  unfold height
  by_cases h : t.ndim ≥ 2
  · rw [if_pos h, levelShape_eq hv level (by omega)]
  · rw [if_neg h]; unfold size; rw [if_neg (by omega)]

theorem depth_eq {t : Texture} (hv : Valid t) (level : Nat) : depth t level = size t level 2 := by
  have := hv.ndim
  unfold depth
  by_cases h : t.ndim = 3
  · rw [if_pos h, levelShape_eq hv level (by omega)]
  · rw [if_neg h]; unfold size; rw [if_neg (by omega)]

theorem row_eq {t : Texture} (hv : Valid t) (level i : Nat) : bytesPerRow t level i = size t level 0 * (t.channelsStorage i * t.typeSize) := by
  unfold bytesPerRow
  rw [levelShape_eq hv level (by have := hv.ndim; omega), Nat.mul_assoc]

/-- Address of byte `b` of texel `T` of texture `i` in its packed buffer -/
def own (t : Texture) (i T b : Nat) : Nat := T * (t.channelsStorage i * t.typeSize) + b

theorem addr_eq {t : Texture} (hv : Valid t) (level i x y z b : Nat) :
    0 + (z * height t level + y) * bytesPerRow t level i + (x * (t.channelsStorage i * t.typeSize) + b) = own t i ((z * size t level 1 + y) * size t level 0 + x) b := by
  unfold own
  rw [height_eq hv, row_eq hv]
  ring

theorem own_eq_linear {t : Texture} (hc : 0 < t.nChannels) (h : t.needsStaging = false) (T b : Nat) : own t 0 T b = linear t 0 T b := by
  have := no_staging hc h
  unfold own linear
  rw [this.2.1]
  ring

theorem coord (t : Texture) (x ch k : Nat) : (x * t.channelsStorage (ch / 4) + ch % 4) * t.typeSize + k = x * (t.channelsStorage (ch / 4) * t.typeSize) + (ch % 4 * t.typeSize + k) := by
  ring

theorem storage_le {t : Texture} {level i : Nat} (hc : 0 < t.nChannels) (hi : i < t.nTextures) (hs : t.nTexels level * max 4 t.nChannels < 2 ^ 32) :
    t.nTexels level * t.channelsStorage i < 2 ^ 32 :=
  lt_of_le_of_lt (Nat.mul_le_mul_left _ (le_trans (storage_bounds hc hi).2.2 (le_max_left _ _))) hs

theorem index_lt {t : Texture} {level i T c : Nat} (hc : 0 < t.nChannels) (hi : i < t.nTextures) (hs : t.nTexels level * max 4 t.nChannels < 2 ^ 32)
    (hT : T < t.nTexels level) (h : c < t.channels i) : T * t.nChannels + i * 4 + c < 2 ^ 32 := by
  have h1 := (channels_bounds hc hi).2.2.1
  have h2 : T * t.nChannels + (i * 4 + c) < t.nTexels level * t.nChannels := comb_lt hT (by omega)
  have h3 := Nat.mul_le_mul_left (t.nTexels level) (le_max_right 4 t.nChannels)
  omega

/-- What `deinterleave` leaves in the buffer, in any order of threads -/
theorem mem_deinterleave {t : Texture} (hv : Valid t) {level i : Nat} (hi : i < t.nTextures) (hs : t.nTexels level * max 4 t.nChannels < 2 ^ 32) {src : Nat → Byte} {p : Nat}
    {v : Byte} : (p, v) ∈ (List.range (t.nTexels level * t.channelsStorage i % 2 ^ 32)).flatMap
      (deinterleave t.nChannels (t.channelsStorage i) (i * 4) (t.channels i) t.typeSize src) ↔
      ∃ T < t.nTexels level, ∃ c < t.channelsStorage i, ∃ k < t.typeSize, p = own t i T (c * t.typeSize + k)
        ∧ v = if c < t.channels i then src (linear t i T (c * t.typeSize + k)) else 0 := by
  have hst := (storage_bounds hv.channels hi).1
  rw [Nat.mod_eq_of_lt (storage_le hv.channels hi hs)]
  unfold deinterleave
  simp only [List.mem_flatMap, List.mem_range, List.mem_map, Prod.mk.injEq]
  have e2 : ∀ T c k, c < t.channels i → T < t.nTexels level →
      (T * t.nChannels + i * 4 + c) % 2 ^ 32 * t.typeSize + k = linear t i T (c * t.typeSize + k) := by
    intro T c k hc hT
    rw [Nat.mod_eq_of_lt (index_lt hv.channels hi hs hT hc)]
    unfold linear; ring
  constructor
  · rintro ⟨tid, htid, k, hk, h1, h2⟩
    have hT : tid / t.channelsStorage i < t.nTexels level := (Nat.div_lt_iff_lt_mul hst).2 htid
    refine ⟨_, hT, _, Nat.mod_lt tid hst, k, hk, ?_, ?_⟩
    · rw [← h1]
      unfold own
      conv_lhs => rw [← Nat.div_add_mod' tid (t.channelsStorage i)]
      ring
    · rw [← h2]
      by_cases h : tid % t.channelsStorage i < t.channels i
      · rw [if_pos h, if_pos h, e2 _ _ _ h hT]
      · rw [if_neg h, if_neg h]
  · rintro ⟨T, hT, c, hc, k, hk, h1, h2⟩
    have ed : (T * t.channelsStorage i + c) / t.channelsStorage i = T := by rw [Nat.mul_comm, Nat.mul_add_div hst, Nat.div_eq_of_lt hc, Nat.add_zero]
    have em : (T * t.channelsStorage i + c) % t.channelsStorage i = c := by rw [Nat.mul_comm, Nat.mul_add_mod, Nat.mod_eq_of_lt hc]
    refine ⟨T * t.channelsStorage i + c, comb_lt hT hc, k, hk, ?_, ?_⟩
    · rw [h1]; unfold own; ring
    · rw [h2, ed, em]
      by_cases h : c < t.channels i
      · rw [if_pos h, if_pos h, e2 _ _ _ h hT]
      · rw [if_neg h, if_neg h]

/-- **C96 (uploads).**  An upload stores every channel of every texel of the packed buffer where lookups find it, and does not touch other MIP levels, for all numbers of
channels, formats and dimensions, and in whatever order threads run. -/
theorem C96_upload_partial {t : Texture} (hv : Valid t) {level : Nat} (hs : Small t level) (buf : Nat → Byte) (staging : Nat → Nat → Byte) (a a' : Arrays)
    (h : Upload t t.typeSize level buf staging a a') :
    (∀ x < size t level 0, ∀ y < size t level 1, ∀ z < size t level 2, ∀ ch < t.nChannels, ∀ k < t.typeSize,
      stored t a' level x y z ch k = buf (packed t level x y z ch k)) ∧ ∀ l ≠ level, ∀ i, a' i l = a i l := by
  obtain ⟨_, ws, hw, rfl⟩ := h
  refine ⟨fun x hx y hy z hz ch hch k hk => ?_, fun l hne i => by dsimp only; rw [if_neg (fun h => hne h.2)]⟩
  obtain ⟨hi, hcm⟩ := channel_split hv.channels hch
  have hcs := lt_of_lt_of_le hcm (storage_bounds hv.channels hi).2.1
  have hb : ch % 4 * t.typeSize + k < t.channelsStorage (ch / 4) * t.typeSize := comb_lt hcs hk
  unfold stored
  dsimp only
  rw [if_pos (show ch / 4 < t.nTextures ∧ level = level from ⟨hi, rfl⟩), coord]
  unfold toArray
  rw [if_pos ⟨by rw [depth_eq hv]; exact hz, by rw [height_eq hv]; exact hy, by
    show _ < bytesPerRow t level (ch / 4); rw [row_eq hv]; exact comb_lt hx hb⟩, addr_eq hv]
  have hT : (z * size t level 1 + y) * size t level 0 + x < t.nTexels level := by rw [nTexels_eq hv]; exact texel_lt hx hy hz
  cases hn : t.needsStaging with
  | false =>
    simp only [Bool.false_eq_true, if_false]
    have h0 : ch / 4 = 0 := by have := (no_staging hv.channels hn).1; omega
    rw [← linear_eq, h0, own_eq_linear hv.channels hn]
  | true =>
    simp only [if_true]
    have hm := fun p v => ((hw (ch / 4) hi).mem_iff (a := (p, v))).trans (mem_deinterleave hv hi (hs hn))
    apply apply_eq
    · exact (hm _ _).2 ⟨_, hT, _, hcs, k, hk, rfl, by rw [if_pos hcm, linear_eq]⟩
    · intro b' hb2
      obtain ⟨T', hT', c', hc', k', hk', h1, h2⟩ := (hm _ _).1 hb2
      unfold own at h1
      obtain ⟨e1, e2⟩ := split hb (comb_lt hc' hk') h1
      obtain ⟨e3, e4⟩ := split hk hk' e2
      rw [h2, ← e1, ← e3, ← e4, if_pos hcm, linear_eq]

/-- Uploads of existing levels exist. -/
theorem C96_upload_exists {t : Texture} {level : Nat} (hl : level < t.nLevels) (buf : Nat → Byte) (staging : Nat → Nat → Byte) (a : Arrays) :
    ∃ a', Upload t t.typeSize level buf staging a a' := ⟨_, hl, _, fun _ _ => List.Perm.refl _, rfl⟩

theorem mem_blit {t : Texture} (hv : Valid t) (a : Arrays) {i : Nat} (hi : i < t.nTextures) {p : Nat} {v : Byte} :
    (p, v) ∈ blit t t.typeSize a i ↔ ∃ z < size t 0 2, ∃ y < size t 0 1, ∃ x < size t 0 0, ∃ q < t.channelsStorage i * t.typeSize,
      p = own t i ((z * size t 0 1 + y) * size t 0 0 + x) q ∧ v = a i 0 z y (x * (t.channelsStorage i * t.typeSize) + q) := by
  unfold blit
  rw [mem_fromArray, depth_eq hv]
  have hst : 0 < t.channelsStorage i * t.typeSize := Nat.mul_pos (storage_bounds hv.channels hi).1 hv.typeSize
  have hrow : t.levelShape 0 0 * t.channelsStorage i * t.typeSize = size t 0 0 * (t.channelsStorage i * t.typeSize) := row_eq hv 0 i
  constructor
  · rintro ⟨z, hz, y, hy, xb, hxb, h1, h2⟩
    have hd : xb = xb / (t.channelsStorage i * t.typeSize) * (t.channelsStorage i * t.typeSize) + xb % (t.channelsStorage i * t.typeSize) := (Nat.div_add_mod' _ _).symm
    rw [hrow] at hxb
    rw [height_eq hv] at hy
    refine ⟨z, hz, y, hy, _, (Nat.div_lt_iff_lt_mul hst).2 hxb, _, Nat.mod_lt _ hst, ?_, by rw [← hd]; exact h2⟩
    rw [← addr_eq hv, ← hd]
    exact h1
  · rintro ⟨z, hz, y, hy, x, hx, q, hq, h1, h2⟩
    exact ⟨z, hz, y, by rw [height_eq hv]; exact hy, _, by rw [hrow]; exact comb_lt hx hq, by rw [addr_eq hv]; exact h1, h2⟩

theorem blit_spec {t : Texture} (hv : Valid t) (a : Arrays) {i : Nat} (hi : i < t.nTextures) (m : Nat → Byte) {x y z q : Nat} (hx : x < size t 0 0) (hy : y < size t 0 1)
    (hz : z < size t 0 2) (hq : q < t.channelsStorage i * t.typeSize) :
    apply (blit t t.typeSize a i) m (own t i ((z * size t 0 1 + y) * size t 0 0 + x) q) = a i 0 z y (x * (t.channelsStorage i * t.typeSize) + q) := by
  apply apply_eq
  · exact (mem_blit hv a hi).2 ⟨z, hz, y, hy, x, hx, q, hq, rfl, rfl⟩
  · intro b' hb'
    obtain ⟨z', hz', y', hy', x', hx', q', hq', h1, h2⟩ := (mem_blit hv a hi).1 hb'
    unfold own at h1
    obtain ⟨e1, e2⟩ := split hq hq' h1
    obtain ⟨e4, e5⟩ := split hx hx' e1
    obtain ⟨e6, e7⟩ := split hy hy' e4
    subst e2 e5 e6 e7
    exact h2

theorem mem_interleave {t : Texture} (hv : Valid t) (hs : t.nTexels 0 * max 4 t.nChannels < 2 ^ 32) {src : Nat → Nat → Byte} {p : Nat} {v : Byte} :
    (p, v) ∈ (List.range t.nTextures).flatMap (fun i => (List.range (t.nTexels 0 * t.channels i % 2 ^ 32)).flatMap
      (interleave t.nChannels (t.channelsStorage i) (i * 4) (t.channels i) t.typeSize (src i))) ↔
      ∃ i < t.nTextures, ∃ T < t.nTexels 0, ∃ c < t.channels i, ∃ k < t.typeSize, p = linear t i T (c * t.typeSize + k)
        ∧ v = src i (own t i T (c * t.typeSize + k)) := by
  unfold interleave
  simp only [List.mem_flatMap, List.mem_range, List.mem_map, Prod.mk.injEq]
  have e2 : ∀ i T c k, i < t.nTextures → c < t.channels i → T < t.nTexels 0 →
      (T * t.nChannels + i * 4 + c) % 2 ^ 32 * t.typeSize + k = linear t i T (c * t.typeSize + k)
        ∧ (T * t.channelsStorage i + c) % 2 ^ 32 * t.typeSize + k = own t i T (c * t.typeSize + k) := by
    intro i T c k hi hc hT
    have hst := storage_bounds hv.channels hi
    have h1 := storage_le hv.channels hi hs
    have h2 : T * t.channelsStorage i + c < t.nTexels 0 * t.channelsStorage i := comb_lt hT (lt_of_lt_of_le hc hst.2.1)
    rw [Nat.mod_eq_of_lt (index_lt hv.channels hi hs hT hc), Nat.mod_eq_of_lt (a := T * t.channelsStorage i + c) (by omega)]
    unfold linear own
    constructor <;> ring
  have hcount : ∀ i < t.nTextures, t.nTexels 0 * t.channels i % 2 ^ 32 = t.nTexels 0 * t.channels i := by
    intro i hi
    exact Nat.mod_eq_of_lt (lt_of_le_of_lt (Nat.mul_le_mul_left _ (storage_bounds hv.channels hi).2.1) (storage_le hv.channels hi hs))
  constructor
  · rintro ⟨i, hi, tid, htid, k, hk, h1, h2⟩
    rw [hcount i hi] at htid
    have hc0 := (channels_bounds hv.channels hi).1
    have hT : tid / t.channels i < t.nTexels 0 := (Nat.div_lt_iff_lt_mul hc0).2 htid
    have e := e2 i _ _ k hi (Nat.mod_lt tid hc0) hT
    exact ⟨i, hi, _, hT, _, Nat.mod_lt tid hc0, k, hk, by rw [← h1, e.1], by rw [← h2, e.2]⟩
  · rintro ⟨i, hi, T, hT, c, hc, k, hk, h1, h2⟩
    have hc0 := (channels_bounds hv.channels hi).1
    have ed : (T * t.channels i + c) / t.channels i = T := by rw [Nat.mul_comm, Nat.mul_add_div hc0, Nat.div_eq_of_lt hc, Nat.add_zero]
    have em : (T * t.channels i + c) % t.channels i = c := by rw [Nat.mul_comm, Nat.mul_add_mod, Nat.mod_eq_of_lt hc]
    have e := e2 i T c k hi hc hT
    exact ⟨i, hi, T * t.channels i + c, by rw [hcount i hi]; exact comb_lt hT hc, k, hk, by rw [ed, em, h1, e.1], by rw [ed, em, h2, e.2]⟩

/-- **C96 (downloads).**  A download returns every channel of every texel in the packed buffer, and writes nothing behind it, in whatever order threads run. -/
theorem C96_download_partial {t : Texture} (hv : Valid t) (hs : Small t 0) (a : Arrays) (staging : Nat → Nat → Byte) (buf buf' : Nat → Byte)
    (h : Download t t.typeSize a staging buf buf') :
    (∀ x < size t 0 0, ∀ y < size t 0 1, ∀ z < size t 0 2, ∀ ch < t.nChannels, ∀ k < t.typeSize,
      buf' (packed t 0 x y z ch k) = stored t a 0 x y z ch k) ∧ ∀ p ≥ packedSize t 0, buf' p = buf p := by
  unfold Download at h
  cases hn : t.needsStaging with
  | false =>
    rw [if_neg (by rw [hn]; simp)] at h
    subst h
    have hns := no_staging hv.channels hn
    refine ⟨fun x hx y hy z hz ch hch k hk => ?_, fun p hp => ?_⟩
    · obtain ⟨hi, hcm⟩ := channel_split hv.channels hch
      have hb := width_le hv.channels hi (comb_lt hcm hk)
      have h0 : ch / 4 = 0 := by omega
      unfold stored
      rw [coord, ← blit_spec hv a hi buf hx hy hz hb, ← linear_eq, h0, own_eq_linear hv.channels hn]
    · apply apply_ne
      intro b hb
      obtain ⟨z, hz, y, hy, x, hx, q, hq, h3, _⟩ := (mem_blit hv a (by omega)).1 hb
      rw [own_eq_linear hv.channels hn] at h3
      have hT : (z * size t 0 1 + y) * size t 0 0 + x < t.nTexels 0 := by rw [nTexels_eq hv]; exact texel_lt hx hy hz
      have := linear_bound hv (level := 0) (i := 0) (by omega) hT (by rw [hns.2.2, ← hns.2.1]; exact hq)
      omega
  | true =>
    rw [if_pos hn] at h
    obtain ⟨ws, hw, rfl⟩ := h
    have hm := fun p v => (hw.mem_iff (a := (p, v))).trans (mem_interleave hv (hs hn))
    refine ⟨fun x hx y hy z hz ch hch k hk => ?_, fun p hp => ?_⟩
    · obtain ⟨hi, hcm⟩ := channel_split hv.channels hch
      have hb := comb_lt hcm hk
      have hb' := width_le hv.channels hi hb
      have hT : (z * size t 0 1 + y) * size t 0 0 + x < t.nTexels 0 := by rw [nTexels_eq hv]; exact texel_lt hx hy hz
      unfold stored
      rw [coord, ← blit_spec hv a hi (staging (ch / 4)) hx hy hz hb', ← linear_eq]
      apply apply_eq
      · exact (hm _ _).2 ⟨_, hi, _, hT, _, hcm, k, hk, rfl, rfl⟩
      · intro b' hb2
        obtain ⟨i', hi', T', hT', c', hc', k', hk', h3, h4⟩ := (hm _ _).1 hb2
        obtain ⟨e1, e2, e3⟩ := linear_inj hv.channels hi hb hi' (comb_lt hc' hk') h3
        rw [h4, ← e1, ← e2, ← e3]
    · apply apply_ne
      intro b hb
      obtain ⟨i, hi, T, hT, c, hc, k, hk, h3, _⟩ := (hm _ _).1 hb
      have := linear_bound hv (level := 0) hi hT (comb_lt hc hk)
      omega

/-- **C96 (round trip).**  Downloading what was uploaded returns the same buffer. -/
theorem C96_roundtrip_partial {t : Texture} (hv : Valid t) (hs : Small t 0) (buf buf' out : Nat → Byte) (staging staging' : Nat → Nat → Byte) (a a' : Arrays)
    (h1 : Upload t t.typeSize 0 buf staging a a') (h2 : Download t t.typeSize a' staging' buf' out) (p : Nat) : out p = if p < packedSize t 0 then buf p else buf' p := by
  have u := C96_upload_partial hv hs buf staging a a' h1
  have d := C96_download_partial hv hs a' staging' buf' out h2
  by_cases hp : p < packedSize t 0
  · rw [if_pos hp]
    obtain ⟨x, hx, y, hy, z, hz, ch, hch, k, hk, rfl⟩ := packed_surj hv 0 hp
    rw [d.1 x hx y hy z hz ch hch k hk, u.1 x hx y hy z hz ch hch k hk]
  · rw [if_neg hp]
    exact d.2 p (by omega)

theorem C96_download_exists (t : Texture) (pixel : Nat) (a : Arrays) (staging : Nat → Nat → Byte) (buf : Nat → Byte) : ∃ buf', Download t pixel a staging buf buf' := by
  unfold Download
  cases t.needsStaging with
  | false => exact ⟨_, by rw [if_neg (by simp)]⟩
  | true => simp only [if_true]; exact ⟨_, _, List.Perm.refl _, rfl⟩

/-- **C96 fails** for texels with three channels (and others that must be separated) when there are 2^30 of them: the number of threads is taken modulo 2^32, so that nothing is
copied to the texture, which then holds whatever the memory contained. -/
theorem C96_large_counterexample : ∃ t : Texture, Valid t ∧ t.nLevels = 1 ∧ ∀ (buf : Nat → Byte) (staging : Nat → Nat → Byte) (a a' : Arrays),
    Upload t t.typeSize 0 buf staging a a' → stored t a' 0 0 0 0 0 0 = staging 0 0 := by
  refine ⟨⟨3, 3, 1, fun _ => 1024, 1⟩, ⟨by decide, by decide, by decide, fun _ _ => by simp⟩, rfl, fun buf staging a a' h => ?_⟩
  obtain ⟨_, ws, hw, rfl⟩ := h
  have h0 := hw 0 (by decide)
  have hz : Texture.nTexels ⟨3, 3, 1, fun _ => 1024, 1⟩ 0 * Texture.channelsStorage ⟨3, 3, 1, fun _ => 1024, 1⟩ 0 % 2 ^ 32 = 0 := by decide
  rw [hz] at h0
  have hnil : ws 0 = [] := List.Perm.eq_nil h0
  unfold stored toArray
  dsimp only
  rw [if_pos (by decide), if_pos (by decide), if_pos (by decide), hnil]
  rfl

/-- **C96 fails** for wrapped textures with 8-bit channels: their `type_size` is 2 instead of 1, and the distance of rows is wrong.  Here, a download of a texture with 2 rows of 2
texels leaves the third byte of the packed buffer (of 4 bytes) unchanged and writes to the fifth one. -/
theorem C96_wrapped_counterexample (a : Arrays) (staging : Nat → Nat → Byte) (buf buf' : Nat → Byte)
    (h : Download ⟨2, 1, typeSizeOf true 1, fun _ => 2, 1⟩ 1 a staging buf buf') : buf' 2 = buf 2 ∧ buf' 4 = a 0 0 0 1 0 := by
  unfold Download at h
  rw [if_neg (by decide)] at h
  subst h
  constructor
  · apply apply_ne
    intro b hb
    unfold blit at hb
    rw [mem_fromArray] at hb
    obtain ⟨z, hz, y, hy, x, hx, h1, _⟩ := hb
    have e1 : bytesPerRow ⟨2, 1, typeSizeOf true 1, fun _ => 2, 1⟩ 0 0 = 4 := by decide
    have e2 : height ⟨2, 1, typeSizeOf true 1, fun _ => 2, 1⟩ 0 = 2 := by decide
    have e3 : Texture.levelShape ⟨2, 1, typeSizeOf true 1, fun _ => 2, 1⟩ 0 0 * Texture.channelsStorage ⟨2, 1, typeSizeOf true 1, fun _ => 2, 1⟩ 0 * 1 = 2 := by decide
    rw [e1, e2] at h1
    rw [e3] at hx
    omega
  · apply apply_eq
    · unfold blit
      rw [mem_fromArray]
      exact ⟨0, by decide, 1, by decide, 0, by decide, by decide, rfl⟩
    · intro b' hb
      unfold blit at hb
      rw [mem_fromArray] at hb
      obtain ⟨z, hz, y, hy, x, hx, h1, h2⟩ := hb
      have e1 : bytesPerRow ⟨2, 1, typeSizeOf true 1, fun _ => 2, 1⟩ 0 0 = 4 := by decide
      have e2 : height ⟨2, 1, typeSizeOf true 1, fun _ => 2, 1⟩ 0 = 2 := by decide
      have e3 : Texture.levelShape ⟨2, 1, typeSizeOf true 1, fun _ => 2, 1⟩ 0 0 * Texture.channelsStorage ⟨2, 1, typeSizeOf true 1, fun _ => 2, 1⟩ 0 * 1 = 2 := by decide
      have e4 : depth ⟨2, 1, typeSizeOf true 1, fun _ => 2, 1⟩ 0 = 1 := by decide
      rw [e1, e2] at h1
      rw [e3] at hx
      rw [e4] at hz
      have : z = 0 ∧ y = 1 ∧ x = 0 := by omega
      obtain ⟨rfl, rfl, rfl⟩ := this
      exact h2

/-! ### Lookups and writes -/

/-- **C96 (lookups).**  A lookup returns one value per channel, namely component `ch % 4` of texture `ch / 4`, where uploads store it; zero if the mask is not set. -/
theorem C96_lookup {t : Texture} (hc : 0 < t.nChannels) : (lookup t).length = t.nChannels ∧ ∀ c < t.nChannels, (lookup t)[c]? = some (c / 4, c % 4) := C91_lookup hc

theorem C96_lookup_mask {F : Type} (zero : F) (mask : Option Bool) (hw : F) : lookupLane zero mask hw = if mask = some false then zero else hw := by
  unfold lookupLane
  match mask with
  | none => rfl
  | some true => rfl
  | some false => rfl

/-- **C96 (writes).**  A write inside of the texture changes all channels (of any number) of its texel and nothing else that can be looked up; if the mask is not set, or the
position is outside of the texture, nothing changes.  Coordinates of dimensions that do not exist are zero. -/
theorem C96_write {F : Type} {t : Texture} (hv : Valid t) (conv : F → Nat → Byte) (zero : F) (mask : Option Bool) (x y z : Nat) (hy : t.ndim < 2 → y = 0) (hz : t.ndim < 3 → z = 0)
    (value : Nat → F) (a : Arrays) (x' y' z' ch k level : Nat) (hx' : x' < size t 0 0) (hy' : y' < size t 0 1) (hz' : z' < size t 0 2) (hch : ch < t.nChannels) (hk : k < t.typeSize) :
    stored t (write t conv zero mask x y z value a) level x' y' z' ch k =
      if mask ≠ some false ∧ level = 0 ∧ x' = x ∧ y' = y ∧ z' = z then conv (value ch) k else stored t a level x' y' z' ch k := by
  obtain ⟨hi, hcm⟩ := channel_split hv.channels hch
  have hn := hv.ndim
  have hts := hv.typeSize
  have hcs := lt_of_lt_of_le hcm (storage_bounds hv.channels hi).2.1
  have hb : ch % 4 * t.typeSize + k < t.channelsStorage (ch / 4) * t.typeSize := comb_lt hcs hk
  have hst : 0 < t.channelsStorage (ch / 4) * t.typeSize := by omega
  unfold stored write
  by_cases hc : level = 0 ∧ mask ≠ some false
  · rw [if_pos ⟨hi, hc.1, hc.2⟩, coord]
    unfold writeTexel
    have ey : (if t.ndim = 1 then 0 else y) = y := by
      by_cases h : t.ndim = 1
      · rw [if_pos h, hy (by omega)]
      · rw [if_neg h]
    have ez : (if t.ndim = 3 then z else 0) = z := by
      by_cases h : t.ndim = 3
      · rw [if_pos h]
      · rw [if_neg h, hz (by omega)]
    have ed : (x' * (t.channelsStorage (ch / 4) * t.typeSize) + (ch % 4 * t.typeSize + k)) / (t.channelsStorage (ch / 4) * t.typeSize) = x' := by
      rw [Nat.mul_comm, Nat.mul_add_div hst, Nat.div_eq_of_lt hb, Nat.add_zero]
    have em : (x' * (t.channelsStorage (ch / 4) * t.typeSize) + (ch % 4 * t.typeSize + k)) % (t.channelsStorage (ch / 4) * t.typeSize) = ch % 4 * t.typeSize + k := by
      rw [Nat.mul_comm, Nat.mul_add_mod, Nat.mod_eq_of_lt hb]
    have ek : (x' * (t.channelsStorage (ch / 4) * t.typeSize) + (ch % 4 * t.typeSize + k)) % t.typeSize = k := by
      have : x' * (t.channelsStorage (ch / 4) * t.typeSize) + (ch % 4 * t.typeSize + k) = t.typeSize * (x' * t.channelsStorage (ch / 4) + ch % 4) + k := by ring
      rw [this, Nat.mul_add_mod, Nat.mod_eq_of_lt hk]
    have ec : (ch % 4 * t.typeSize + k) / t.typeSize = ch % 4 := by rw [Nat.mul_comm, Nat.mul_add_div hts, Nat.div_eq_of_lt hk, Nat.add_zero]
    rw [ey, ez, ed, em, ek, ec, levelShape_eq hv 0 (by omega), height_eq hv, depth_eq hv]
    have ev : writeVec t zero (ch / 4) value (ch % 4) = value ch := by
      unfold writeVec
      rw [if_pos hcm, Nat.div_add_mod']
    rw [ev]
    by_cases hp : x' = x ∧ y' = y ∧ z' = z
    · obtain ⟨rfl, rfl, rfl⟩ := hp
      rw [if_pos ⟨hx', hy', hz', rfl, rfl, rfl⟩, if_pos ⟨hc.2, hc.1, rfl, rfl, rfl⟩]
    · rw [if_neg (fun h => hp ⟨h.2.2.2.2.2, h.2.2.2.2.1, h.2.2.2.1⟩), if_neg (fun h => hp h.2.2)]
  · rw [if_neg (fun h => hc h.2), if_neg (fun h => hc ⟨h.2.1, h.1⟩)]

/-! ### Examples -/

/-- A three-dimensional texture with seven channels and three levels -/
example : Valid sample ∧ Small sample 1 ∧ sample.needsStaging = true := ⟨⟨by decide, by decide, by decide, fun d _ => by simp [sample]⟩, fun _ => by decide, by decide⟩

end Verif.MetalTex
