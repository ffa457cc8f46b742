import Verif.Call.Layout

/-!
# C34: facts about the layout of captured values
-/
namespace Verif.Call

theorem bsize_cases (b : Nat) : bsize b = 8 ∨ bsize b = 4 ∨ bsize b = 2 ∨ bsize b = 1 := by
  have h : b &&& 3 ≤ 3 := Nat.and_le_right
  unfold bsize
  generalize b &&& 3 = x at h
  have : x = 0 ∨ x = 1 ∨ x = 2 ∨ x = 3 := by omega
  rcases this with rfl | rfl | rfl | rfl <;> simp

theorem bsize_pos (b : Nat) : 0 < bsize b := by rcases bsize_cases b with h | h | h | h <;> omega

theorem alignUp_ge {x a : Nat} (ha : 0 < a) : x ≤ alignUp x a := by
  unfold alignUp
  have h1 := Nat.div_add_mod (x + a - 1) a
  have h2 := Nat.mod_lt (x + a - 1) ha
  rw [Nat.mul_comm] at h1
  omega

theorem dvd_alignUp (x a : Nat) : a ∣ alignUp x a := Nat.dvd_mul_left _ _

theorem alignUp_of_dvd {x a : Nat} (ha : 0 < a) (h : a ∣ x) : alignUp x a = x := by
  obtain ⟨k, rfl⟩ := h
  unfold alignUp
  rw [show a * k + a - 1 = (a - 1) + a * k by omega, Nat.add_mul_div_left _ _ ha, Nat.div_eq_of_lt (by omega), Nat.zero_add, Nat.mul_comm]

/-- Powers of two -/
def Pow2 (n : Nat) : Prop := ∃ k, n = 2 ^ k

theorem Pow2.pos {n : Nat} (h : Pow2 n) : 0 < n := by obtain ⟨k, rfl⟩ := h; exact Nat.two_pow_pos k

theorem Pow2.dvd {a b : Nat} (ha : Pow2 a) (hb : Pow2 b) (h : a ≤ b) : a ∣ b := by
  obtain ⟨j, rfl⟩ := ha
  obtain ⟨k, rfl⟩ := hb
  exact Nat.pow_dvd_pow 2 ((Nat.pow_le_pow_iff_right (by omega)).1 h)

theorem Pow2.max {a b : Nat} (ha : Pow2 a) (hb : Pow2 b) : Pow2 (max a b) := by
  rcases Nat.le_total a b with h | h
  · rwa [Nat.max_eq_right h]
  · rwa [Nat.max_eq_left h]

theorem Pow2.mul {a b : Nat} (ha : Pow2 a) (hb : Pow2 b) : Pow2 (a * b) := by
  obtain ⟨j, rfl⟩ := ha
  obtain ⟨k, rfl⟩ := hb
  exact ⟨j + k, (Nat.pow_add 2 j k).symm⟩

theorem Pow2.half {a : Nat} (ha : Pow2 a) (h : 2 ≤ a) : Pow2 (a / 2) := by
  obtain ⟨j, rfl⟩ := ha
  cases j with
  | zero => simp at h
  | succ j => exact ⟨j, by rw [Nat.pow_succ, Nat.mul_div_cancel _ (by omega)]⟩

theorem Pow2.min {a b : Nat} (ha : Pow2 a) (hb : Pow2 b) : Pow2 (min a b) := by
  rcases Nat.le_total a b with h | h
  · rwa [Nat.min_eq_left h]
  · rwa [Nat.min_eq_right h]

theorem pow2_bsize (b : Nat) : Pow2 (bsize b) := by
  rcases bsize_cases b with h | h | h | h <;> rw [h]
  exacts [⟨3, rfl⟩, ⟨2, rfl⟩, ⟨1, rfl⟩, ⟨0, rfl⟩]

theorem pow2_pickPacket {rem cand : Nat} (h : Pow2 cand) : Pow2 (pickPacket rem cand) := by
  induction cand using Nat.strongRecOn with
  | _ c ih =>
    unfold pickPacket
    split
    · exact ⟨0, rfl⟩
    · split
      · exact h
      · exact ih _ (by omega) (h.half (by omega))

theorem pickPacket_le {rem cand : Nat} (h : 0 < cand) : pickPacket rem cand ≤ cand := by
  induction cand using Nat.strongRecOn with
  | _ c ih =>
    unfold pickPacket
    split
    · omega
    · split
      · exact Nat.le_refl _
      · exact Nat.le_trans (ih _ (by omega) (by omega)) (by omega)

theorem pickPacket_mono {rem rem' cand : Nat} (h : rem ≤ rem') (hc : 0 < cand) : pickPacket rem cand ≤ pickPacket rem' cand := by
  induction cand using Nat.strongRecOn with
  | _ c ih =>
    unfold pickPacket
    by_cases h2 : c < 2
    · rw [if_pos h2, if_pos h2]; exact Nat.le_refl _
    · rw [if_neg h2, if_neg h2]
      by_cases h3 : min rem c * 100 ≥ c * 75
      · have : min rem c ≤ min rem' c := by omega
        rw [if_pos h3, if_pos (show min rem' c * 100 ≥ c * 75 by omega)]
        exact Nat.le_refl _
      · rw [if_neg h3]
        split
        · exact Nat.le_trans (pickPacket_le (by omega)) (by omega)
        · exact ih _ (by omega) (by omega)

theorem pickPacket_pos {rem cand : Nat} : 0 < pickPacket rem cand := by
  induction cand using Nat.strongRecOn with
  | _ c ih =>
    unfold pickPacket
    split
    · omega
    · split
      · omega
      · exact ih _ (by omega)

theorem pow2_pickChunk {off rem cand : Nat} (h : Pow2 cand) : Pow2 (pickChunk off rem cand) := by
  induction cand using Nat.strongRecOn with
  | _ c ih =>
    unfold pickChunk
    split
    · exact ⟨2, rfl⟩
    · split
      · exact h
      · exact ih _ (by omega) (h.half (by omega))

theorem pickChunk_le {off rem cand : Nat} (h : 4 ≤ cand) : pickChunk off rem cand ≤ cand := by
  induction cand using Nat.strongRecOn with
  | _ c ih =>
    unfold pickChunk
    split
    · omega
    · split
      · exact Nat.le_refl _
      · exact Nat.le_trans (ih _ (by omega) (by omega)) (by omega)

theorem pickChunk_ge {off rem cand : Nat} : 4 ≤ pickChunk off rem cand := by
  induction cand using Nat.strongRecOn with
  | _ c ih =>
    unfold pickChunk
    split
    · omega
    · split
      · omega
      · exact ih _ (by omega)

theorem dvd_pickChunk {off rem cand : Nat} (h : 4 ∣ off) : pickChunk off rem cand ∣ off := by
  induction cand using Nat.strongRecOn with
  | _ c ih =>
    unfold pickChunk
    split
    · exact h
    · split
      · rename_i h2; exact Nat.dvd_of_mod_eq_zero h2.1
      · exact ih _ (by omega)

/-- A chunk that is chosen somewhere is at most as wide as the one chosen at the start -/
theorem pickChunk_start {off rem rem' c d : Nat} (hc : Pow2 c) (hd : Pow2 d) (hle : d ≤ c) (h : rem ≤ rem') :
    pickChunk off rem d ≤ pickChunk 0 rem' c := by
  induction c using Nat.strongRecOn generalizing d with
  | _ c ih =>
    by_cases h8 : d < 8
    · unfold pickChunk
      rw [if_pos h8]
      have := pickChunk_ge (off := 0) (rem := rem') (cand := c)
      unfold pickChunk at this
      exact this
    · rcases Nat.lt_or_eq_of_le hle with hlt | rfl
      · -- `d ≤ c / 2`
        have hd2 : d ≤ c / 2 := by
          obtain ⟨j, rfl⟩ := hd
          obtain ⟨k, rfl⟩ := hc
          have hjk : j < k := (Nat.pow_lt_pow_iff_right (by omega)).1 hlt
          have := Nat.pow_le_pow_right (n := 2) (by omega) (show j ≤ k - 1 by omega)
          have e : 2 ^ k = 2 * 2 ^ (k - 1) := by rw [← Nat.pow_succ']; congr 1; omega
          omega
        have h1 := ih (c / 2) (by omega) (hc.half (by omega)) hd hd2
        rw [show pickChunk 0 rem' c = if c < 8 then 4 else if 0 % c = 0 ∧ min rem' c * 100 ≥ c * 75 then c else pickChunk 0 rem' (c / 2) by rw [pickChunk]]
        rw [if_neg (by omega)]
        split
        · exact Nat.le_trans (pickChunk_le (by omega)) (by omega)
        · exact h1
      · rw [show pickChunk off rem d = if d < 8 then 4 else if off % d = 0 ∧ min rem d * 100 ≥ d * 75 then d else pickChunk off rem (d / 2) by rw [pickChunk]]
        rw [show pickChunk 0 rem' d = if d < 8 then 4 else if 0 % d = 0 ∧ min rem' d * 100 ≥ d * 75 then d else pickChunk 0 rem' (d / 2) by rw [pickChunk]]
        rw [if_neg h8, if_neg h8]
        by_cases hq : off % d = 0 ∧ min rem d * 100 ≥ d * 75
        · have : min rem d ≤ min rem' d := by omega
          rw [if_pos hq, if_pos ⟨Nat.zero_mod _, by omega⟩]
          exact Nat.le_refl _
        · rw [if_neg hq]
          split
          · exact Nat.le_trans (pickChunk_le (by omega)) (by omega)
          · exact ih (d / 2) (by omega) (hc.half (by omega)) (hd.half (by omega)) (by omega)

/-! ### Sizes -/

theorem foldl_max_ge (l : List Cap) (m : Nat) : m ≤ l.foldl (fun m c => max m (bsize c.bucket)) m := by
  induction l generalizing m with
  | nil => exact Nat.le_refl _
  | cons a l ih => exact Nat.le_trans (Nat.le_max_left _ _) (ih _)

theorem le_maxField {caps : List Cap} {c : Cap} (h : c ∈ caps) : bsize c.bucket ≤ maxField caps := by
  unfold maxField
  generalize 1 = m
  induction caps generalizing m with
  | nil => cases h
  | cons a l ih =>
    rcases List.mem_cons.1 h with rfl | h
    · exact Nat.le_trans (Nat.le_max_right _ _) (foldl_max_ge _ _)
    · exact ih h _

theorem pow2_maxField (caps : List Cap) : Pow2 (maxField caps) := by
  unfold maxField
  have : Pow2 1 := ⟨0, rfl⟩
  generalize 1 = m at this
  induction caps generalizing m with
  | nil => exact this
  | cons a l ih => exact ih _ (this.max (pow2_bsize _))

theorem coalBytes_eq {caps : List Cap} :
    coalBytes caps = count caps 0 * 8 + count caps 1 * 4 + count caps 2 * 2 + count caps 3 * 1 := by
  unfold coalBytes count
  suffices h : ∀ m, caps.foldl (fun m c => if c.bucket < 4 then m + bsize c.bucket else m) m =
      m + (caps.countP (fun c => c.bucket = 0) * 8 + caps.countP (fun c => c.bucket = 1) * 4 + caps.countP (fun c => c.bucket = 2) * 2 +
        caps.countP (fun c => c.bucket = 3) * 1) by rw [h]; omega
  induction caps with
  | nil => intro m; simp
  | cons a l ih =>
    intro m
    rw [List.foldl_cons, ih]
    simp only [List.countP_cons]
    by_cases h : a.bucket < 4
    · rw [if_pos h]
      have h4 : a.bucket = 0 ∨ a.bucket = 1 ∨ a.bucket = 2 ∨ a.bucket = 3 := by omega
      rcases h4 with h4 | h4 | h4 | h4 <;> rw [h4] <;> simp [bsize] <;> omega
    · rw [if_neg h]
      have h0 : a.bucket ≠ 0 := by omega
      have h1 : a.bucket ≠ 1 := by omega
      have h2 : a.bucket ≠ 2 := by omega
      have h3 : a.bucket ≠ 3 := by omega
      simp [h0, h1, h2, h3]

theorem count_pos_iff {caps : List Cap} {b : Nat} : 0 < count caps b ↔ ∃ c ∈ caps, c.bucket = b := by
  unfold count
  rw [List.countP_pos_iff]
  simp

/-! ### Order of the buckets -/

theorem insRev_perm (a : Nat → Nat) (c : Nat) (l : List Nat) : (insRev a c l).Perm (c :: l) := by
  induction l with
  | nil => exact List.Perm.refl _
  | cons x xs ih =>
    unfold insRev
    split
    · exact (List.Perm.cons x ih).trans (List.Perm.swap c x xs)
    · exact List.Perm.refl _

theorem bucketOrder_perm (be : Backend) (a : Nat → Nat) : (bucketOrder be a).Perm [0, 1, 2, 3] := by
  unfold bucketOrder
  split
  · refine (List.reverse_perm _).trans ?_
    have h1 := insRev_perm a 1 [0]
    have h2 := (insRev_perm a 2 (insRev a 1 [0])).trans (h1.cons 2)
    have h3 := (insRev_perm a 3 (insRev a 2 (insRev a 1 [0]))).trans (h2.cons 3)
    exact h3.trans (by decide)
  · exact List.Perm.refl _

theorem bucketAlign_dvd {be : Backend} {cap : Nat} {cnt : Nat → Nat} {c : Nat} : bsize c ∣ bucketAlign be cap cnt c := Nat.dvd_mul_left _ _

theorem bucketAlign_pos {be : Backend} {cap : Nat} {cnt : Nat → Nat} {c : Nat} : 0 < bucketAlign be cap cnt c := by
  unfold bucketAlign
  refine Nat.mul_pos ?_ (bsize_pos _)
  split
  · exact pickPacket_pos
  · omega

/-- Every bucket is placed once, with a multiple of its size as the alignment -/
theorem places_keys (be : Backend) (cap : Nat) (cnt : Nat → Nat) : ((places be cap cnt).map Prod.fst).Perm [0, 1, 2, 3, 4, 5, 6, 7] := by
  unfold places
  rw [List.map_append, List.map_map, List.map_map]
  have h := bucketOrder_perm be (bucketAlign be cap cnt)
  have h2 : ((bucketOrder be (bucketAlign be cap cnt)).map (Prod.fst ∘ fun b => (b, bucketAlign be cap cnt b))).Perm [0, 1, 2, 3] := by
    have e : (Prod.fst ∘ fun b => (b, bucketAlign be cap cnt b)) = id := rfl
    rw [e, List.map_id]; exact h
  exact h2.append_right _

theorem places_align {be : Backend} {cap : Nat} {cnt : Nat → Nat} {b : Nat × Nat} (h : b ∈ places be cap cnt) :
    bsize b.1 ∣ b.2 ∧ 0 < b.2 ∧ (b.1 < 4 → b.2 = bucketAlign be cap cnt b.1) := by
  unfold places at h
  rcases List.mem_append.1 h with h | h
  · obtain ⟨c, hc, rfl⟩ := List.mem_map.1 h
    exact ⟨bucketAlign_dvd, bucketAlign_pos, fun _ => rfl⟩
  · obtain ⟨c, hc, rfl⟩ := List.mem_map.1 h
    simp only [List.mem_cons, List.not_mem_nil, or_false] at hc
    refine ⟨?_, bsize_pos _, fun h => ?_⟩
    · rcases hc with rfl | rfl | rfl | rfl <;> decide
    · simp only at h; omega

/-! ### Placement of the buckets -/

/-- What is known after some buckets have been placed (`P`: their numbers).  `al` is the alignment of each
bucket. -/
structure PlaceInv (lo base : Nat) (cnt al : Nat → Nat) (P : Nat → Prop) (s : Place) : Prop where
  slotLe : ∀ b, P b → 0 < cnt b → s.slot b + cnt b ≤ s.nextSlot
  offLe : ∀ b, P b → 0 < cnt b → s.off b + cnt b * bsize b ≤ s.nextOffset
  baseLe : ∀ b, P b → 0 < cnt b → base ≤ s.off b
  next : base ≤ s.nextOffset
  aligned : ∀ b, P b → 0 < cnt b → al b ∣ s.off b
  apart : ∀ b b', P b → P b' → b ≠ b' → 0 < cnt b → 0 < cnt b' →
    (s.slot b + cnt b ≤ s.slot b' ∧ s.off b + cnt b * bsize b ≤ s.off b') ∨ (s.slot b' + cnt b' ≤ s.slot b ∧ s.off b' + cnt b' * bsize b' ≤ s.off b)
  bkt : ∀ b, P b → b < 4 → 0 < cnt b → s.bstart b = lo + s.slot b
  cend : ∀ b, P b → b < 4 → 0 < cnt b → s.off b + cnt b * bsize b ≤ base + s.cend
  cendLe : base + s.cend ≤ s.nextOffset
  bcnt : ∀ b, b < 4 → P b → s.bcount b = cnt b
  fresh : ∀ b, ¬ P b → s.bcount b = 0

theorem place_inv {lo base : Nat} {cnt al : Nat → Nat} {P : Nat → Prop} {s : Place} {b : Nat × Nat} (h : PlaceInv lo base cnt al P s)
    (hb : ¬ P b.1) (ha : b.2 = al b.1) (hp : 0 < b.2) : PlaceInv lo base cnt al (fun k => P k ∨ k = b.1) (place lo base cnt s b) := by
  unfold place
  by_cases h0 : cnt b.1 = 0
  · rw [if_pos h0]
    have hx : ∀ k, (P k ∨ k = b.1) → 0 < cnt k → P k := by
      rintro k (hk | rfl) hc
      · exact hk
      · omega
    exact ⟨fun k hk hc => h.slotLe k (hx k hk hc) hc, fun k hk hc => h.offLe k (hx k hk hc) hc, fun k hk hc => h.baseLe k (hx k hk hc) hc, h.next,
      fun k hk hc => h.aligned k (hx k hk hc) hc, fun k k' hk hk' hn hc hc' => h.apart k k' (hx k hk hc) (hx k' hk' hc') hn hc hc',
      fun k hk h4 hc => h.bkt k (hx k hk hc) h4 hc, fun k hk h4 hc => h.cend k (hx k hk hc) h4 hc, h.cendLe,
      fun k h4 hk => by
        rcases hk with hk | rfl
        · exact h.bcnt k h4 hk
        · rw [h.fresh _ hb, h0],
      fun k hk => h.fresh k (fun e => hk (Or.inl e))⟩
  · rw [if_neg h0]
    have hge := alignUp_ge (x := s.nextOffset) hp
    have hdv := dvd_alignUp s.nextOffset b.2
    obtain ⟨c, a⟩ := b
    simp only at hb ha hp h0 hge hdv
    subst ha
    have hn := h.next
    have hcl := h.cendLe
    generalize alignUp s.nextOffset (al c) = x at *
    have hP : ∀ k, (P k ∨ k = c) → k ≠ c → P k := fun k hk hn => hk.resolve_right hn
    refine ⟨fun k hk hc => ?_, fun k hk hc => ?_, fun k hk hc => ?_, ?_, fun k hk hc => ?_, fun k k' hk hk' hkk hc hc' => ?_, fun k hk h4 hc => ?_,
      fun k hk h4 hc => ?_, ?_, fun k h4 hk => ?_, fun k hk => ?_⟩
    · simp only
      by_cases e : k = c
      · rw [if_pos e, e]; exact Nat.le_refl _
      · rw [if_neg e]; have := h.slotLe k (hP k hk e) hc; omega
    · simp only
      by_cases e : k = c
      · rw [if_pos e, e]; exact Nat.le_refl _
      · rw [if_neg e]; have := h.offLe k (hP k hk e) hc; omega
    · simp only
      by_cases e : k = c
      · rw [if_pos e]; omega
      · rw [if_neg e]; exact h.baseLe k (hP k hk e) hc
    · simp only; omega
    · simp only
      by_cases e : k = c
      · rw [if_pos e, e]; exact hdv
      · rw [if_neg e]; exact h.aligned k (hP k hk e) hc
    · simp only
      by_cases e : k = c
      · by_cases e' : k' = c
        · exact absurd (e.trans e'.symm) hkk
        · rw [if_pos e, if_pos e, if_neg e', if_neg e']
          have h1 := h.slotLe k' (hP k' hk' e') hc'
          have h2 := h.offLe k' (hP k' hk' e') hc'
          exact Or.inr ⟨h1, by omega⟩
      · by_cases e' : k' = c
        · rw [if_neg e, if_neg e, if_pos e', if_pos e']
          have h1 := h.slotLe k (hP k hk e) hc
          have h2 := h.offLe k (hP k hk e) hc
          exact Or.inl ⟨h1, by omega⟩
        · rw [if_neg e, if_neg e, if_neg e', if_neg e']
          exact h.apart k k' (hP k hk e) (hP k' hk' e') hkk hc hc'
    · simp only
      by_cases e : k = c
      · rw [if_pos ⟨e, e ▸ h4⟩, if_pos e]
      · rw [if_neg (fun hx => e hx.1), if_neg e]; exact h.bkt k (hP k hk e) h4 hc
    · simp only
      by_cases e : k = c
      · subst e
        rw [if_pos rfl, if_pos h4]
        omega
      · rw [if_neg e]
        have h1 := h.cend k (hP k hk e) h4 hc
        split <;> omega
    · simp only
      split <;> omega
    · simp only
      by_cases e : k = c
      · rw [if_pos ⟨e, e ▸ h4⟩, e]
      · rw [if_neg (fun hx => e hx.1)]; exact h.bcnt k h4 (hP k hk e)
    · simp only
      have e : k ≠ c := fun e => hk (Or.inr e)
      rw [if_neg (fun hx => e hx.1)]
      exact h.fresh k (fun e => hk (Or.inl e))

theorem places_inv {lo base : Nat} {cnt al : Nat → Nat} : ∀ (l : List (Nat × Nat)) (P : Nat → Prop) (s : Place), PlaceInv lo base cnt al P s →
    (l.map Prod.fst).Nodup → (∀ b ∈ l, ¬ P b.1) → (∀ b ∈ l, b.2 = al b.1 ∧ 0 < b.2) →
    PlaceInv lo base cnt al (fun k => P k ∨ k ∈ l.map Prod.fst) (l.foldl (place lo base cnt) s)
  | [], P, s, h, _, _, _ => by
    have e : (fun k => P k ∨ k ∈ ([] : List (Nat × Nat)).map Prod.fst) = P := by funext k; simp
    rw [e]; exact h
  | b :: l, P, s, h, hnd, hP, hal => by
    rw [List.map_cons, List.nodup_cons] at hnd
    have h1 := place_inv h (hP b (List.mem_cons_self ..)) (hal b (List.mem_cons_self ..)).1 (hal b (List.mem_cons_self ..)).2
    have h2 := places_inv l (fun k => P k ∨ k = b.1) _ h1 hnd.2
      (fun c hc hx => by
        rcases hx with hx | hx
        · exact hP c (List.mem_cons_of_mem _ hc) hx
        · exact hnd.1 (hx ▸ List.mem_map_of_mem hc))
      (fun c hc => hal c (List.mem_cons_of_mem _ hc))
    have e : (fun k => P k ∨ k ∈ (b :: l).map Prod.fst) = fun k => (P k ∨ k = b.1) ∨ k ∈ l.map Prod.fst := by
      funext k; simp [or_assoc]
    rw [e, List.foldl_cons]
    exact h2

/-- The alignment of a bucket -/
def alignOf (be : Backend) (cap : Nat) (cnt : Nat → Nat) (b : Nat) : Nat := if b < 4 then bucketAlign be cap cnt b else bsize b

theorem placed_inv (p : Params) (lo dataSize : Nat) (caps : List Cap) :
    PlaceInv lo (alignUp dataSize (blockAlign p.be p.alignment p.cap caps)) (count caps) (alignOf p.be p.cap (count caps)) (fun b => b < 8)
      (placed p lo dataSize caps) := by
  have hk := places_keys p.be p.cap (count caps)
  have h := places_inv (lo := lo) (base := alignUp dataSize (blockAlign p.be p.alignment p.cap caps)) (cnt := count caps)
    (al := alignOf p.be p.cap (count caps)) (places p.be p.cap (count caps)) (fun _ => False)
    { nextOffset := alignUp dataSize (blockAlign p.be p.alignment p.cap caps) }
    ⟨fun _ h => h.elim, fun _ h => h.elim, fun _ h => h.elim, Nat.le_refl _, fun _ h => h.elim, fun _ _ h => h.elim, fun _ h => h.elim,
      fun _ h => h.elim, Nat.le_refl _, fun _ _ h => h.elim, fun _ _ => rfl⟩
    (hk.nodup_iff.2 (by decide)) (fun _ _ h => h)
    (fun b hb => by
      obtain ⟨h1, h2, h3⟩ := places_align hb
      refine ⟨?_, h2⟩
      unfold alignOf
      split
      · rename_i h4; exact h3 h4
      · rename_i h4
        unfold places at hb
        rcases List.mem_append.1 hb with hb | hb
        · obtain ⟨c, hc, rfl⟩ := List.mem_map.1 hb
          have := (bucketOrder_perm _ _).mem_iff.1 hc
          simp at this h4
          omega
        · obtain ⟨c, hc, rfl⟩ := List.mem_map.1 hb
          simp only [List.mem_cons, List.not_mem_nil, or_false] at hc
          rcases hc with rfl | rfl | rfl | rfl <;> decide)
  have e : (fun k => False ∨ k ∈ (places p.be p.cap (count caps)).map Prod.fst) = fun b => b < 8 := by
    funext k
    rw [hk.mem_iff]
    simp only [List.mem_cons, List.not_mem_nil, or_false, false_or, eq_iff_iff]
    omega
  rw [e] at h
  exact h

/-- The number of slots -/
theorem placed_slots (p : Params) (lo dataSize : Nat) (caps : List Cap) (hb : ∀ c ∈ caps, c.bucket < 8) :
    (placed p lo dataSize caps).nextSlot = caps.length := by
  have gen : ∀ (base : Nat) (l : List (Nat × Nat)) (s : Place),
      (l.foldl (place lo base (count caps)) s).nextSlot = s.nextSlot + (l.map fun b => count caps b.1).sum := by
    intro base l
    induction l with
    | nil => intro s; simp
    | cons b l ih =>
      intro s
      rw [List.foldl_cons, ih, List.map_cons, List.sum_cons]
      unfold place
      split
      · rename_i h; rw [h]; omega
      · simp only; omega
  unfold placed
  rw [gen]
  have hk := places_keys p.be p.cap (count caps)
  have e : ((places p.be p.cap (count caps)).map fun b => count caps b.1) = ((places p.be p.cap (count caps)).map Prod.fst).map (count caps) := by
    rw [List.map_map]; rfl
  rw [e, (hk.map (count caps)).sum_nat]
  simp only [List.map_cons, List.map_nil, List.sum_cons, List.sum_nil]
  clear gen e hk
  induction caps with
  | nil => simp [count]
  | cons a l ih =>
    have ih := ih (fun c hc => hb c (List.mem_cons_of_mem _ hc))
    have ha := hb a (List.mem_cons_self ..)
    unfold count at *
    simp only [List.countP_cons, List.length_cons]
    have h8 : a.bucket = 0 ∨ a.bucket = 1 ∨ a.bucket = 2 ∨ a.bucket = 3 ∨ a.bucket = 4 ∨ a.bucket = 5 ∨ a.bucket = 6 ∨ a.bucket = 7 := by omega
    rcases h8 with h | h | h | h | h | h | h | h <;> simp [h] <;> omega

end Verif.Call
