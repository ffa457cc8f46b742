import Verif.Call.LayoutProof
import Mathlib.Data.List.Nodup

/-!
# C34: the slots of an instance
-/
namespace Verif.Call

theorem count_nil (b : Nat) : count [] b = 0 := rfl

theorem count_append (l l' : List Cap) (b : Nat) : count (l ++ l') b = count l b + count l' b := List.countP_append ..

theorem count_take_lt {caps : List Cap} {k : Nat} {c : Cap} (h : caps[k]? = some c) : count (caps.take k) c.bucket < count caps c.bucket := by
  obtain ⟨hk, e⟩ := List.getElem?_eq_some_iff.1 h
  have h1 : caps = caps.take k ++ caps.drop k := (List.take_append_drop k caps).symm
  have h2 : caps.drop k = c :: caps.drop (k + 1) := by rw [List.drop_eq_getElem_cons hk, e]
  conv_rhs => rw [h1, count_append, h2]
  have : 0 < count (c :: caps.drop (k + 1)) c.bucket := count_pos_iff.2 ⟨c, List.mem_cons_self .., rfl⟩
  omega

theorem count_take_mono {caps : List Cap} {k k' : Nat} {c : Cap} (h : caps[k]? = some c) (hk : k < k') : count (caps.take k) c.bucket < count (caps.take k') c.bucket := by
  have h1 : (caps.take k').take k = caps.take k := by rw [List.take_take]; congr 1; omega
  have h2 : (caps.take k')[k]? = some c := by rw [List.getElem?_take_of_lt hk]; exact h
  have := count_take_lt h2
  rwa [h1] at this

/-- The loop moves every slot to its place -/
theorem move_spec {S O : Nat → Nat} {old : Nat → Slot} : ∀ (todo done : List Cap) (s : Move),
    (∀ b b' i j, b ≠ b' → i < count (done ++ todo) b → j < count (done ++ todo) b' → S b + i ≠ S b' + j) →
    (∀ b, s.slot b = S b + count done b) → (∀ b, s.off b = O b + count done b * bsize b) →
    (∀ (k : Nat) (c : Cap), done[k]? = some c → s.out (S c.bucket + count (done.take k) c.bucket) =
      ⟨c.ref, O c.bucket + count (done.take k) c.bucket * bsize c.bucket, c.bucket⟩) →
    ∀ (k : Nat) (c : Cap), (done ++ todo)[k]? = some c → (todo.foldl move s).out (S c.bucket + count ((done ++ todo).take k) c.bucket) =
      ⟨c.ref, O c.bucket + count ((done ++ todo).take k) c.bucket * bsize c.bucket, c.bucket⟩
  | [], done, s, _, _, _, h3 => by simpa using h3
  | a :: todo, done, s, hS, h1, h2, h3 => by
    have e : done ++ a :: todo = (done ++ [a]) ++ todo := by simp
    rw [e]
    rw [e] at hS
    rw [List.foldl_cons]
    refine move_spec (old := old) todo (done ++ [a]) (move s a) hS (fun b => ?_) (fun b => ?_) (fun k c hk => ?_)
    · unfold move
      simp only
      rw [count_append]
      by_cases hb : b = a.bucket
      · subst hb; rw [if_pos rfl, h1]; simp [count]; omega
      · rw [if_neg hb, h1]
        have : count [a] b = 0 := by unfold count; simp; exact fun e => hb e.symm
        omega
    · unfold move
      simp only
      rw [count_append]
      by_cases hb : b = a.bucket
      · subst hb
        rw [if_pos rfl, h2]
        have : count [a] a.bucket = 1 := by simp [count]
        rw [this, Nat.add_mul]; omega
      · rw [if_neg hb, h2]
        have : count [a] b = 0 := by unfold count; simp; exact fun e => hb e.symm
        rw [this, Nat.add_zero]
    · rcases Nat.lt_trichotomy k done.length with hlt | heq | hgt
      · have hd : done[k]? = some c := by rw [List.getElem?_append_left hlt] at hk; exact hk
        have ht : (done ++ [a]).take k = done.take k := by rw [List.take_append_of_le_length (by omega)]
        rw [ht]
        have := h3 k c hd
        rw [← this]
        unfold move
        simp only
        rw [h1, if_neg]
        by_cases hb : c.bucket = a.bucket
        · rw [hb]
          have := count_take_lt hd
          rw [hb] at this
          omega
        · refine hS _ _ _ _ hb ?_ ?_
          · rw [count_append, count_append]; have := count_take_lt hd; omega
          · rw [count_append, count_append]
            have : count [a] a.bucket = 1 := by simp [count]
            omega
      · subst heq
        have hc : c = a := by simpa using hk.symm
        subst hc
        have ht : (done ++ [c]).take done.length = done := by simp
        rw [ht]
        unfold move
        simp only
        rw [h1, if_pos rfl, h2]
      · rw [List.getElem?_eq_none (by simp; omega)] at hk; cases hk

/-- The position of slot `k` after the reordering -/
def posOf (S : Nat → Nat) (caps : List Cap) (k : Nat) : Nat :=
  match caps[k]? with
  | some c => S c.bucket + count (caps.take k) c.bucket
  | none => 0

/-- What a user of the layout relies on, for the slots of one instance: they are the captured values, each
at a multiple of its size, within `lo ≤ .. < hi`, by increasing offset and without overlap. -/
structure SlotsOk (caps : List Cap) (slots : List Slot) (lo hi : Nat) : Prop where
  same : (slots.map fun s => Cap.mk s.ref s.bucket).Perm caps
  aligned : ∀ s ∈ slots, bsize s.bucket ∣ s.offset
  inside : ∀ s ∈ slots, lo ≤ s.offset ∧ s.offset + bsize s.bucket ≤ hi
  disjoint : slots.Pairwise fun s t => s.offset + bsize s.bucket ≤ t.offset

theorem alignOf_dvd {be : Backend} {cap : Nat} {cnt : Nat → Nat} {b : Nat} : bsize b ∣ alignOf be cap cnt b := by
  unfold alignOf
  split
  · exact bucketAlign_dvd
  · exact Nat.dvd_refl _

/-- Where the values of an instance are, by bucket -/
theorem layout_at (p : Params) (old : Nat → Slot) (lo dataSize : Nat) (caps : List Cap) (hb : ∀ c ∈ caps, c.bucket < 8) (k : Nat) (c : Cap)
    (hk : caps[k]? = some c) :
    (layoutInstance p old lo dataSize caps).2.1[(placed p lo dataSize caps).slot c.bucket + count (caps.take k) c.bucket]? =
      some ⟨c.ref, (placed p lo dataSize caps).off c.bucket + count (caps.take k) c.bucket * bsize c.bucket, c.bucket⟩ := by
  have hi := placed_inv p lo dataSize caps
  have hn := placed_slots p lo dataSize caps hb
  have hlt := count_take_lt hk
  have hc := List.mem_of_getElem? hk
  have h1 := hi.slotLe c.bucket (hb c hc) (by omega)
  unfold layoutInstance
  simp only
  rw [List.getElem?_map, List.getElem?_range (by omega), Option.map_some]
  congr 1
  refine move_spec (S := (placed p lo dataSize caps).slot) (O := (placed p lo dataSize caps).off) (old := old) caps [] _ ?_ (fun b => by simp [count_nil])
    (fun b => by simp [count_nil]) (fun k c h => by simp at h) k c hk
  intro b b' i j hbb hi1 hj1
  rw [List.nil_append] at hi1 hj1
  have hb8 : ∀ b, 0 < count caps b → b < 8 := fun b h => by
    obtain ⟨c, hc, rfl⟩ := count_pos_iff.1 h
    exact hb c hc
  have := hi.apart b b' (hb8 b (by omega)) (hb8 b' (by omega)) hbb (by omega) (by omega)
  omega

/-- **C34 (single instance).** -/
theorem layout_slots (p : Params) (old : Nat → Slot) (lo dataSize : Nat) (caps : List Cap) (hb : ∀ c ∈ caps, c.bucket < 8)
    (ha : 0 < blockAlign p.be p.alignment p.cap caps) :
    dataSize ≤ (layoutInstance p old lo dataSize caps).1.dataOffset ∧
    SlotsOk caps (layoutInstance p old lo dataSize caps).2.1 (layoutInstance p old lo dataSize caps).1.dataOffset (layoutInstance p old lo dataSize caps).2.2 ∧
    (layoutInstance p old lo dataSize caps).1.dataOffset ≤ (layoutInstance p old lo dataSize caps).2.2 := by
  have hi := placed_inv p lo dataSize caps
  have hn := placed_slots p lo dataSize caps hb
  have hat := layout_at p old lo dataSize caps hb
  have hlen : (layoutInstance p old lo dataSize caps).2.1.length = caps.length := by
    unfold layoutInstance; simp
  have hdo : (layoutInstance p old lo dataSize caps).1.dataOffset = alignUp dataSize (blockAlign p.be p.alignment p.cap caps) := rfl
  have hno : (layoutInstance p old lo dataSize caps).2.2 = (placed p lo dataSize caps).nextOffset := rfl
  rw [hdo, hno]
  refine ⟨alignUp_ge ha, ?_, hi.next⟩
  generalize (layoutInstance p old lo dataSize caps).2.1 = L at *
  generalize placed p lo dataSize caps = pl at *
  generalize alignUp dataSize (blockAlign p.be p.alignment p.cap caps) = base at *
  have hb8 : ∀ (k : Nat) c, caps[k]? = some c → c.bucket < 8 := fun k c h => hb c (List.mem_of_getElem? h)
  have hpos : ∀ (k : Nat) c, caps[k]? = some c → posOf pl.slot caps k = pl.slot c.bucket + count (caps.take k) c.bucket := fun k c h => by
    unfold posOf; rw [h]
  have hsome : ∀ k, k < caps.length → ∃ c, caps[k]? = some c := fun k hk => ⟨caps[k], List.getElem?_eq_getElem hk⟩
  -- order of the positions and offsets
  have hord : ∀ (k k' : Nat) c c', caps[k]? = some c → caps[k']? = some c' → k ≠ k' →
      (posOf pl.slot caps k < posOf pl.slot caps k' ∧
        pl.off c.bucket + count (caps.take k) c.bucket * bsize c.bucket + bsize c.bucket ≤ pl.off c'.bucket + count (caps.take k') c'.bucket * bsize c'.bucket) ∨
      (posOf pl.slot caps k' < posOf pl.slot caps k ∧
        pl.off c'.bucket + count (caps.take k') c'.bucket * bsize c'.bucket + bsize c'.bucket ≤ pl.off c.bucket + count (caps.take k) c.bucket * bsize c.bucket) := by
    intro k k' c c' hk hk' hne
    rw [hpos k c hk, hpos k' c' hk']
    have l1 := count_take_lt hk
    have l2 := count_take_lt hk'
    by_cases hbb : c.bucket = c'.bucket
    · rw [hbb] at l1 ⊢
      have mulle : ∀ i j, i < j → i * bsize c'.bucket + bsize c'.bucket ≤ j * bsize c'.bucket := fun i j hij => by
        have := Nat.mul_le_mul_right (bsize c'.bucket) (show i + 1 ≤ j from hij)
        rwa [Nat.add_mul, Nat.one_mul] at this
      rcases Nat.lt_or_gt_of_ne hne with hlt | hgt
      · have hm := count_take_mono hk hlt
        rw [hbb] at hm
        have := mulle _ _ hm
        exact Or.inl ⟨by omega, by omega⟩
      · have hm := count_take_mono hk' hgt
        have := mulle _ _ hm
        exact Or.inr ⟨by omega, by omega⟩
    · have mulle : ∀ b i j, i < j → i * bsize b + bsize b ≤ j * bsize b := fun b i j hij => by
        have := Nat.mul_le_mul_right (bsize b) (show i + 1 ≤ j from hij)
        rwa [Nat.add_mul, Nat.one_mul] at this
      have m1 := mulle c.bucket _ _ l1
      have m2 := mulle c'.bucket _ _ l2
      rcases hi.apart c.bucket c'.bucket (hb8 k c hk) (hb8 k' c' hk') hbb (by omega) (by omega) with ⟨h1, h2⟩ | ⟨h1, h2⟩
      · exact Or.inl ⟨by omega, by omega⟩
      · exact Or.inr ⟨by omega, by omega⟩
  have hposlt : ∀ k, k < caps.length → posOf pl.slot caps k < caps.length := fun k hk => by
    obtain ⟨c, hc⟩ := hsome k hk
    rw [hpos k c hc]
    have := count_take_lt hc
    have := hi.slotLe c.bucket (hb8 k c hc) (by omega)
    omega
  have hposL : ∀ (k : Nat) c, caps[k]? = some c → L[posOf pl.slot caps k]? =
      some ⟨c.ref, pl.off c.bucket + count (caps.take k) c.bucket * bsize c.bucket, c.bucket⟩ := fun k c hk => by
    rw [hpos k c hk]; exact hat k c hk
  have hinj : ((List.range caps.length).map (posOf pl.slot caps)).Nodup := by
    refine List.Nodup.map_on ?_ List.nodup_range
    intro x hx y hy hxy
    by_contra hne
    obtain ⟨c, hc⟩ := hsome x (List.mem_range.1 hx)
    obtain ⟨c', hc'⟩ := hsome y (List.mem_range.1 hy)
    have := hord x y c c' hc hc' hne
    omega
  have hperm : ((List.range caps.length).map (posOf pl.slot caps)).Perm (List.range caps.length) := by
    refine List.Subperm.perm_of_length_le (hinj.subperm ?_) (by simp)
    intro x hx
    obtain ⟨k, hk, rfl⟩ := List.mem_map.1 hx
    exact List.mem_range.2 (hposlt k (List.mem_range.1 hk))
  have hsurj : ∀ x, x < caps.length → ∃ k, k < caps.length ∧ posOf pl.slot caps k = x := fun x hx => by
    have := hperm.mem_iff.2 (List.mem_range.2 hx)
    obtain ⟨k, hk, e⟩ := List.mem_map.1 this
    exact ⟨k, List.mem_range.1 hk, e⟩
  have hmem : ∀ s ∈ L, ∃ (k : Nat) (c : Cap), caps[k]? = some c ∧
      s = ⟨c.ref, pl.off c.bucket + count (caps.take k) c.bucket * bsize c.bucket, c.bucket⟩ := fun s hs => by
    obtain ⟨x, hx, rfl⟩ := List.mem_iff_getElem.1 hs
    obtain ⟨k, hk, e⟩ := hsurj x (by omega)
    obtain ⟨c, hc⟩ := hsome k hk
    refine ⟨k, c, hc, ?_⟩
    have := hposL k c hc
    rw [e, List.getElem?_eq_getElem hx] at this
    exact Option.some.inj this
  refine ⟨?_, ?_, ?_, ?_⟩
  · -- the same values
    have e1 : caps = (List.range caps.length).map fun k => ((L[posOf pl.slot caps k]?).map fun s => Cap.mk s.ref s.bucket).getD ⟨0, 0⟩ := by
      refine List.ext_getElem? fun k => ?_
      rw [List.getElem?_map]
      rcases Nat.lt_or_ge k caps.length with hk | hk
      · rw [List.getElem?_range hk, Option.map_some]
        obtain ⟨c, hc⟩ := hsome k hk
        rw [hposL k c hc, hc]
        rfl
      · rw [List.getElem?_eq_none hk, List.getElem?_eq_none (by simpa using hk)]; rfl
    have e2 : (L.map fun s => Cap.mk s.ref s.bucket) = (List.range caps.length).map fun x => ((L[x]?).map fun s => Cap.mk s.ref s.bucket).getD ⟨0, 0⟩ := by
      refine List.ext_getElem? fun k => ?_
      rw [List.getElem?_map, List.getElem?_map]
      rcases Nat.lt_or_ge k caps.length with hk | hk
      · rw [List.getElem?_range hk, Option.map_some, List.getElem?_eq_getElem (by omega)]; rfl
      · rw [List.getElem?_eq_none (by omega), List.getElem?_eq_none (by simpa using hk)]; rfl
    conv_rhs => rw [e1]
    rw [e2]
    have := hperm.map fun x => ((L[x]?).map fun s => Cap.mk s.ref s.bucket).getD ⟨0, 0⟩
    rw [List.map_map] at this
    exact this.symm
  · intro s hs
    obtain ⟨k, c, hc, rfl⟩ := hmem s hs
    have := count_take_lt hc
    exact Nat.dvd_add (Nat.dvd_trans alignOf_dvd (hi.aligned c.bucket (hb8 k c hc) (by omega))) (Nat.dvd_mul_left _ _)
  · intro s hs
    obtain ⟨k, c, hc, rfl⟩ := hmem s hs
    have h1 := count_take_lt hc
    have h2 := hi.baseLe c.bucket (hb8 k c hc) (by omega)
    have h3 := hi.offLe c.bucket (hb8 k c hc) (by omega)
    have := Nat.mul_le_mul_right (bsize c.bucket) (show count (caps.take k) c.bucket + 1 ≤ count caps c.bucket from h1)
    rw [Nat.add_mul, Nat.one_mul] at this
    simp only
    omega
  · rw [List.pairwise_iff_getElem]
    intro i j hi1 hj1 hij
    obtain ⟨k, hk, ek⟩ := hsurj i (by omega)
    obtain ⟨k', hk', ek'⟩ := hsurj j (by omega)
    obtain ⟨c, hc⟩ := hsome k hk
    obtain ⟨c', hc'⟩ := hsome k' hk'
    have h1 := hposL k c hc
    have h2 := hposL k' c' hc'
    rw [ek, List.getElem?_eq_getElem hi1] at h1
    rw [ek', List.getElem?_eq_getElem hj1] at h2
    rw [Option.some.inj h1, Option.some.inj h2]
    have := hord k k' c c' hc hc' (fun e => by subst e; omega)
    simp only
    omega

end Verif.Call
