import Verif.Call.UploadProof

/-! # C35: theorems about the upload of call data -/
namespace Verif.Call

open Verif.Par
open Verif.Llvm.Mem (Byte Entry aggregate C50_aggregate)

theorem layoutAll_mem (p : Params) (old : Nat → Slot) : ∀ (insts : List (List Cap)) (ls : List Layout) (slots : List Slot) (size : Nat),
    (∀ caps ∈ insts, ∀ c ∈ caps, c.bucket < 8) →
    ∀ s ∈ (layoutAll p old insts (ls, slots, size)).2.1, s ∈ slots ∨ ∃ caps ∈ insts, Cap.mk s.ref s.bucket ∈ caps
  | [], ls, slots, size, _, s, hs => Or.inl hs
  | caps :: rest, ls, slots, size, hb, s, hs => by
    rw [layoutAll] at hs
    rcases layoutAll_mem p old rest _ _ _ (fun c hc => hb c (List.mem_cons_of_mem _ hc)) s hs with h | ⟨c, hc, h⟩
    · rcases List.mem_append.1 h with h | h
      · exact Or.inl h
      · right
        have hok := (layout_slots p old slots.length size caps (hb caps (List.mem_cons_self ..)) blockAlign_pos).2.1
        exact ⟨caps, List.mem_cons_self .., hok.same.mem_iff.1 (List.mem_map.2 ⟨s, h, rfl⟩)⟩
    · exact Or.inr ⟨c, List.mem_cons_of_mem _ hc, h⟩

theorem lay_mem {e : Env} (hok : EnvOk e) {id : Nat} {s : Slot} (hs : s ∈ (e.lay id).2.1) {v : Src} (hv : e.vars s.ref = some v) :
    v.bytes = bsize s.bucket := by
  rcases layoutAll_mem e.p (e.calls id).old (e.calls id).insts [] [] 0 (fun c hc x hx => (hok.bucket id c hc x hx).1) s hs with h | ⟨c, hc, h⟩
  · cases h
  · exact (hok.bucket id c hc _ h).2 v hv

theorem mem_liveSlots {e : Env} {slots : List Slot} {base : Nat} {d : Src × Nat} (h : d ∈ liveSlots e slots base) :
    ∃ s ∈ slots, e.vars s.ref = some d.1 ∧ d.2 = base + s.offset := by
  unfold liveSlots at h
  rw [List.mem_filterMap] at h
  obtain ⟨s, hs, h⟩ := h
  rw [Option.map_eq_some_iff] at h
  obtain ⟨v, hv, rfl⟩ := h
  exact ⟨s, hs, hv, rfl⟩

theorem dataEntry_bytes (al : Nat) (s : Buf) (d : Src × Nat) : (dataEntry al s d).bytes = d.1.bytes := by
  unfold dataEntry Verif.Llvm.Mem.Entry.bytes Src.bytes
  cases d.1.ptr <;> simp

theorem valEntry_bytes (t o : Nat) (v : Option Val) : (valEntry t o v).bytes = t := by
  unfold Verif.Llvm.Mem.Entry.bytes valEntry
  rcases v with _ | _ | _ <;> simp

theorem valEntry_offset (t o : Nat) (v : Option Val) : (valEntry t o v).offset = o := by
  rcases v with _ | _ | _ <;> rfl

theorem getterEntries_eq (e : Env) (s : Buf) (id : Nat) : getterEntries e s id =
    (List.range ((e.getters id).values.length + 1)).map fun j =>
      valEntry (e.getters id).tsize (s.hdr id + j * (e.getters id).tsize) (if j = 0 then none else (e.getters id).values[j - 1]?.getD none) := by
  unfold getterEntries
  rw [List.range_succ_eq_map, List.map_cons, List.map_map]
  congr 1
  simp [valEntry]

section
variable {e : Env} {al : Nat} {evs : List Ev} {s : Buf}

theorem getter_len (e : Env) (id j : Nat) (hj : j < (e.getters id).values.length + 1) :
    j * (e.getters id).tsize + (e.getters id).tsize ≤ (Item.getter id).len e := by
  refine Nat.le_trans ?_ (alignUp_ge (by omega))
  have := Nat.mul_le_mul_right (e.getters id).tsize (show j + 1 ≤ _ from hj)
  rw [Nat.add_mul, Nat.one_mul] at this
  exact this

theorem getter_range {id : Nat} {x : Entry} (hx : x ∈ getterEntries e s id) :
    s.hdr id ≤ x.offset ∧ x.offset + x.bytes ≤ s.hdr id + (Item.getter id).len e ∧ x.bytes = (e.getters id).tsize := by
  rw [getterEntries_eq, List.mem_map] at hx
  obtain ⟨j, hj, rfl⟩ := hx
  rw [List.mem_range] at hj
  rw [valEntry_bytes, valEntry_offset]
  have := getter_len e id j hj
  exact ⟨by omega, by omega, rfl⟩

theorem getter_apart {id : Nat} : (getterEntries e s id).Pairwise Apart := by
  rw [getterEntries_eq]
  refine List.pairwise_map.2 (List.pairwise_lt_range.imp fun {i j} hij => Or.inl ?_)
  rw [valEntry_bytes, valEntry_offset, valEntry_offset]
  have := Nat.mul_le_mul_right (e.getters id).tsize (show i + 1 ≤ j from hij)
  rw [Nat.add_mul, Nat.one_mul] at this
  omega

theorem slot_range (hok : EnvOk e) (hal : 0 < e.p.alignment) {id : Nat} {t : Slot} (ht : t ∈ (e.lay id).2.1) {v : Src} (hv : e.vars t.ref = some v) :
    t.offset + v.bytes ≤ (e.lay id).2.2 := by
  rw [lay_mem hok ht hv]
  exact ((C34_layout e.p hal (e.calls id).old (e.calls id).insts fun c hc x hx => (hok.bucket id c hc x hx).1).2.1 t ht).2

theorem slots_apart (hok : EnvOk e) (hal : 0 < e.p.alignment) {id : Nat} {base : Nat} :
    ((liveSlots e (e.lay id).2.1 base).map (dataEntry al s)).Pairwise Apart := by
  refine List.pairwise_map.2 ?_
  unfold liveSlots
  refine List.pairwise_filterMap.2 ?_
  refine ((C34_layout e.p hal (e.calls id).old (e.calls id).insts fun c hc x hx => (hok.bucket id c hc x hx).1).2.2.1).imp_of_mem ?_
  intro a b ha hb h x hx y hy
  rw [Option.map_eq_some_iff] at hx hy
  obtain ⟨v, hv, rfl⟩ := hx
  obtain ⟨w, hw, rfl⟩ := hy
  refine Or.inl ?_
  rw [dataEntry_bytes]
  show base + a.offset + dataStart al s + v.bytes ≤ base + b.offset + dataStart al s
  rw [lay_mem hok ha hv]
  omega

theorem data_mem (I : BufInv e evs s) {x : Entry} (hx : x ∈ s.data.map (dataEntry al s)) :
    ∃ id ∈ starts evs, ∃ t ∈ (e.lay id).2.1, ∃ v, e.vars t.ref = some v ∧ x = dataEntry al s (v, s.dataB id + t.offset) := by
  rw [List.mem_map] at hx
  obtain ⟨d, hd, rfl⟩ := hx
  rw [I.data, List.mem_flatMap] at hd
  obtain ⟨id, hid, hd⟩ := hd
  obtain ⟨t, ht, hv, ho⟩ := mem_liveSlots hd
  refine ⟨id, hid, t, ht, d.1, hv, ?_⟩
  rw [← ho]

theorem item_apart (I : BufInv e evs s) {a b : Item} (ha : a ∈ items evs) (hb : b ∈ items evs) (hne : a ≠ b) :
    a.off s + a.len e ≤ b.off s ∨ b.off s + b.len e ≤ a.off s := by
  obtain ⟨i, hi, rfl⟩ := List.mem_iff_getElem.1 ha
  obtain ⟨j, hj, rfl⟩ := List.mem_iff_getElem.1 hb
  have hp := List.pairwise_iff_getElem.1 I.order
  rcases Nat.lt_trichotomy i j with h | h | h
  · exact Or.inl (hp i j hi hj h)
  · subst h; exact absurd rfl hne
  · exact Or.inr (hp j i hj hi h)

theorem upload_apart (hok : EnvOk e) (hal : 0 < e.p.alignment) (hal0 : 0 < al) (I : BufInv e evs s) (hs : (starts evs).Nodup) (hg : (getterIds evs).Nodup)
    (hf : (finishes evs).Perm (starts evs)) :
    (uploadEntries e al s).Pairwise Apart ∧ ∀ x ∈ uploadEntries e al s, x.offset + x.bytes ≤ total al s ∧ x.Valid := by
  have hge := alignUp_ge (x := s.offSize) hal0
  have hstart : ∀ id ∈ s.calls, id ∈ starts evs := fun id h => hf.mem_iff.1 (I.calls ▸ h)
  have hA : ∀ x ∈ s.calls.flatMap (offEntries e al s), ∃ id ∈ starts evs, x.bytes = 4 ∧ x.size = 4 ∧ (Item.call id).off s ≤ x.offset ∧
      x.offset + x.bytes ≤ (Item.call id).off s + (Item.call id).len e := by
    intro x hx
    obtain ⟨id, hid, hx⟩ := List.mem_flatMap.1 hx
    obtain ⟨h1, h2, h3, h4⟩ := mem_offEntries hx
    exact ⟨id, hstart id hid, h1, h2, h3, by rw [h1]; exact h4⟩
  have hC : ∀ x ∈ s.getters.flatMap (getterEntries e s), ∃ id ∈ getterIds evs, (Item.getter id).off s ≤ x.offset ∧
      x.offset + x.bytes ≤ (Item.getter id).off s + (Item.getter id).len e ∧ x.bytes = (e.getters id).tsize := by
    intro x hx
    obtain ⟨id, hid, hx⟩ := List.mem_flatMap.1 hx
    exact ⟨id, I.getters ▸ hid, getter_range hx⟩
  have hB : ∀ x ∈ s.data.map (dataEntry al s), dataStart al s ≤ x.offset ∧ x.offset + x.bytes ≤ total al s ∧ x.Valid := by
    intro x hx
    obtain ⟨id, hid, t, ht, v, hv, rfl⟩ := data_mem I hx
    have h1 := slot_range hok hal ht hv
    have h2 := (I.dbound id hid).1
    refine ⟨Nat.le_add_left _ _, ?_, ?_⟩
    · rw [dataEntry_bytes]
      show s.dataB id + t.offset + dataStart al s + v.bytes ≤ dataStart al s + s.dataSize
      omega
    · unfold Verif.Llvm.Mem.Entry.Valid
      rw [dataEntry_bytes, show (v, s.dataB id + t.offset).1 = v from rfl, lay_mem hok ht hv]
      rcases bsize_cases t.bucket with h | h | h | h <;> rw [h] <;> simp
  have hAend : ∀ x ∈ s.calls.flatMap (offEntries e al s), x.offset + x.bytes ≤ dataStart al s := by
    intro x hx
    obtain ⟨id, hid, h1, h2, h3, h4⟩ := hA x hx
    have := (I.bound _ (items_call.2 hid)).1
    unfold dataStart
    omega
  have hCend : ∀ x ∈ s.getters.flatMap (getterEntries e s), x.offset + x.bytes ≤ dataStart al s := by
    intro x hx
    obtain ⟨id, hid, h1, h2, h3⟩ := hC x hx
    have := (I.bound _ (items_getter.2 hid)).1
    unfold dataStart
    omega
  unfold uploadEntries
  constructor
  · refine List.pairwise_append.2 ⟨List.pairwise_append.2 ⟨?_, ?_, ?_⟩, ?_, ?_⟩
    · refine List.pairwise_flatMap.2 ⟨fun _ _ => offEntries_apart, ?_⟩
      have hnd : s.calls.Nodup := by rw [I.calls]; exact hf.nodup_iff.2 hs
      refine hnd.imp_of_mem ?_
      intro a b ha hb hne x hx y hy
      obtain ⟨p1, p2, p3, p4⟩ := mem_offEntries hx
      obtain ⟨q1, q2, q3, q4⟩ := mem_offEntries hy
      have := item_apart I (items_call.2 (hstart a ha)) (items_call.2 (hstart b hb)) (by intro h; cases h; exact hne rfl)
      unfold Apart
      unfold Item.off Item.len at this
      simp only at this
      omega
    · rw [I.data, List.map_flatMap]
      refine List.pairwise_flatMap.2 ⟨fun id _ => slots_apart hok hal, ?_⟩
      have h := I.dorder
      refine h.imp_of_mem ?_
      intro a b ha hb hab x hx y hy
      rw [List.mem_map] at hx hy
      obtain ⟨d, hd, rfl⟩ := hx
      obtain ⟨d', hd', rfl⟩ := hy
      obtain ⟨t, ht, hv, ho⟩ := mem_liveSlots hd
      obtain ⟨t', ht', hv', ho'⟩ := mem_liveSlots hd'
      have h1 := slot_range hok hal ht hv
      refine Or.inl ?_
      rw [dataEntry_bytes]
      show d.2 + dataStart al s + d.1.bytes ≤ d'.2 + dataStart al s
      omega
    · intro a ha b hb
      have h1 := hAend a ha
      have h2 := (hB b hb).1
      exact Or.inl (by omega)
    · refine List.pairwise_flatMap.2 ⟨fun _ _ => getter_apart, ?_⟩
      have hnd : s.getters.Nodup := by rw [I.getters]; exact hg
      refine hnd.imp_of_mem ?_
      intro a b ha hb hne x hx y hy
      obtain ⟨p1, p2, p3⟩ := getter_range hx
      obtain ⟨q1, q2, q3⟩ := getter_range hy
      have := item_apart I (items_getter.2 (I.getters ▸ ha)) (items_getter.2 (I.getters ▸ hb)) (by intro h; cases h; exact hne rfl)
      unfold Apart
      unfold Item.off at this
      simp only at this
      omega
    · intro a ha b hb
      rcases List.mem_append.1 ha with ha | ha
      · obtain ⟨id, hid, p1, p2, p3, p4⟩ := hA a ha
        obtain ⟨id', hid', q1, q2, q3⟩ := hC b hb
        have := item_apart I (items_call.2 hid) (items_getter.2 hid') (by intro h; cases h)
        unfold Apart
        omega
      · have h1 := hCend b hb
        have h2 := (hB a ha).1
        exact Or.inr (by omega)
  · intro x hx
    have ht : dataStart al s ≤ total al s := Nat.le_add_right _ _
    rcases List.mem_append.1 hx with hx | hx
    · rcases List.mem_append.1 hx with hx | hx
      · obtain ⟨id, hid, h1, h2, h3, h4⟩ := hA x hx
        exact ⟨Nat.le_trans (hAend x hx) ht, Or.inr (Or.inr (Or.inl h1))⟩
      · exact (hB x hx).2
    · obtain ⟨id, hid, h1, h2, h3⟩ := hC x hx
      refine ⟨Nat.le_trans (hCend x hx) ht, ?_⟩
      unfold Verif.Llvm.Mem.Entry.Valid
      rw [h3]
      exact hok.tsize id

/-- What the upload does, entry by entry -/
theorem upload_spec {workers ideal dst : Nat} (hid : 0 < ideal) (hok : EnvOk e) (hal : 0 < e.p.alignment) (hal0 : 0 < al) (I : BufInv e evs s)
    (hs : (starts evs).Nodup) (hg : (getterIds evs).Nodup) (hf : (finishes evs).Perm (starts evs))
    (hn : (uploadEntries e al s).length + ideal ≤ 2 ^ 32) (hsrc : NoSource e dst (dst + total al s)) (m : Nat → Byte) :
    (∃ m', Ends [upload workers ideal e al s dst] m m') ∧
    ∀ m', Ends [upload workers ideal e al s dst] m m' →
      (∀ x ∈ uploadEntries e al s, ∀ k, k < x.bytes → m' (dst + x.offset + k) = x.byte m k) ∧
      ∀ l, ¬ (dst ≤ l ∧ l < dst + total al s) → m' l = m l := by
  obtain ⟨hap, hin⟩ := upload_apart hok hal hal0 I hs hg hf
  have hget : ∀ i, (h : i < (uploadEntries e al s).length) → (uploadEntries e al s)[i]?.getD ⟨0, 0, 0⟩ = (uploadEntries e al s)[i] :=
    fun i h => by rw [List.getElem?_eq_getElem h, Option.getD_some]
  have hsource : ∀ x ∈ uploadEntries e al s, x.size < 0 → x.src + x.bytes ≤ dst ∨ dst + total al s ≤ x.src := by
    intro x hx hneg
    unfold uploadEntries at hx
    rcases List.mem_append.1 hx with hx | hx
    · rcases List.mem_append.1 hx with hx | hx
      · obtain ⟨id, _, hx⟩ := List.mem_flatMap.1 hx
        have := (mem_offEntries hx).2.1
        omega
      · obtain ⟨id, hid', t, ht, v, hv, rfl⟩ := data_mem I hx
        rw [dataEntry_bytes]
        cases hp : v.ptr with
        | true => exfalso; unfold dataEntry at hneg; simp [hp] at hneg
        | false =>
          have := hsrc.1 t.ref v hv hp
          unfold dataEntry Src.bytes
          simpa [hp] using this
    · obtain ⟨id, hid', hx⟩ := List.mem_flatMap.1 hx
      have hb := (getter_range hx).2.2
      rw [getterEntries_eq, List.mem_map] at hx
      obtain ⟨j, hj, rfl⟩ := hx
      rw [List.mem_range] at hj
      rw [hb]
      by_cases h0 : j = 0
      · exfalso
        rw [if_pos h0] at hneg
        unfold valEntry at hneg
        simp only at hneg
        omega
      · rw [if_neg h0] at hneg ⊢
        have hjl : j - 1 < (e.getters id).values.length := by omega
        rw [List.getElem?_eq_getElem hjl, Option.getD_some] at hneg ⊢
        rcases hval : (e.getters id).values[j - 1] with _ | _ | d
        · exfalso; rw [hval] at hneg; unfold valEntry at hneg; simp only at hneg; omega
        · exfalso; rw [hval] at hneg; unfold valEntry at hneg; simp only at hneg; omega
        · exact hsrc.2 id d (hval ▸ List.getElem_mem hjl)
  obtain ⟨_, h2, h3⟩ := C50_aggregate workers ideal dst (uploadEntries e al s).length (fun i => (uploadEntries e al s)[i]?.getD ⟨0, 0, 0⟩) hid hn
    (fun i hi => by
      show ((uploadEntries e al s)[i]?.getD ⟨0, 0, 0⟩).Valid
      rw [hget i hi]; exact (hin _ (List.getElem_mem hi)).2)
    (fun i j hi hj hij l hl hl' => by
      have hp := List.pairwise_iff_getElem.1 hap
      have hd : Apart (uploadEntries e al s)[i] (uploadEntries e al s)[j] := by
        rcases Nat.lt_or_gt_of_ne hij with h | h
        · exact hp i j hi hj h
        · exact (hp j i hj hi h).symm
      simp only [hget i hi] at hl
      simp only [hget j hj] at hl'
      obtain ⟨a1, a2⟩ := hl
      obtain ⟨b1, b2⟩ := hl'
      unfold Apart at hd
      omega)
    (fun i j hi hj l hl hl' => by
      simp only [hget i hi] at hl
      simp only [hget j hj] at hl'
      obtain ⟨a1, a2⟩ := hl
      obtain ⟨b0, b1, b2⟩ := hl'
      have := (hin _ (List.getElem_mem hi)).1
      have := hsource _ (List.getElem_mem hj) b0
      omega) m
  refine ⟨h2, fun m' hm' => ?_⟩
  obtain ⟨h4, h5⟩ := h3 m' hm'
  refine ⟨fun x hx k hk => ?_, fun l hl => h5 l fun i hi hl' => hl ?_⟩
  · obtain ⟨i, hi, rfl⟩ := List.mem_iff_getElem.1 hx
    have := h4 i k hi
    simp only [hget i hi] at this
    exact this hk
  · simp only [hget i hi] at hl'
    obtain ⟨a1, a2⟩ := hl'
    have := (hin _ (List.getElem_mem hi)).1
    omega

end

theorem mem_le_foldl_max : ∀ (l : List Nat) (a : Nat), a ≤ l.foldl max a ∧ ∀ x ∈ l, x ≤ l.foldl max a
  | [], a => ⟨Nat.le_refl _, fun _ h => (nomatch h)⟩
  | y :: l, a => by
    obtain ⟨h1, h2⟩ := mem_le_foldl_max l (max a y)
    rw [List.foldl_cons]
    refine ⟨by omega, fun x hx => ?_⟩
    rcases List.mem_cons.1 hx with rfl | hx
    · omega
    · exact h2 x hx

/-- **C35.**  An entry of the dispatch table holds the data offset and the index of the callable, for all
offsets and indices with 32 bits: the kernel recovers the index as the lower half (`trunc`) and the offset as
the upper half (`lshr 32; trunc`), llvm_eval.cpp:1758-1770. -/
theorem C35_entry (off idx : Nat) (h1 : off < 2 ^ 32) (h2 : idx < 2 ^ 32) :
    packEntry off idx < 2 ^ 64 ∧ packEntry off idx % 2 ^ 32 = idx ∧ (packEntry off idx >>> 32) % 2 ^ 32 = off ∧
    (packEntry off idx = 0 ↔ off = 0 ∧ idx = 0) := by
  rw [packEntry_eq h1 h2, Nat.shiftRight_eq_div_pow]
  omega

example : packEntry 640 3 = 0x28000000003 := by decide

/-- **C35.**  Call data of a kernel.  `evs` is any order in which calls (nested arbitrarily) and getters are
assembled, such that each of them is assembled once.  After the upload, for any schedule of the thread pool:
* only the buffer is changed;
* the table used by the code of a call is in the buffer and aligned to 8 bytes.  Entry `x` holds the index of the
  callable and the data offset of the instance with id `x`; entries of ids without instance, in particular
  the entry of id 0, are zero;
* the data block of the call is in the buffer, its start is aligned to `al`, and it holds all captured values;
* the table used by the code of a getter holds zero for id 0 and absent values, else the value of the instance.

Partial: it need not be true that each of them is assembled once (see `C35_twice`). -/
theorem C35_upload_partial (workers ideal : Nat) (hid : 0 < ideal) (e : Env) (hok : EnvOk e) (hal : 0 < e.p.alignment) (al : Nat) (hal0 : 0 < al)
    (hdvd : al ∣ e.p.alignment) (evs : List Ev) (hs : (starts evs).Nodup) (hg : (getterIds evs).Nodup) (hf : (finishes evs).Perm (starts evs))
    (hord : Ordered evs) (hsmall : total al (runBuf e evs) < 2 ^ 32) (hn : (uploadEntries e al (runBuf e evs)).length + ideal ≤ 2 ^ 32) (dst : Nat)
    (hsrc : NoSource e dst (dst + total al (runBuf e evs))) (m : Nat → Byte) :
    (∃ m', Ends [upload workers ideal e al (runBuf e evs) dst] m m') ∧
    ∀ m', Ends [upload workers ideal e al (runBuf e evs) dst] m m' →
      (∀ l, ¬ (dst ≤ l ∧ l < dst + total al (runBuf e evs)) → m' l = m l) ∧
      (∀ id base, Code.call id base ∈ (runBuf e evs).code →
        8 ∣ base ∧ base + 8 * (e.calls id).count ≤ total al (runBuf e evs) ∧ (∀ x ∈ (e.calls id).instId, x < (e.calls id).count) ∧
        (∀ x, x < (e.calls id).count → x ∉ (e.calls id).instId → readLE m' (dst + base + 8 * x) 8 = 0) ∧
        ∃ start, al ∣ start ∧ start + (e.lay id).2.2 ≤ total al (runBuf e evs) ∧
          (∀ (i x c : Nat) l, (e.calls id).instId[i]? = some x → (e.calls id).callable[i]? = some c → (e.lay id).1[i]? = some l →
            readLE m' (dst + base + 8 * x) 8 % 2 ^ 32 = c ∧ readLE m' (dst + base + 8 * x) 8 / 2 ^ 32 = start + l.dataOffset) ∧
          ∀ s ∈ (e.lay id).2.1, ∀ v, e.vars s.ref = some v → ∀ k, k < v.bytes → m' (dst + start + s.offset + k) = v.byte m k) ∧
      ∀ id base, Code.getter id base ∈ (runBuf e evs).code →
        8 ∣ base ∧ base + ((e.getters id).values.length + 1) * (e.getters id).tsize ≤ total al (runBuf e evs) ∧
        readLE m' (dst + base) (e.getters id).tsize = 0 ∧
        ∀ (j : Nat) v, (e.getters id).values[j]? = some v →
          readLE m' (dst + base + (j + 1) * (e.getters id).tsize) (e.getters id).tsize = Val.read m (e.getters id).tsize v := by
  have I := runBuf_inv hal (fun id c hc x hx => (hok.bucket id c hc x hx).1) evs hs hg hord
  generalize runBuf e evs = s at *
  obtain ⟨u1, u2⟩ := upload_spec hid hok hal hal0 I hs hg hf hn hsrc m (workers := workers)
  refine ⟨u1, fun m' hm' => ?_⟩
  obtain ⟨w1, w2⟩ := u2 m' hm'
  have hge := alignUp_ge (x := s.offSize) hal0
  refine ⟨w2, ?_, ?_⟩
  · intro id base hcode
    obtain ⟨rfl, hfin, hst⟩ := I.ccall id base hcode
    obtain ⟨hb1, hb2⟩ := I.bound _ (items_call.2 hst)
    obtain ⟨hd1, hd2⟩ := I.dbound id hst
    have hcnt : ∀ x ∈ (e.calls id).instId, x < (e.calls id).count := fun x hx => Nat.lt_succ_of_le ((mem_le_foldl_max _ 0).2 x hx)
    have hlen := hok.inst id
    -- the table
    have hread : ∀ x, x < (e.calls id).count → readLE m' (dst + s.offB id + 8 * x) 8 =
        ((offsetEntries e al s id)[x]?.getD 0) % 2 ^ 32 + 2 ^ 32 * ((((offsetEntries e al s id)[x]?.getD 0) >>> 32) % 2 ^ 32) := by
      intro x hx
      have hmem : ∀ en ∈ offEntries e al s id, en ∈ uploadEntries e al s := fun en hen =>
        List.mem_append_left _ (List.mem_append_left _ (List.mem_flatMap.2 ⟨id, I.calls ▸ hfin, hen⟩))
      have hb : ∀ (o v : Nat), (⟨4, o, v⟩ : Entry) ∈ offEntries e al s id → readLE m' (dst + o) 4 = v % 2 ^ 32 := by
        intro o v hin
        refine readLE_ofNat 4 _ _ fun k hk => ?_
        rw [w1 _ (hmem _ hin) k (by exact hk)]
        unfold Verif.Llvm.Mem.Entry.byte
        rw [if_neg (by show ¬ ((4 : Int) < 0); decide)]
      rw [readLE_8]
      have e1 := hb (s.offB id + x * 8) (((offsetEntries e al s id)[x]?.getD 0) % 2 ^ 32)
        (List.mem_flatMap.2 ⟨x, List.mem_range.2 hx, List.mem_cons_self ..⟩)
      have e2 := hb (s.offB id + x * 8 + 4) ((((offsetEntries e al s id)[x]?.getD 0) >>> 32) % 2 ^ 32)
        (List.mem_flatMap.2 ⟨x, List.mem_range.2 hx, List.mem_cons_of_mem _ (List.mem_cons_self ..)⟩)
      rw [Nat.mod_mod] at e1 e2
      rw [show dst + s.offB id + 8 * x = dst + (s.offB id + x * 8) by omega, e1,
        show dst + (s.offB id + x * 8) + 4 = dst + (s.offB id + x * 8 + 4) by omega, e2]
    obtain ⟨f1, f2, f3⟩ := foldl_set (hok.nodup id)
      (g := fun i => packEntry (dataStart al s + s.dataB id + (((e.lay id).1[i]?.map Layout.dataOffset).getD 0)) ((e.calls id).callable[i]?.getD 0))
      (es := List.replicate (e.calls id).count 0) (fun x hx => by rw [List.length_replicate]; exact hcnt x hx) (e.calls id).instId.length (Nat.le_refl _)
    refine ⟨hb2, ?_, hcnt, ?_, dataStart al s + s.dataB id, ?_, ?_, ?_, ?_⟩
    · show s.offB id + 8 * _ ≤ _
      unfold Item.off Item.len at hb1
      simp only at hb1
      unfold total dataStart
      omega
    · intro x hx hni
      rw [hread x hx]
      have : (offsetEntries e al s id)[x]? = _ := f3 x fun i _ h => hni (List.mem_of_getElem? h)
      rw [this, List.getElem?_replicate, if_pos hx]
      rfl
    · exact Nat.dvd_add (dvd_alignUp _ _) (Nat.dvd_trans hdvd hd2)
    · unfold total
      omega
    · intro i x c l hx hc hl
      have hi : i < (e.calls id).instId.length := by
        by_contra h
        rw [List.getElem?_eq_none (by omega)] at hx
        cases hx
      have hxc := hcnt x (List.mem_of_getElem? hx)
      rw [hread x hxc]
      have hval : (offsetEntries e al s id)[x]? = _ := f2 i x hi hx
      rw [hval, hc, hl, Option.map_some, Option.getD_some, Option.getD_some, Option.getD_some]
      have hcb := hok.callable id c (List.mem_of_getElem? hc)
      have hlo : dataStart al s + s.dataB id + l.dataOffset < 2 ^ 32 := by
        have : l.dataOffset ≤ (e.lay id).2.2 := by
          obtain ⟨ls', slots', h1, h2, h3, h4, h5, h6, h7⟩ := layoutAll_spec e.p (e.calls id).old (e.calls id).insts [] [] 0
            (fun c hc x hx => (hok.bucket id c hc x hx).1)
          simp only [List.nil_append] at h1 h2 h7
          have hil : i < (e.calls id).insts.length := by rw [hlen.1]; exact hi
          obtain ⟨pre, post, ds, k1, k2, k3⟩ := h7 i _ (List.getElem?_eq_getElem hil)
          have hl' : ls'[i]? = some l := by rw [← h1]; exact hl
          rw [hl'] at k1
          cases k1
          have g := (layout_slots e.p (e.calls id).old pre.length ds (e.calls id).insts[i] (fun c hc => (hok.bucket id _ (List.getElem_mem hil) c hc).1) blockAlign_pos).2.2
          refine Nat.le_trans (Nat.le_trans g k3) ?_
          exact alignUp_ge hal
        unfold total at hsmall
        omega
      obtain ⟨q1, q2, q3, q4⟩ := C35_entry _ c hlo hcb
      rw [q2, q3]
      omega
    · intro t ht v hv k hk
      have hmem : dataEntry al s (v, s.dataB id + t.offset) ∈ uploadEntries e al s := by
        refine List.mem_append_left _ (List.mem_append_right _ (List.mem_map.2 ⟨_, ?_, rfl⟩))
        rw [I.data, List.mem_flatMap]
        refine ⟨id, hst, ?_⟩
        unfold liveSlots
        rw [List.mem_filterMap]
        exact ⟨t, ht, by rw [hv]; rfl⟩
      have := w1 _ hmem k (by rw [dataEntry_bytes]; exact hk)
      have ho : (dataEntry al s (v, s.dataB id + t.offset)).offset = s.dataB id + t.offset + dataStart al s := rfl
      rw [ho] at this
      rw [show dst + (dataStart al s + s.dataB id) + t.offset + k = dst + (s.dataB id + t.offset + dataStart al s) + k by omega, this]
      have hpos := bsize_pos t.bucket
      rw [← lay_mem hok ht hv] at hpos
      unfold dataEntry Verif.Llvm.Mem.Entry.byte Src.byte
      unfold Src.bytes at hpos
      cases hp : v.ptr with
      | true => simp
      | false =>
        rw [hp] at hpos
        simp only [Bool.false_eq_true, if_false] at hpos ⊢
        rw [if_pos (by omega)]
  · intro id base hcode
    obtain ⟨rfl, hgi⟩ := I.cget id base hcode
    obtain ⟨hb1, hb2⟩ := I.bound _ (items_getter.2 hgi)
    have hmem : ∀ en ∈ getterEntries e s id, en ∈ uploadEntries e al s := fun en hen =>
      List.mem_append_right _ (List.mem_flatMap.2 ⟨id, I.getters ▸ hgi, hen⟩)
    have htp : 0 < (e.getters id).tsize := by rcases hok.tsize id with h | h | h | h <;> omega
    have hread : ∀ (j : Nat) (v : Option Val), valEntry (e.getters id).tsize (s.hdr id + j * (e.getters id).tsize) v ∈ getterEntries e s id →
        readLE m' (dst + s.hdr id + j * (e.getters id).tsize) (e.getters id).tsize = Val.read m (e.getters id).tsize v := by
      intro j v hin
      have hw := w1 _ (hmem _ hin)
      rw [valEntry_bytes, valEntry_offset] at hw
      rw [Nat.add_assoc]
      unfold Verif.Llvm.Mem.Entry.byte at hw
      rcases v with _ | v | d
      · refine (readLE_ofNat _ _ 0 fun k hk => ?_).trans (Nat.zero_mod _)
        rw [hw k hk]
        unfold valEntry
        simp only
        rw [if_neg (by omega)]
      · refine readLE_ofNat _ _ v fun k hk => ?_
        rw [hw k hk]
        unfold valEntry
        simp only
        rw [if_neg (by omega)]
      · refine readLE_congr _ _ _ fun k hk => ?_
        rw [hw k hk]
        unfold valEntry
        simp only
        rw [if_pos (by omega)]
    refine ⟨hb2, ?_, ?_, ?_⟩
    · have := alignUp_ge (x := ((e.getters id).values.length + 1) * (e.getters id).tsize) (a := 8) (by omega)
      unfold Item.off Item.len at hb1
      simp only at hb1
      unfold total dataStart
      omega
    · have := hread 0 none (by rw [getterEntries_eq]; exact List.mem_map.2 ⟨0, List.mem_range.2 (by omega), by rw [if_pos rfl]⟩)
      rw [Nat.zero_mul, Nat.add_zero] at this
      exact this
    · intro j v hv
      refine hread (j + 1) v ?_
      rw [getterEntries_eq]
      have hjl : j < (e.getters id).values.length := by
        by_contra h
        rw [List.getElem?_eq_none (by omega)] at hv
        cases hv
      refine List.mem_map.2 ⟨j + 1, List.mem_range.2 (by omega), ?_⟩
      rw [if_neg (by omega), Nat.add_sub_cancel, hv, Option.getD_some]

end Verif.Call
