import Verif.Call.LayoutMove

/-!
# C34: properties of the layout of a virtual function call
-/
namespace Verif.Call

theorem blockAlign_pos {be : Backend} {al cap : Nat} {caps : List Cap} : 0 < blockAlign be al cap caps := by
  have h := (pow2_maxField caps).pos
  unfold blockAlign
  split
  · have gen : ∀ (l : List Nat) (m : Nat), 0 < m → 0 < l.foldl (fun a c => if count caps c = 0 then a else max a (bucketAlign be cap (count caps) c)) m := by
      intro l
      induction l with
      | nil => intro m h; exact h
      | cons a l ih => intro m h; rw [List.foldl_cons]; refine ih _ ?_; split <;> omega
    exact gen _ _ h
  · omega

/-- A part of the slots, with the layout of its instance -/
theorem layoutAll_spec (p : Params) (old : Nat → Slot) : ∀ (insts : List (List Cap)) (ls : List Layout) (slots : List Slot) (size : Nat),
    (∀ caps ∈ insts, ∀ c ∈ caps, c.bucket < 8) →
    ∃ ls' slots', (layoutAll p old insts (ls, slots, size)).1 = ls ++ ls' ∧ (layoutAll p old insts (ls, slots, size)).2.1 = slots ++ slots' ∧
      size ≤ (layoutAll p old insts (ls, slots, size)).2.2 ∧ ls'.length = insts.length ∧
      (slots'.Pairwise fun s t => s.offset + bsize s.bucket ≤ t.offset) ∧
      (∀ s ∈ slots', size ≤ s.offset ∧ s.offset + bsize s.bucket ≤ (layoutAll p old insts (ls, slots, size)).2.2) ∧
      ∀ (i : Nat) caps, insts[i]? = some caps → ∃ pre post ds, ls'[i]? = some (layoutInstance p old pre.length ds caps).1 ∧
        slots ++ slots' = pre ++ (layoutInstance p old pre.length ds caps).2.1 ++ post ∧
        (layoutInstance p old pre.length ds caps).2.2 ≤ (layoutAll p old insts (ls, slots, size)).2.2
  | [], ls, slots, size, _ => ⟨[], [], by simp [layoutAll]⟩
  | caps :: rest, ls, slots, size, hb => by
    have hlay := layout_slots p old slots.length size caps (hb caps (List.mem_cons_self ..)) blockAlign_pos
    obtain ⟨ls', slots', h1, h2, h3, h4, h5, h6, h7⟩ := layoutAll_spec p old rest (ls ++ [(layoutInstance p old slots.length size caps).1])
      (slots ++ (layoutInstance p old slots.length size caps).2.1) (layoutInstance p old slots.length size caps).2.2
      (fun c hc => hb c (List.mem_cons_of_mem _ hc))
    have e : layoutAll p old (caps :: rest) (ls, slots, size) = layoutAll p old rest (ls ++ [(layoutInstance p old slots.length size caps).1],
      slots ++ (layoutInstance p old slots.length size caps).2.1, (layoutInstance p old slots.length size caps).2.2) := rfl
    rw [e]
    obtain ⟨g1, g2, g3⟩ := hlay
    generalize hR : layoutInstance p old slots.length size caps = R at *
    refine ⟨R.1 :: ls', R.2.1 ++ slots', by rw [h1]; simp, by rw [h2]; simp, by omega, by simp [h4], ?_, ?_, ?_⟩
    · refine List.pairwise_append.2 ⟨g2.disjoint, h5, fun s hs t ht => ?_⟩
      have := (g2.inside s hs).2
      have := (h6 t ht).1
      omega
    · intro s hs
      rcases List.mem_append.1 hs with hs | hs
      · have := g2.inside s hs; omega
      · have := h6 s hs; omega
    · intro i c hi
      cases i with
      | zero =>
        simp only [List.getElem?_cons_zero, Option.some.injEq] at hi
        subst hi
        refine ⟨slots, slots', size, ?_, ?_, ?_⟩
        · rw [hR]; rfl
        · rw [hR]; simp
        · rw [hR]; exact h3
      | succ i =>
        rw [List.getElem?_cons_succ] at hi
        obtain ⟨pre, post, ds, k1, k2, k3⟩ := h7 i c hi
        refine ⟨pre, post, ds, ?_, ?_, k3⟩
        · rw [List.getElem?_cons_succ]; exact k1
        · rw [← List.append_assoc]; exact k2

/-- **C34.**  The size that the layout assumes for a value is the size of its type. -/
theorem C34_bucket_size (pktOk : Bool) (size : Nat) (h : size = 1 ∨ size = 2 ∨ size = 4 ∨ size = 8) :
    bucketOf pktOk size < 8 ∧ bsize (bucketOf pktOk size) = size ∧ (bucketOf pktOk size < 4 ↔ pktOk = true) := by
  rcases h with rfl | rfl | rfl | rfl <;> cases pktOk <;> decide

/-- **C34.**  Layout of the values captured by all instances of a call:
* the slots of instance `i` (as recorded in its layout) hold exactly the values captured by it, all at or
  after the start of the data block of the instance;
* every slot is at a multiple of the size of its value and within the data block of the call;
* the slots of all instances are in increasing order and do not overlap. -/
theorem C34_layout (p : Params) (hal : 0 < p.alignment) (old : Nat → Slot) (insts : List (List Cap)) (hb : ∀ caps ∈ insts, ∀ c ∈ caps, c.bucket < 8) :
    (∀ (i : Nat) caps, insts[i]? = some caps → ∃ l, (layoutCall p old insts).1[i]? = some l ∧ l.slotCount = caps.length ∧
      ((((layoutCall p old insts).2.1.drop l.slotStart).take l.slotCount).map fun s => Cap.mk s.ref s.bucket).Perm caps ∧
      ∀ s ∈ ((layoutCall p old insts).2.1.drop l.slotStart).take l.slotCount, l.dataOffset ≤ s.offset) ∧
    (∀ s ∈ (layoutCall p old insts).2.1, bsize s.bucket ∣ s.offset ∧ s.offset + bsize s.bucket ≤ (layoutCall p old insts).2.2) ∧
    ((layoutCall p old insts).2.1.Pairwise fun s t => s.offset + bsize s.bucket ≤ t.offset) ∧
    (layoutCall p old insts).1.length = insts.length ∧ ((layoutCall p old insts).2.1.length = (insts.map List.length).sum) ∧
    p.alignment ∣ (layoutCall p old insts).2.2 := by
  obtain ⟨ls', slots', h1, h2, h3, h4, h5, h6, h7⟩ := layoutAll_spec p old insts [] [] 0 hb
  simp only [List.nil_append] at h1 h2 h7
  have e1 : (layoutCall p old insts).1 = ls' := h1
  have e2 : (layoutCall p old insts).2.1 = slots' := h2
  have e3 : (layoutCall p old insts).2.2 = alignUp (layoutAll p old insts ([], [], 0)).2.2 p.alignment := rfl
  rw [e1, e2, e3]
  have hge := alignUp_ge (x := (layoutAll p old insts ([], [], 0)).2.2) hal
  refine ⟨fun i caps hi => ?_, fun s hs => ⟨?_, ?_⟩, h5, h4, ?_, dvd_alignUp _ _⟩
  · obtain ⟨pre, post, ds, k1, k2, k3⟩ := h7 i caps hi
    refine ⟨_, k1, rfl, ?_⟩
    obtain ⟨g1, g2, g3⟩ := layout_slots p old pre.length ds caps (hb caps (List.mem_of_getElem? hi)) blockAlign_pos
    have hlen : (layoutInstance p old pre.length ds caps).2.1.length = caps.length := by unfold layoutInstance; simp
    have e : (slots'.drop (layoutInstance p old pre.length ds caps).1.slotStart).take (layoutInstance p old pre.length ds caps).1.slotCount =
        (layoutInstance p old pre.length ds caps).2.1 := by
      have es : (layoutInstance p old pre.length ds caps).1.slotStart = pre.length := rfl
      have ec : (layoutInstance p old pre.length ds caps).1.slotCount = caps.length := rfl
      rw [es, ec, k2, List.append_assoc, List.drop_left, ← hlen, List.take_left]
    rw [e]
    exact ⟨g2.same, fun s hs => (g2.inside s hs).1⟩
  · -- alignment: every slot belongs to an instance
    clear h7 h5 h6 e1 e2 e3 h1 h4
    have gen : ∀ (insts : List (List Cap)) (ls : List Layout) (slots : List Slot) (size : Nat), (∀ caps ∈ insts, ∀ c ∈ caps, c.bucket < 8) →
        (∀ s ∈ slots, bsize s.bucket ∣ s.offset) → ∀ s ∈ (layoutAll p old insts (ls, slots, size)).2.1, bsize s.bucket ∣ s.offset := by
      intro insts
      induction insts with
      | nil => intro ls slots size _ h s hs; exact h s hs
      | cons caps rest ih =>
        intro ls slots size hb h s hs
        refine ih _ _ _ (fun c hc => hb c (List.mem_cons_of_mem _ hc)) ?_ s hs
        intro t ht
        rcases List.mem_append.1 ht with ht | ht
        · exact h t ht
        · exact (layout_slots p old slots.length size caps (hb caps (List.mem_cons_self ..)) blockAlign_pos).2.1.aligned t ht
    exact gen insts [] [] 0 hb (fun s hs => by cases hs) s (h2 ▸ hs)
  · have := (h6 s hs).2; omega
  · rw [← h2]
    clear h7 h5 h6 e1 e2 e3 h1 h2 h3 h4 hge hb
    have gen : ∀ (insts : List (List Cap)) (ls : List Layout) (slots : List Slot) (size : Nat),
        (layoutAll p old insts (ls, slots, size)).2.1.length = slots.length + (insts.map List.length).sum := by
      intro insts
      induction insts with
      | nil => intro ls slots size; simp [layoutAll]
      | cons caps rest ih =>
        intro ls slots size
        have := ih (ls ++ [(layoutInstance p old slots.length size caps).1]) (slots ++ (layoutInstance p old slots.length size caps).2.1)
          (layoutInstance p old slots.length size caps).2.2
        have e : layoutAll p old (caps :: rest) (ls, slots, size) = layoutAll p old rest (ls ++ [(layoutInstance p old slots.length size caps).1],
          slots ++ (layoutInstance p old slots.length size caps).2.1, (layoutInstance p old slots.length size caps).2.2) := rfl
        rw [e, this]
        have hlen : (layoutInstance p old slots.length size caps).2.1.length = caps.length := by unfold layoutInstance; simp
        simp [hlen]
        omega
    have := gen insts [] [] 0
    simpa using this

/-! ### Runs of slots of the same size -/

/-- The element with a given rank in its bucket -/
theorem exists_rank {caps : List Cap} {b j : Nat} (h : j < count caps b) : ∃ (k : Nat) (c : Cap), caps[k]? = some c ∧ c.bucket = b ∧ count (caps.take k) b = j := by
  induction caps generalizing j with
  | nil => simp [count] at h
  | cons a l ih =>
    by_cases ha : a.bucket = b
    · cases j with
      | zero => exact ⟨0, a, rfl, ha, by simp [count]⟩
      | succ j =>
        have : j < count l b := by
          unfold count at *; rw [List.countP_cons] at h; simp [ha] at h; omega
        obtain ⟨k, c, h1, h2, h3⟩ := ih this
        refine ⟨k + 1, c, by simpa using h1, h2, ?_⟩
        unfold count at *
        rw [List.take_succ_cons, List.countP_cons, h3]
        simp [ha]
    · have : j < count l b := by
        unfold count at *; rw [List.countP_cons] at h; simp [ha] at h; omega
      obtain ⟨k, c, h1, h2, h3⟩ := ih this
      refine ⟨k + 1, c, by simpa using h1, h2, ?_⟩
      unfold count at *
      rw [List.take_succ_cons, List.countP_cons, h3]
      simp [ha]

theorem layout_run (p : Params) (old : Nat → Slot) (lo dataSize : Nat) (caps : List Cap) (hb : ∀ c ∈ caps, c.bucket < 8) {b j : Nat}
    (h : j < count caps b) : ∃ ref, (layoutInstance p old lo dataSize caps).2.1[(placed p lo dataSize caps).slot b + j]? =
      some ⟨ref, (placed p lo dataSize caps).off b + j * bsize b, b⟩ := by
  obtain ⟨k, c, h1, h2, h3⟩ := exists_rank h
  have := layout_at p old lo dataSize caps hb k c h1
  rw [h2, h3] at this
  exact ⟨_, this⟩

/-! ### Packet loads -/

theorem packets_spec {cap s rel0 k n : Nat} (hcap : Pow2 cap) : ∀ (m pos : Nat), n - pos = m → pos ≤ n →
    (∀ q ∈ (packets cap s rel0 k n pos).1, ∃ i, q.off = rel0 + i * s ∧ q.slot = k + i ∧ i + q.valid ≤ n ∧ q.valid ≤ q.n ∧ 0 < q.valid ∧
      Pow2 q.n ∧ q.n ≤ pickPacket (n - pos) cap ∧ (pickPacket (n - pos) cap ∣ pos → q.n ∣ i)) ∧
    pos ≤ (packets cap s rel0 k n pos).2 ∧ (packets cap s rel0 k n pos).2 ≤ n ∧
    (packets cap s rel0 k n pos).1.flatMap (fun q => List.range' q.slot q.valid) = List.range' (k + pos) ((packets cap s rel0 k n pos).2 - pos) := by
  intro m
  induction m using Nat.strongRecOn with
  | _ m ih =>
    intro pos hm hpos
    rw [packets]
    by_cases h : pos < n ∧ 2 ≤ pickPacket (n - pos) cap
    · rw [dif_pos h]
      simp only
      generalize hp : pickPacket (n - pos) cap = p at *
      have hv : 0 < min (n - pos) p := by omega
      obtain ⟨h1, h2, h3, h4⟩ := ih (n - (pos + min (n - pos) p)) (by omega) (pos + min (n - pos) p) rfl (by omega)
      have hp2 : Pow2 p := hp ▸ pow2_pickPacket hcap
      refine ⟨fun q hq => ?_, by omega, h3, ?_⟩
      · rcases List.mem_cons.1 hq with rfl | hq
        · exact ⟨pos, rfl, rfl, by simp only; omega, by simp only; omega, hv, hp2, Nat.le_refl _, fun hd => hd⟩
        · obtain ⟨i, g1, g2, g3, g4, g5, g6, g7, g8⟩ := h1 q hq
          -- another packet exists, hence this one is full
          by_cases hfull : p ≤ n - pos
          · have hmin : min (n - pos) p = p := by omega
            rw [hmin] at g7 g8
            have hmono : pickPacket (n - (pos + p)) cap ≤ p := by
              rw [← hp]; exact pickPacket_mono (by omega) hcap.pos
            have hpd : pickPacket (n - (pos + p)) cap ∣ p := (pow2_pickPacket hcap).dvd hp2 hmono
            refine ⟨i, g1, g2, g3, g4, g5, g6, Nat.le_trans g7 hmono, fun hd => ?_⟩
            exact g8 (Nat.dvd_trans hpd (Nat.dvd_add hd (Nat.dvd_refl _)))
          · exfalso
            have hmin : pos + min (n - pos) p = n := by omega
            rw [hmin] at hq
            rw [packets, dif_neg (by omega)] at hq
            cases hq
      · rw [List.flatMap_cons, h4]
        rw [show k + (pos + min (n - pos) p) = (k + pos) + min (n - pos) p by omega, List.range'_append_1]
        congr 1
        show min (n - pos) p + _ = _
        omega
    · rw [dif_neg h]
      exact ⟨fun q hq => (nomatch hq), Nat.le_refl _, hpos, by simp⟩

theorem runLen_le (f : Nat → Bool) (k n : Nat) : runLen f k n ≤ n := by
  induction n with
  | zero => exact Nat.le_refl _
  | succ n ih => unfold runLen; split <;> omega

theorem runLen_spec (f : Nat → Bool) (k : Nat) : ∀ n i, i < n → f (k + i) = true → i < runLen f k n
  | n + 1, i, h, hf => by
    unfold runLen
    split
    · omega
    · rename_i h2
      rcases Nat.lt_or_ge i n with h3 | h3
      · exact runLen_spec f k n i h3 hf
      · have : i = n := by omega
        subst this
        exact absurd hf h2

theorem pow2_packetCap {w : Nat} (h : Pow2 w) : Pow2 (packetCap w) := by
  unfold packetCap
  exact Pow2.max ⟨0, rfl⟩ (Pow2.min ⟨3, rfl⟩ h)

theorem end_le {x q A e : Nat} (hA : 0 < A) (h1 : q ∣ x) (h2 : q ∣ A) (h3 : x < e) : x + q ≤ alignUp e A := by
  have h4 := alignUp_ge (x := e) hA
  have h5 : q ∣ alignUp e A := Nat.dvd_trans h2 (dvd_alignUp _ _)
  obtain ⟨a, rfl⟩ := h1
  obtain ⟨b, hb⟩ := h5
  rw [hb] at h4 ⊢
  rw [show q * a + q = q * (a + 1) by rw [Nat.mul_add, Nat.mul_one]]
  refine Nat.mul_le_mul_left q ?_
  by_contra hc
  have : q * b ≤ q * a := Nat.mul_le_mul_left q (by omega)
  omega

/-- **C34.**  Packet loads of the LLVM backend, for any set of values that are actually used.  Let `start` be
the address of the data block of the call (a multiple of the alignment of the block):
* the address of a packet is a multiple of its size, and all of it is in the data block of the call, even if
  it extends beyond the values;
* element `j` of a packet is exactly the value in slot `slot + j`;
* the packets of a bucket cover a prefix of its slots, once, and the slots that remain are those starting
  from `packetized_until`; the bucket consists of all slots of this size. -/
theorem C34_packets (width : Nat) (hw : Pow2 width) (old : Nat → Slot) (insts : List (List Cap)) (hb : ∀ caps ∈ insts, ∀ c ∈ caps, c.bucket < 8)
    (i : Nat) (caps : List Cap) (hi : insts[i]? = some caps) (c : Nat) (hc : c < 4) (loadable : Nat → Bool) (start : Nat)
    (hstart : (params .llvm width false).alignment ∣ start) :
    ∃ l, (layoutCall (params .llvm width false) old insts).1[i]? = some l ∧
      (∀ q ∈ (renderBucket width (layoutCall (params .llvm width false) old insts).2.1 l loadable c).1,
        (start + l.dataOffset + q.off) % (q.n * bsize c) = 0 ∧
        l.dataOffset + q.off + q.n * bsize c ≤ (layoutCall (params .llvm width false) old insts).2.2 ∧ q.valid ≤ q.n ∧
        ∀ j, j < q.valid → ∃ s, (layoutCall (params .llvm width false) old insts).2.1[q.slot + j]? = some s ∧ s.bucket = c ∧
          s.offset = l.dataOffset + q.off + j * bsize c) ∧
      (renderBucket width (layoutCall (params .llvm width false) old insts).2.1 l loadable c).1.flatMap (fun q => List.range' q.slot q.valid) =
        List.range' (l.bstart c) ((renderBucket width (layoutCall (params .llvm width false) old insts).2.1 l loadable c).2 - l.bstart c) ∧
      l.bstart c ≤ (renderBucket width (layoutCall (params .llvm width false) old insts).2.1 l loadable c).2 ∧
      ∀ (x : Nat) s, l.slotStart ≤ x → x < l.slotStart + l.slotCount → (layoutCall (params .llvm width false) old insts).2.1[x]? = some s →
        s.bucket = c → l.bstart c ≤ x ∧ x < l.bstart c + l.bcount c := by
  obtain ⟨ls', slots', h1, h2, h3, h4, h5, h6, h7⟩ := layoutAll_spec (params .llvm width false) old insts [] [] 0 hb
  simp only [List.nil_append] at h1 h2 h7
  obtain ⟨pre, post, ds, k1, k2, k3⟩ := h7 i caps hi
  have hcb := hb caps (List.mem_of_getElem? hi)
  have e1 : (layoutCall (params .llvm width false) old insts).1 = ls' := h1
  have e2 : (layoutCall (params .llvm width false) old insts).2.1 = slots' := h2
  have e3 : (layoutCall (params .llvm width false) old insts).2.2 =
    alignUp (layoutAll (params .llvm width false) old insts ([], [], 0)).2.2 (params .llvm width false).alignment := rfl
  rw [e1, e2, e3]
  have hA : (params .llvm width false).alignment = packetCap width * 8 := rfl
  have hcapp : (params .llvm width false).cap = packetCap width := rfl
  have hbe : (params .llvm width false).be = .llvm := rfl
  generalize params .llvm width false = P at *
  have hcap2 := pow2_packetCap hw
  have hApos : 0 < P.alignment := by rw [hA]; exact Nat.mul_pos hcap2.pos (by omega)
  generalize (layoutAll P old insts ([], [], 0)).2.2 = E at *
  have hrun := fun {b j} => layout_run P old pre.length ds caps hcb (b := b) (j := j)
  have hinv := placed_inv P pre.length ds caps
  have hn := placed_slots P pre.length ds caps hcb
  have hlen : (layoutInstance P old pre.length ds caps).2.1.length = caps.length := by unfold layoutInstance; simp
  refine ⟨_, k1, ?_⟩
  have d1 : (layoutInstance P old pre.length ds caps).1.dataOffset = alignUp ds (blockAlign P.be P.alignment P.cap caps) := rfl
  have d2 : (layoutInstance P old pre.length ds caps).1.bstart = (placed P pre.length ds caps).bstart := rfl
  have d3 : (layoutInstance P old pre.length ds caps).1.bcount = (placed P pre.length ds caps).bcount := rfl
  have d4 : (layoutInstance P old pre.length ds caps).2.2 = (placed P pre.length ds caps).nextOffset := rfl
  have d5 : (layoutInstance P old pre.length ds caps).1.slotStart = pre.length := rfl
  have d6 : (layoutInstance P old pre.length ds caps).1.slotCount = caps.length := rfl
  have hperm := (layout_slots P old pre.length ds caps hcb blockAlign_pos).2.1
  have hat := layout_at P old pre.length ds caps hcb
  have hslot : ∀ x, x < caps.length → slots'[pre.length + x]? = (layoutInstance P old pre.length ds caps).2.1[x]? := fun x hx => by
    rw [k2, List.append_assoc, List.getElem?_append_right (by omega), List.getElem?_append_left (by omega)]
    congr 1; omega
  have hrender : renderBucket width slots' (layoutInstance P old pre.length ds caps).1 loadable c =
    (if (placed P pre.length ds caps).bcount c = 0 then ([], (placed P pre.length ds caps).bstart c)
    else if runLen loadable ((placed P pre.length ds caps).bstart c) ((placed P pre.length ds caps).bcount c) = 0 then ([], (placed P pre.length ds caps).bstart c)
    else ((packets (min width 8) (bsize c) (((slots'[(placed P pre.length ds caps).bstart c]?.map Slot.offset).getD 0) - alignUp ds (blockAlign P.be P.alignment P.cap caps))
        ((placed P pre.length ds caps).bstart c) (runLen loadable ((placed P pre.length ds caps).bstart c) ((placed P pre.length ds caps).bcount c)) 0).1,
      (placed P pre.length ds caps).bstart c + (packets (min width 8) (bsize c) (((slots'[(placed P pre.length ds caps).bstart c]?.map Slot.offset).getD 0) - alignUp ds (blockAlign P.be P.alignment P.cap caps))
        ((placed P pre.length ds caps).bstart c) (runLen loadable ((placed P pre.length ds caps).bstart c) ((placed P pre.length ds caps).bcount c)) 0).2)) := rfl
  rw [hrender]
  rw [d1, d2, d3, d5, d6]
  rw [d4] at k3
  generalize alignUp ds (blockAlign P.be P.alignment P.cap caps) = base at *
  generalize hpl : placed P pre.length ds caps = pl at *
  generalize (layoutInstance P old pre.length ds caps).2.1 = L at *
  have hbc := hinv.bcnt c hc (by omega)
  rw [hbc]
  have hbk : 0 < count caps c → pl.bstart c = pre.length + pl.slot c := hinv.bkt c (by omega) hc
  refine ⟨?_, ?_, ?_, ?_⟩
  rotate_left 3
  · -- the bucket consists of all slots of this size
    intro x s hx1 hx2 hs hsb
    obtain ⟨y, rfl⟩ : ∃ y, x = pre.length + y := ⟨x - pre.length, by omega⟩
    rw [hslot y (by omega)] at hs
    have hmem : (⟨s.ref, c⟩ : Cap) ∈ caps := by
      refine hperm.same.mem_iff.1 (List.mem_map.2 ⟨s, List.mem_of_getElem? hs, ?_⟩)
      rw [hsb]
    have hcp : 0 < count caps c := count_pos_iff.2 ⟨_, hmem, rfl⟩
    rw [hbk hcp]
    -- the offset of the slot is in the range of the bucket, hence also the index
    have hpw := List.pairwise_iff_getElem.1 hperm.disjoint
    have hy : y < L.length := by omega
    have hsl := hinv.slotLe c (by omega) hcp
    by_contra hcon
    -- index of an element of another bucket
    have : ∃ b j, b < 8 ∧ j < count caps b ∧ y = pl.slot b + j := by
      -- every index below the number of slots is in a bucket
      have hk : ∃ (k : Nat) (c' : Cap), caps[k]? = some c' ∧ y = pl.slot c'.bucket + count (caps.take k) c'.bucket := by
        -- the positions are a permutation
        have hposinj : ((List.range caps.length).map (posOf pl.slot caps)).Nodup := by
          refine List.Nodup.map_on ?_ List.nodup_range
          intro a ha b' hb' hab
          by_contra hne
          have ha := List.mem_range.1 ha
          have hb' := List.mem_range.1 hb'
          have ea : posOf pl.slot caps a = pl.slot (caps[a]).bucket + count (caps.take a) (caps[a]).bucket := by
            unfold posOf; rw [List.getElem?_eq_getElem ha]
          have eb : posOf pl.slot caps b' = pl.slot (caps[b']).bucket + count (caps.take b') (caps[b']).bucket := by
            unfold posOf; rw [List.getElem?_eq_getElem hb']
          rw [ea, eb] at hab
          have la := count_take_lt (List.getElem?_eq_getElem ha)
          have lb := count_take_lt (List.getElem?_eq_getElem hb')
          by_cases hbb : (caps[a]).bucket = (caps[b']).bucket
          · rcases Nat.lt_or_gt_of_ne hne with hlt | hgt
            · have := count_take_mono (List.getElem?_eq_getElem ha) hlt
              rw [hbb] at hab this; omega
            · have := count_take_mono (List.getElem?_eq_getElem hb') hgt
              rw [hbb] at hab; omega
          · have := hinv.apart _ _ (hcb _ (List.getElem_mem ha)) (hcb _ (List.getElem_mem hb')) hbb (by omega) (by omega)
            omega
        have hpp : ((List.range caps.length).map (posOf pl.slot caps)).Perm (List.range caps.length) := by
          refine List.Subperm.perm_of_length_le (hposinj.subperm ?_) (by simp)
          intro a ha
          obtain ⟨k, hk, rfl⟩ := List.mem_map.1 ha
          have hk := List.mem_range.1 hk
          have ea : posOf pl.slot caps k = pl.slot (caps[k]).bucket + count (caps.take k) (caps[k]).bucket := by
            unfold posOf; rw [List.getElem?_eq_getElem hk]
          have la := count_take_lt (List.getElem?_eq_getElem hk)
          have := hinv.slotLe _ (hcb _ (List.getElem_mem hk)) (by omega)
          exact List.mem_range.2 (by omega)
        obtain ⟨k, hk, e⟩ := List.mem_map.1 (hpp.mem_iff.2 (List.mem_range.2 (show y < caps.length by omega)))
        have hk := List.mem_range.1 hk
        refine ⟨k, caps[k], List.getElem?_eq_getElem hk, ?_⟩
        rw [← e]; unfold posOf; rw [List.getElem?_eq_getElem hk]
      obtain ⟨k, c', hk, e⟩ := hk
      exact ⟨c'.bucket, _, hcb c' (List.mem_of_getElem? hk), count_take_lt hk, e⟩
    obtain ⟨b, j, hb8, hj, e⟩ := this
    obtain ⟨ref, hr⟩ := hrun hj
    rw [← e, hs] at hr
    have hbs : s.bucket = b := by rw [Option.some.inj hr]
    rw [hsb] at hbs
    subst hbs
    omega
  all_goals by_cases hz : count caps c = 0
  · rw [if_pos hz]; intro q hq; cases hq
  · rw [if_neg hz]
    by_cases hrl : runLen loadable (pl.bstart c) (count caps c) = 0
    · rw [if_pos hrl]; intro q hq; cases hq
    · rw [if_neg hrl]
      have hcp : 0 < count caps c := by omega
      have hrle := runLen_le loadable (pl.bstart c) (count caps c)
      have hbkc := hbk hcp
      generalize runLen loadable (pl.bstart c) (count caps c) = n at *
      obtain ⟨ref, hr⟩ := hrun (b := c) (j := 0) hcp
      have hsl := hinv.slotLe c (by omega) hcp
      have hoff := hinv.offLe c (by omega) hcp
      have hbase := hinv.baseLe c (by omega) hcp
      have halg := hinv.aligned c (by omega) hcp
      have hrel : ((slots'[pl.bstart c]?.map Slot.offset).getD 0) - base = pl.off c - base := by
        rw [hbkc, hslot _ (by omega)]
        rw [Nat.add_zero] at hr
        rw [hr]; simp
      rw [hrel]
      have hmcap : min width 8 = packetCap width := by
        unfold packetCap; have := hw.pos; omega
      rw [hmcap]
      obtain ⟨g1, g2, g3, g4⟩ := packets_spec (s := bsize c) (rel0 := pl.off c - base) (k := pl.bstart c) (n := n) hcap2 n 0 (by omega) (by omega)
      intro q hq
      obtain ⟨i0, q1, q2, q3, q4, q5, q6, q7, q8⟩ := g1 q hq
      have hqd : q.n ∣ i0 := q8 (Nat.dvd_zero _)
      rw [Nat.sub_zero] at q7
      have hqle : q.n ≤ pickPacket (count caps c) (packetCap width) := Nat.le_trans q7 (pickPacket_mono hrle hcap2.pos)
      have hoa : q.n * bsize c ∣ pl.off c := by
        have ea : alignOf P.be P.cap (count caps) c = pickPacket (count caps c) (packetCap width) * bsize c := by
          unfold alignOf bucketAlign; rw [if_pos hc, hbe, if_pos rfl, hcapp]
        rw [ea] at halg
        exact Nat.dvd_trans (Nat.mul_dvd_mul_right (q6.dvd (pow2_pickPacket hcap2) hqle) _) halg
      have hAd : q.n * bsize c ∣ P.alignment := by
        rw [hA]
        have h8 : bsize c ∣ 8 := by rcases bsize_cases c with h | h | h | h <;> rw [h] <;> decide
        exact Nat.mul_dvd_mul (q6.dvd hcap2 (Nat.le_trans hqle (pickPacket_le hcap2.pos))) h8
      have hxd : q.n * bsize c ∣ pl.off c + i0 * bsize c := Nat.dvd_add hoa (Nat.mul_dvd_mul_right hqd _)
      have hsum : base + q.off = pl.off c + i0 * bsize c := by rw [q1]; omega
      have hmul : ∀ j, j < n → j * bsize c + bsize c ≤ count caps c * bsize c := fun j hj => by
        have := Nat.mul_le_mul_right (bsize c) (show j + 1 ≤ count caps c by omega)
        rwa [Nat.add_mul, Nat.one_mul] at this
      have hbp := bsize_pos c
      refine ⟨?_, ?_, q4, ?_⟩
      · rw [Nat.add_assoc, hsum]
        exact Nat.mod_eq_zero_of_dvd (Nat.dvd_add (Nat.dvd_trans hAd hstart) hxd)
      · rw [hsum]
        refine end_le hApos hxd hAd ?_
        have := hmul i0 (by omega)
        omega
      · intro j hj
        have hj2 : i0 + j < count caps c := by omega
        obtain ⟨ref2, hr2⟩ := hrun (b := c) hj2
        refine ⟨⟨ref2, pl.off c + (i0 + j) * bsize c, c⟩, ?_, rfl, ?_⟩
        · rw [q2, hbkc, show pre.length + pl.slot c + i0 + j = pre.length + (pl.slot c + (i0 + j)) by omega, hslot _ (by omega)]
          exact hr2
        · simp only
          rw [hsum, Nat.add_mul]; omega
  · rw [if_pos hz]; simp
  · rw [if_neg hz]
    by_cases hrl : runLen loadable (pl.bstart c) (count caps c) = 0
    · rw [if_pos hrl]; simp
    · rw [if_neg hrl]
      have hmcap : Pow2 (min width 8) := Pow2.min hw ⟨3, rfl⟩
      obtain ⟨g1, g2, g3, g4⟩ := packets_spec (s := bsize c) (rel0 := ((slots'[pl.bstart c]?.map Slot.offset).getD 0) - base) (k := pl.bstart c)
        (n := runLen loadable (pl.bstart c) (count caps c)) hmcap _ 0 rfl (by omega)
      simp only
      rw [g4]
      congr 1
      omega
  · rw [if_pos hz]; exact Nat.le_refl _
  · rw [if_neg hz]
    by_cases hrl : runLen loadable (pl.bstart c) (count caps c) = 0
    · rw [if_pos hrl]; exact Nat.le_refl _
    · rw [if_neg hrl]; simp only; omega

end Verif.Call
