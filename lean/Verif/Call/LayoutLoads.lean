import Verif.Call.LayoutProps

/-!
# C34: vector loads of the CUDA and Metal backends, examples
-/
namespace Verif.Call

theorem place_tight {lo base : Nat} {cnt : Nat → Nat} {s : Place} {b X : Nat} (h1 : s.nextOffset = base + X) (h2 : s.cend ≤ X) (hb : b < 4)
    (hd : 0 < cnt b → bsize b ∣ base + X) :
    (place lo base cnt s (b, bsize b)).nextOffset = base + (X + cnt b * bsize b) ∧ (place lo base cnt s (b, bsize b)).cend ≤ X + cnt b * bsize b := by
  unfold place
  by_cases h0 : cnt b = 0
  · rw [if_pos h0, h0]; omega
  · rw [if_neg h0]
    simp only
    rw [h1, alignUp_of_dvd (bsize_pos b) (hd (by omega)), if_pos hb]
    omega

theorem place_cend {lo base : Nat} {cnt : Nat → Nat} {s : Place} {b a : Nat} (hb : 4 ≤ b) : (place lo base cnt s (b, a)).cend = s.cend := by
  unfold place
  split
  · rfl
  · simp only; rw [if_neg (by omega)]

/-- Without packets, there are no gaps between the values that are loaded together -/
theorem cend_le {p : Params} {lo ds : Nat} {caps : List Cap} (hbe : p.be ≠ .llvm) (hal : Pow2 p.alignment) :
    (placed p lo ds caps).cend ≤ coalBytes caps := by
  have hB : Pow2 (blockAlign p.be p.alignment p.cap caps) := by
    unfold blockAlign; rw [if_neg hbe]; exact (pow2_maxField caps).max (pow2_pickChunk hal)
  have hle : maxField caps ≤ blockAlign p.be p.alignment p.cap caps := by
    unfold blockAlign; rw [if_neg hbe]; exact Nat.le_max_left _ _
  have hbase : ∀ b, 0 < count caps b → bsize b ∣ alignUp ds (blockAlign p.be p.alignment p.cap caps) := fun b h => by
    obtain ⟨c, hc, rfl⟩ := count_pos_iff.1 h
    exact Nat.dvd_trans ((pow2_bsize _).dvd hB (Nat.le_trans (le_maxField hc) hle)) (dvd_alignUp _ _)
  have e : places p.be p.cap (count caps) = [(0, bsize 0), (1, bsize 1), (2, bsize 2), (3, bsize 3), (4, bsize 0), (5, bsize 1), (6, bsize 2), (7, bsize 3)] := by
    unfold places bucketOrder bucketAlign
    rw [if_neg hbe]
    simp [hbe]
  rw [coalBytes_eq]
  unfold placed
  rw [e]
  generalize alignUp ds (blockAlign p.be p.alignment p.cap caps) = base at *
  generalize count caps = cnt at *
  simp only [List.foldl_cons, List.foldl_nil]
  rw [place_cend (by omega), place_cend (by omega), place_cend (by omega), place_cend (by omega)]
  have b0 : bsize 0 = 8 := rfl
  have b1 : bsize 1 = 4 := rfl
  have b2 : bsize 2 = 2 := rfl
  have b3 : bsize 3 = 1 := rfl
  obtain ⟨n0, c0⟩ := place_tight (lo := lo) (base := base) (cnt := cnt) (s := { nextOffset := base }) (b := 0) (X := 0) rfl (Nat.le_refl _) (by omega)
    (fun h => by simpa using hbase 0 h)
  obtain ⟨n1, c1⟩ := place_tight (lo := lo) (cnt := cnt) (b := 1) n0 c0 (by omega) (fun h => by
    refine Nat.dvd_add (hbase 1 h) ?_
    rw [b0, b1]; omega)
  obtain ⟨n2, c2⟩ := place_tight (lo := lo) (cnt := cnt) (b := 2) n1 c1 (by omega) (fun h => by
    refine Nat.dvd_add (hbase 2 h) ?_
    rw [b0, b1, b2]; omega)
  obtain ⟨n3, c3⟩ := place_tight (lo := lo) (cnt := cnt) (b := 3) n2 c2 (by omega) (fun h => by
    rw [b3]; exact Nat.one_dvd _)
  rw [b0, b1, b2, b3] at c3
  simp only [b0, b1, b2, b3]
  omega

theorem chunks_spec {M e : Nat} (hM : Pow2 M) (hM8 : 4 ≤ M) (he : 4 ∣ e) : ∀ (m p : Nat), e - p = m → 4 ∣ p →
    (∀ c ∈ chunks M e p, p ≤ c.1 ∧ c.1 + 4 ≤ e ∧ c.2 = pickChunk c.1 (e - c.1) M ∧ 4 ∣ c.1) ∧
    ∃ n, (chunks M e p).flatMap (fun c => List.range' c.1 c.2) = List.range' p n ∧ e ≤ p + n := by
  intro m
  induction m using Nat.strongRecOn with
  | _ m ih =>
    intro p hm hp
    rw [chunks]
    by_cases h : p < e
    · rw [if_pos h]
      have hge := pickChunk_ge (off := p) (rem := e - p) (cand := M)
      have hpw : 4 ∣ pickChunk p (e - p) M := Pow2.dvd ⟨2, rfl⟩ (pow2_pickChunk hM) hge
      rw [show max 1 (pickChunk p (e - p) M) = pickChunk p (e - p) M by omega]
      obtain ⟨h1, n, h2, h3⟩ := ih (e - (p + pickChunk p (e - p) M)) (by omega) (p + pickChunk p (e - p) M) rfl (Nat.dvd_add hp hpw)
      refine ⟨fun c hc => ?_, pickChunk p (e - p) M + n, ?_, by omega⟩
      · rcases List.mem_cons.1 hc with rfl | hc
        · refine ⟨Nat.le_refl _, ?_, rfl, hp⟩
          simp only
          omega
        · obtain ⟨g1, g2, g3, g4⟩ := h1 c hc
          exact ⟨by omega, g2, g3, g4⟩
      · rw [List.flatMap_cons, h2, List.range'_append_1]
    · rw [if_neg h]
      exact ⟨fun c hc => (nomatch hc), 0, by simp, by omega⟩

/-- **C34.**  Vector loads of the CUDA and Metal backends.  `maxChunk` is the width of the largest load, at
most the alignment used for the layout, and `start` the address of the data block of the call.  If there are
at least two values that can be loaded together:
* the address of each load is a multiple of its width, and all of it is in the data block of the call;
* the loads cover bytes `0 .. n` of the data block of the instance, once, where `n` is at most the size of
  the register array (`nwords`, cuda_eval.cpp:346);
* these bytes include all values that can be loaded together, and each of them is either a part of a single
  32 bit register or two complete registers. -/
theorem C34_chunks (p : Params) (hbe : p.be ≠ .llvm) (hal : Pow2 p.alignment) (maxChunk : Nat) (hM : Pow2 maxChunk) (hM4 : 4 ≤ maxChunk)
    (hMa : maxChunk ≤ p.alignment) (old : Nat → Slot) (insts : List (List Cap)) (hb : ∀ caps ∈ insts, ∀ c ∈ caps, c.bucket < 8)
    (i : Nat) (caps : List Cap) (hi : insts[i]? = some caps) (start : Nat) (hstart : maxChunk ∣ start) :
    ∃ l, (layoutCall p old insts).1[i]? = some l ∧
      (∀ c ∈ renderChunks maxChunk l, (start + l.dataOffset + c.1) % c.2 = 0 ∧ 4 ∣ c.1 ∧ 4 ∣ c.2 ∧ l.dataOffset + c.1 + c.2 ≤ (layoutCall p old insts).2.2) ∧
      (2 ≤ l.ccount → ∃ n, (renderChunks maxChunk l).flatMap (fun c => List.range' c.1 c.2) = List.range' 0 n ∧
        n ≤ (l.cend + maxChunk - 1) / maxChunk * maxChunk ∧
        ∀ s ∈ ((layoutCall p old insts).2.1.drop l.slotStart).take l.slotCount, s.bucket < 4 →
          l.dataOffset ≤ s.offset ∧ s.offset - l.dataOffset + bsize s.bucket ≤ n ∧
          ((s.offset - l.dataOffset) % 4 + bsize s.bucket ≤ 4 ∨ bsize s.bucket = 8 ∧ 4 ∣ s.offset - l.dataOffset)) := by
  obtain ⟨ls', slots', h1, h2, h3, h4, h5, h6, h7⟩ := layoutAll_spec p old insts [] [] 0 hb
  simp only [List.nil_append] at h1 h2 h7
  obtain ⟨pre, post, ds, k1, k2, k3⟩ := h7 i caps hi
  have hcb := hb caps (List.mem_of_getElem? hi)
  have e1 : (layoutCall p old insts).1 = ls' := h1
  have e2 : (layoutCall p old insts).2.1 = slots' := h2
  have e3 : (layoutCall p old insts).2.2 = alignUp (layoutAll p old insts ([], [], 0)).2.2 p.alignment := rfl
  rw [e1, e2, e3]
  generalize (layoutAll p old insts ([], [], 0)).2.2 = E at *
  have hinv := placed_inv p pre.length ds caps
  have hc1 := cend_le (lo := pre.length) (ds := ds) (caps := caps) hbe hal
  have hok := (layout_slots p old pre.length ds caps hcb blockAlign_pos).2.1
  have hlen : (layoutInstance p old pre.length ds caps).2.1.length = caps.length := by unfold layoutInstance; simp
  refine ⟨_, k1, ?_⟩
  have d1 : (layoutInstance p old pre.length ds caps).1.dataOffset = alignUp ds (blockAlign p.be p.alignment p.cap caps) := rfl
  have d2 : (layoutInstance p old pre.length ds caps).1.cend = (placed p pre.length ds caps).cend := rfl
  have d3 : (layoutInstance p old pre.length ds caps).1.ccount = (placed p pre.length ds caps).ccount := rfl
  have d4 : (layoutInstance p old pre.length ds caps).2.2 = (placed p pre.length ds caps).nextOffset := rfl
  have hsl : (slots'.drop (layoutInstance p old pre.length ds caps).1.slotStart).take (layoutInstance p old pre.length ds caps).1.slotCount =
      (layoutInstance p old pre.length ds caps).2.1 := by
    have es : (layoutInstance p old pre.length ds caps).1.slotStart = pre.length := rfl
    have ec : (layoutInstance p old pre.length ds caps).1.slotCount = caps.length := rfl
    rw [es, ec, k2, List.append_assoc, List.drop_left, ← hlen, List.take_left]
  rw [hsl]
  have hBe : blockAlign p.be p.alignment p.cap caps = max (maxField caps) (pickChunk 0 ((coalBytes caps + 3) / 4 * 4) p.alignment) := by
    unfold blockAlign; rw [if_neg hbe]
  have hB : Pow2 (blockAlign p.be p.alignment p.cap caps) := by
    rw [hBe]; exact (pow2_maxField caps).max (pow2_pickChunk hal)
  have hBd := dvd_alignUp ds (blockAlign p.be p.alignment p.cap caps)
  have hmem : ∀ s ∈ (layoutInstance p old pre.length ds caps).2.1, s.bucket < 4 → s.offset + bsize s.bucket ≤
      alignUp ds (blockAlign p.be p.alignment p.cap caps) + (placed p pre.length ds caps).cend := by
    intro s hs h4
    have hm : (⟨s.ref, s.bucket⟩ : Cap) ∈ caps := hok.same.mem_iff.1 (List.mem_map.2 ⟨s, hs, rfl⟩)
    -- the slot is in its bucket
    obtain ⟨x, hx, hxs⟩ := List.mem_iff_getElem.1 hs
    have hcp : 0 < count caps s.bucket := count_pos_iff.2 ⟨_, hm, rfl⟩
    have hce := hinv.cend s.bucket (by omega) h4 hcp
    -- offsets of all slots of the bucket, by rank
    have hall : ∀ t ∈ (layoutInstance p old pre.length ds caps).2.1, ∃ (k : Nat) (c : Cap), caps[k]? = some c ∧ t.bucket = c.bucket ∧
        t.offset = (placed p pre.length ds caps).off c.bucket + count (caps.take k) c.bucket * bsize c.bucket := by
      have hnd : (layoutInstance p old pre.length ds caps).2.1.Nodup := by
        refine hok.disjoint.imp ?_
        intro a b hab e
        subst e
        have := bsize_pos a.bucket
        omega
      have hsub : ((List.range caps.length).map fun k => (Slot.mk ((caps[k]?.getD ⟨0, 0⟩).ref)
          ((placed p pre.length ds caps).off (caps[k]?.getD ⟨0, 0⟩).bucket + count (caps.take k) (caps[k]?.getD ⟨0, 0⟩).bucket * bsize (caps[k]?.getD ⟨0, 0⟩).bucket)
          (caps[k]?.getD ⟨0, 0⟩).bucket)).Perm (layoutInstance p old pre.length ds caps).2.1 := by
        refine List.Subperm.perm_of_length_le (List.Nodup.subperm ?_ ?_) (by simp [hlen])
        · refine List.Nodup.map_on ?_ List.nodup_range
          intro a ha b' hb' hab
          by_contra hne
          have ha := List.mem_range.1 ha
          have hb' := List.mem_range.1 hb'
          rw [List.getElem?_eq_getElem ha, List.getElem?_eq_getElem hb'] at hab
          simp only [Option.getD_some, Slot.mk.injEq] at hab
          obtain ⟨_, hab1, hab2⟩ := hab
          rw [hab2] at hab1
          have hab3 := Nat.eq_of_mul_eq_mul_right (bsize_pos _) (Nat.add_left_cancel hab1)
          rcases Nat.lt_or_gt_of_ne hne with hlt | hgt
          · have := count_take_mono (List.getElem?_eq_getElem ha) hlt
            rw [hab2] at this; omega
          · have := count_take_mono (List.getElem?_eq_getElem hb') hgt
            omega
        · intro t ht
          obtain ⟨k, hk, rfl⟩ := List.mem_map.1 ht
          have hk := List.mem_range.1 hk
          have := layout_at p old pre.length ds caps hcb k caps[k] (List.getElem?_eq_getElem hk)
          rw [List.getElem?_eq_getElem hk]
          exact List.mem_of_getElem? this
      intro t ht
      obtain ⟨k, hk, e⟩ := List.mem_map.1 (hsub.mem_iff.2 ht)
      have hk := List.mem_range.1 hk
      rw [List.getElem?_eq_getElem hk] at e
      exact ⟨k, caps[k], List.getElem?_eq_getElem hk, by rw [← e]; rfl, by rw [← e]; rfl⟩
    obtain ⟨k, c, g1, g2, g3⟩ := hall s hs
    rw [g2] at hce ⊢
    rw [g3]
    have := Nat.mul_le_mul_right (bsize c.bucket) (show count (caps.take k) c.bucket + 1 ≤ count caps c.bucket from count_take_lt g1)
    rw [Nat.add_mul, Nat.one_mul] at this
    omega
  have hins := hok.inside
  have haln := hok.aligned
  have hcl := hinv.cendLe
  rw [d4] at k3
  have hbaseb : ∀ s ∈ (layoutInstance p old pre.length ds caps).2.1, bsize s.bucket ∣ alignUp ds (blockAlign p.be p.alignment p.cap caps) := by
    intro s hs
    have hm : (⟨s.ref, s.bucket⟩ : Cap) ∈ caps := hok.same.mem_iff.1 (List.mem_map.2 ⟨s, hs, rfl⟩)
    refine Nat.dvd_trans ((pow2_bsize _).dvd hB ?_) hBd
    exact Nat.le_trans (le_maxField hm) (by rw [hBe]; exact Nat.le_max_left _ _)
  have hrc : renderChunks maxChunk (layoutInstance p old pre.length ds caps).1 =
    if 2 ≤ (placed p pre.length ds caps).ccount then chunks maxChunk (((placed p pre.length ds caps).cend + 3) / 4 * 4) 0 else [] := rfl
  rw [hrc, d1, d2, d3]
  rw [d1] at hins
  generalize alignUp ds (blockAlign p.be p.alignment p.cap caps) = base at *
  generalize placed p pre.length ds caps = pl at *
  generalize (layoutInstance p old pre.length ds caps).2.1 = L at *
  obtain ⟨g1, n, g2, g3⟩ := chunks_spec (M := maxChunk) (e := (pl.cend + 3) / 4 * 4) hM hM4 (by omega) _ 0 rfl (Nat.dvd_zero _)
  have hchunk : ∀ c ∈ chunks maxChunk ((pl.cend + 3) / 4 * 4) 0, c.2 ∣ base + c.1 ∧ c.2 ∣ maxChunk ∧ 4 ∣ c.1 ∧ 4 ∣ c.2 ∧ c.1 < pl.cend ∧ c.2 ∣ c.1 := by
    intro c hc
    obtain ⟨q1, q2, q3, q4⟩ := g1 c hc
    have hp2 : Pow2 c.2 := by rw [q3]; exact pow2_pickChunk hM
    have hd1 : c.2 ∣ c.1 := by rw [q3]; exact dvd_pickChunk q4
    have hd2 : c.2 ∣ base := by
      refine Nat.dvd_trans (hp2.dvd hB ?_) hBd
      rw [hBe, q3]
      refine Nat.le_trans (pickChunk_start hal hM hMa ?_) (Nat.le_max_right _ _)
      omega
    refine ⟨Nat.dvd_add hd2 hd1, hp2.dvd hM ?_, q4, Pow2.dvd ⟨2, rfl⟩ hp2 ?_, by omega, hd1⟩
    · rw [q3]; exact pickChunk_le hM4
    · rw [q3]; exact pickChunk_ge
  constructor
  · intro c hc
    by_cases h2 : 2 ≤ pl.ccount
    · rw [if_pos h2] at hc
      obtain ⟨q1, q2, q3, q4, q5, q6⟩ := hchunk c hc
      refine ⟨?_, q3, q4, ?_⟩
      · rw [Nat.add_assoc]
        exact Nat.mod_eq_zero_of_dvd (Nat.dvd_add (Nat.dvd_trans q2 hstart) q1)
      · exact end_le hal.pos q1 (Nat.dvd_trans q2 (hM.dvd hal hMa)) (by omega)
    · rw [if_neg h2] at hc; cases hc
  · intro hcc
    rw [if_pos hcc]
    refine ⟨n, g2, ?_, ?_⟩
    · -- the end of the last load
      by_contra hcon
      have hn : 0 < n := by omega
      have : n - 1 ∈ List.range' 0 n := by rw [List.mem_range'_1]; omega
      rw [← g2, List.mem_flatMap] at this
      obtain ⟨c, hc, hx⟩ := this
      rw [List.mem_range'_1] at hx
      obtain ⟨q1, q2, q3, q4, q5, q6⟩ := hchunk c hc
      have := end_le hM.pos q6 q2 q5
      unfold alignUp at this
      omega
    · intro s hs h4
      obtain ⟨i1, i2⟩ := hins s hs
      have i3 := hmem s hs h4
      refine ⟨i1, by omega, ?_⟩
      have hd : bsize s.bucket ∣ s.offset - base := Nat.dvd_sub (haln s hs) (hbaseb s hs)
      rcases bsize_cases s.bucket with h | h | h | h <;> rw [h] at hd ⊢ <;> omega

/-! ### Examples -/

/-- Three instances, with captured values of all sizes: the hypotheses can be met -/
def demoInsts : List (List Cap) := [[⟨1, 1⟩, ⟨2, 3⟩, ⟨3, 0⟩, ⟨4, 1⟩, ⟨5, 6⟩, ⟨6, 1⟩], [], [⟨7, 3⟩, ⟨8, 2⟩, ⟨9, 2⟩, ⟨10, 2⟩]]

theorem demo_ok : ∀ caps ∈ demoInsts, ∀ c ∈ caps, c.bucket < 8 := by decide

/-- LLVM, vectors with 8 elements.  (The second instance has no values.) -/
example : (layoutCall (params .llvm 8 false) (fun _ => ⟨0, 0, 0⟩) demoInsts).2 =
    ([⟨1, 0, 1⟩, ⟨4, 4, 1⟩, ⟨6, 8, 1⟩, ⟨3, 16, 0⟩, ⟨2, 24, 3⟩, ⟨5, 26, 6⟩, ⟨8, 32, 2⟩, ⟨9, 34, 2⟩, ⟨10, 36, 2⟩, ⟨7, 38, 3⟩], 64) := by decide +kernel

/-- CUDA, 128 bit loads -/
example : (layoutCall (params .cuda 0 false) (fun _ => ⟨0, 0, 0⟩) demoInsts).2 =
    ([⟨3, 0, 0⟩, ⟨1, 8, 1⟩, ⟨4, 12, 1⟩, ⟨6, 16, 1⟩, ⟨2, 20, 3⟩, ⟨5, 22, 6⟩, ⟨8, 24, 2⟩, ⟨9, 26, 2⟩, ⟨10, 28, 2⟩, ⟨7, 30, 3⟩], 32) := by decide +kernel

/-- A packet of four values of which three are used -/
example : ((layoutCall (params .llvm 8 false) (fun _ => ⟨0, 0, 0⟩) demoInsts).1[0]?.map fun l =>
    (renderBucket 8 (layoutCall (params .llvm 8 false) (fun _ => ⟨0, 0, 0⟩) demoInsts).2.1 l (fun _ => true) 1)) = some ([⟨0, 4, 0, 3⟩], 3) := by decide +kernel

/-- Two loads: 16 and 8 bytes -/
example : ((layoutCall (params .cuda 0 false) (fun _ => ⟨0, 0, 0⟩) demoInsts).1[0]?.map fun l => renderChunks 16 l) = some [(0, 16), (16, 8)] := by decide +kernel

example : ∃ l, (layoutCall (params .llvm 8 false) (fun _ => ⟨0, 0, 0⟩) demoInsts).1[0]? = some l ∧
    ∀ q ∈ (renderBucket 8 (layoutCall (params .llvm 8 false) (fun _ => ⟨0, 0, 0⟩) demoInsts).2.1 l (fun _ => true) 1).1, (640 + l.dataOffset + q.off) % (q.n * bsize 1) = 0 := by
  obtain ⟨l, h1, h2, _⟩ := C34_packets 8 ⟨3, rfl⟩ (fun _ => ⟨0, 0, 0⟩) demoInsts demo_ok 0 _ rfl 1 (by omega) (fun _ => true) 640 (by decide +kernel)
  exact ⟨l, h1, fun q hq => (h2 q hq).1⟩

example : ∃ l, (layoutCall (params .cuda 0 true) (fun _ => ⟨0, 0, 0⟩) demoInsts).1[2]? = some l ∧
    ∀ c ∈ renderChunks 16 l, (96 + l.dataOffset + c.1) % c.2 = 0 := by
  obtain ⟨l, h1, h2, _⟩ := C34_chunks (params .cuda 0 true) (by decide) ⟨5, rfl⟩ 16 ⟨4, rfl⟩ (by omega) (by decide) (fun _ => ⟨0, 0, 0⟩) demoInsts demo_ok 2 _ rfl
    96 (by decide)
  exact ⟨l, h1, fun q hq => (h2 q hq).1⟩

/-- **C34 (negation).**  `jit_llvm_set_target()` accepts any vector width.  For vectors with five elements and
seven captured 64 bit values, the second packet (two values, bytes 40 to 55) is not aligned to its size of 16
bytes. -/
theorem C34_odd_width : ((layoutCall (params .llvm 5 false) (fun _ => ⟨0, 0, 0⟩) [List.replicate 7 ⟨1, 0⟩]).1[0]?.map fun l =>
    ((renderBucket 5 (layoutCall (params .llvm 5 false) (fun _ => ⟨0, 0, 0⟩) [List.replicate 7 ⟨1, 0⟩]).2.1 l (fun _ => true) 0).1, l.dataOffset)) =
    some ([⟨0, 5, 0, 5⟩, ⟨40, 2, 5, 2⟩], 0) ∧ (0 + 40) % (2 * bsize 0) ≠ 0 := by decide +kernel

end Verif.Call
