import Verif.Freeze.Step

/-!
# Simulation: allocation, compression, permutations, parameter blocks
-/

namespace Verif.Freeze

theorem new_eq {m m2 : Mem} {x len : Nat} {cs : List (Cell Nat)} {vt : Option Nat}
    (h : m.new x cs len vt = some m2) :
    m.buf x = none ∧ m.dead x = false ∧ m2 = m.set x { cells := cs, len := len, vt := vt } := by
  unfold Mem.new at h
  cases hb : m.buf x with
  | some b =>
    rw [hb] at h
    cases h
  | none =>
    rw [hb] at h
    simp only at h
    split_ifs at h with hd
    simp only [Option.some.injEq] at h
    exact ⟨rfl, by simpa using hd, h.symm⟩

section
variable {sem : Sem} {addr : Nat → Nat} {nin : Nat} {live : List Nat} {r : Rec} {m m2 : Mem}
  {st : RState} {sl : Nat → Option Nat} {ρ : Nat → Nat} {x y s n vt : Nat}

theorem step_undef {size : Nat} (hs : Sim addr nin live r m st sl ρ)
    (hap : Apart addr ([x] ++ live)) (hw : Whole m (.undef x vt size))
    (he : exec sem m (.undef x vt size) = some m2) :
    StepOk sem addr nin live r m2 st sl ρ (.undef x vt size) := by
  obtain ⟨h0, hlt, hts⟩ := hw
  have hs' := hs.weaken hap fun y hy => List.mem_append.2 (Or.inr hy)
  obtain ⟨hb, hd, e⟩ := new_eq he
  obtain ⟨d, sl1, ρ1, h1, h2, h3, h4⟩ := hs'.alloc (x := x) (bytes := size * typeSize vt)
    (vt := some vt) (by simp) ⟨Nat.mul_pos h0 hts, Or.inl hb⟩ (fun _ => hd) (some_vt_ne hts)
  have hm : m.ensure x (size * typeSize vt) (some vt) = m2 := by
    unfold Mem.ensure
    rw [hb, e]
  rw [hm] at h4
  simp only [Option.getD_some] at h1 h4
  refine StepOk.one (op := {
      kind := .undef, deps := [{ slot := d, ptype := .output, vtype := vt }], size := size }) h2 h4 (addOutParam_ops _ _ _) ?_ ?_
  · simp only [recordCmd, recordUndef, h1]
  · simp only [replayOp, replayUndef, Op.dep, List.getD_cons_zero, Nat.mod_eq_of_lt hlt]

/-- Change the number of bytes that belong to an array. -/
theorem Sim.setLen (hs : Sim addr nin live r m st sl ρ) {b : Buf} (hb : m.buf x = some b)
    (hx : sl x = some s) (l : Nat) :
    Sim addr nin live r (m.set x { b with len := l })
      (st.setSlot s { st.slot s with dataSize := l }) sl ρ := by
  have hat := hs.at_eq hb hx
  have hsome : ∀ y, ((m.set x { b with len := l }).buf y).isSome = (m.buf y).isSome := by
    intro y
    by_cases e : y = x
    · subst e
      rw [Mem.set_self, hb]
      rfl
    · rw [Mem.set_other _ _ e]
  refine { hs with
    live := fun y hy => hs.live y (by rw [hsome] at hy; exact hy)
    look := ?_
    slData := ?_
    slDead := ?_
    mapLive := ?_
    fresh := ?_ }
  · intro y c hc
    by_cases e : y = x
    · subst e
      rw [Mem.set_self] at hc
      simp only [Option.some.injEq] at hc
      subst hc
      refine ⟨s, { hat with slot := ?_ }⟩
      simp only [RState.setSlot, if_true]
      rw [hat.slot]
    · rw [Mem.set_other _ _ e] at hc
      obtain ⟨s', h⟩ := hs.look y c hc
      refine ⟨s', { h with slot := ?_ }⟩
      have : s' ≠ s := fun e' => e (hs.slInj y x s (e' ▸ h.asg) hx)
      simp only [RState.setSlot, if_neg this]
      exact h.slot
  · intro y t h
    by_cases e : t = s
    · subst e
      simp only [RState.setSlot, if_true]
      exact hs.slData y t h
    · simp only [RState.setSlot, if_neg e]
      exact hs.slData y t h
  · intro y hy
    rw [hsome]
    exact hs.slDead y hy
  · intro p t hp
    obtain ⟨y, hy, h⟩ := hs.mapLive p t hp
    exact ⟨y, by rw [hsome]; exact hy, h⟩
  · intro t ht
    have : t ≠ s := by
      have := hs.slotLt x s hx
      omega
    simp only [RState.setSlot, if_neg this]
    exact hs.fresh t ht

theorem step_compress {src size size' out : Nat} (hs : Sim addr nin live r m st sl ρ)
    (hap : Apart addr ([out] ++ live)) (hw : Whole m (.compress src size' out))
    (he : exec sem m (.compress src size' out) = some m2) :
    StepOk sem addr nin live r m2 st sl ρ (.compress src size out) := by
  obtain ⟨hh, hlt, b, hb, hvt⟩ := hw
  have hs' := hs.weaken hap fun y hy => List.mem_append.2 (Or.inr hy)
  simp only [exec, Option.bind_eq_some_iff] at he
  obtain ⟨cs, hcs, he⟩ := he
  obtain ⟨hbo, hd, e⟩ := new_eq he
  obtain ⟨s, hsl⟩ := hs'.slotOf hh
  have hpos := hh.n_pos
  have ht : Target m out (size' * 4) := ⟨by omega, Or.inl hbo⟩
  obtain ⟨d, sl1, ρ1, h1, h2, h3, h4⟩ := hs'.alloc (x := out) (bytes := size' * 4)
    (vt := some 8) (by simp) ht (fun _ => hd) (by simp)
  have hm : m.ensure out (size' * 4) (some 8) =
      m.set out { cells := List.replicate (size' * 4) .undef, len := size' * 4, vt := some 8 } := by
    unfold Mem.ensure
    rw [hbo]
  have hld := h4.load (ensure_read hcs) (h2.some hsl)
  rw [hm] at h4
  have hat := h4.at_eq (Mem.set_self _ _ _) h3
  have hst := hat.store (cs := sem.bytes (.compress size') [dataOf cs] (size' * 4))
    (by simp [bytes_length])
  have h5 := h4.fill (Mem.set_self _ _ _)
    (cs := sem.bytes (.compress size') [dataOf cs] (size' * 4)) (by simp [bytes_length])
    (refs_none (refsOf_bytes _ _ _ _))
  rw [map_ren_none (refsOf_bytes _ _ _ _)] at h5
  simp only [Mem.fill, Mem.set_self, Mem.set_set] at h5
  have h6 := h5.setLen (Mem.set_self _ _ _) h3 (min size' (sem.count (dataOf cs)) * 4)
  rw [Mem.set_set] at h6
  simp only at h6
  rw [← e] at h6
  simp only [Option.getD_some] at h1 h6
  refine StepOk.one (op := {
      kind := .compress, deps := [{ slot := s, ptype := .input, vtype := 1 },
      { slot := d, ptype := .output, vtype := 8 }], size := size })
    h2 h6 (addOutParam_ops _ _ _) ?_ ?_
  · have hin := (hs'.at_eq hb hsl).inParam hs' 0
    rw [hvt] at hin
    simp only [if_true, Option.getD_some] at hin
    simp only [recordCmd, recordCompress, hin, Option.map_some, h1]
  · simp only [replayOp, replayCompress, Op.dep, List.getD_cons_zero, List.getD_cons_succ]
    simp only [hs'.size hh hsl, orRaise, show typeSize 8 = 4 from rfl]
    simp only [hld, orUb, dataOf_ren, hst]
    simp only [Bool.false_eq_true, if_false]
    rw [Nat.mod_eq_of_lt]
    have : min size' (sem.count (dataOf cs)) ≤ size' := Nat.min_le_left _ _
    omega

theorem ensure_other {bytes : Nat} {vt : Option Nat} (h : y ≠ x) :
    (m.ensure x bytes vt).buf y = m.buf y := by
  unfold Mem.ensure
  cases m.buf x with
  | none => exact Mem.set_other _ _ h
  | some b => exact Mem.set_other _ _ h

theorem fill_other {cs : List (Cell Nat)} (h : y ≠ x) : (m.fill x cs).buf y = m.buf y := by
  unfold Mem.fill
  cases m.buf x with
  | none => rfl
  | some b => exact Mem.set_other _ _ h

theorem ensure_dead {bytes : Nat} {vt : Option Nat} : (m.ensure x bytes vt).dead = m.dead := by
  unfold Mem.ensure
  cases m.buf x <;> rfl

theorem fill_dead {cs : List (Cell Nat)} : (m.fill x cs).dead = m.dead := by
  unfold Mem.fill
  cases m.buf x <;> rfl

theorem set_comm {b c : Buf} (h : y ≠ x) : (m.set x b).set y c = (m.set y c).set x b := by
  unfold Mem.set
  simp only [Mem.mk.injEq, and_true]
  funext z
  by_cases e : z = x
  · subst e
    have : ¬ z = y := fun e => h e.symm
    simp [this]
  · by_cases e' : z = y
    · subst e'
      simp [h]
    · simp [e, e']

theorem ensure_fill_comm {bytes : Nat} {vt : Option Nat} {cs : List (Cell Nat)} (h : y ≠ x) :
    (m.fill x cs).ensure y bytes vt = (m.ensure y bytes vt).fill x cs := by
  have h1 : (m.fill x cs).buf y = m.buf y := fill_other h
  have h2 : (m.ensure y bytes vt).buf x = m.buf x := ensure_other (Ne.symm h)
  conv => lhs; unfold Mem.ensure
  rw [h1]
  conv => rhs; unfold Mem.fill
  rw [h2]
  cases hx : m.buf x with
  | none =>
    have : m.fill x cs = m := by
      unfold Mem.fill
      rw [hx]
    rw [this]
    rfl
  | some b =>
    have : m.fill x cs = m.set x { b with cells := cs } := by
      unfold Mem.fill
      rw [hx]
    rw [this]
    unfold Mem.ensure
    cases hy : m.buf y with
    | none =>
      simp only
      exact set_comm h
    | some c =>
      simp only
      exact set_comm h

theorem step_mkperm {src size size' bs buckets perm offs : Nat}
    (hs : Sim addr nin live r m st sl ρ) (hap : Apart addr ([perm, offs] ++ live))
    (hw : Whole m (.mkperm src size' bs buckets perm offs))
    (he : exec sem m (.mkperm src size' bs buckets perm offs) = some m2) :
    StepOk sem addr nin live r m2 st sl ρ (.mkperm src size bs buckets perm offs) := by
  obtain ⟨hh, ⟨b, hb, hvt⟩, hne, ht1, ht2, hlt⟩ := hw
  have hs' := hs.weaken hap fun y hy => List.mem_append.2 (Or.inr hy)
  simp only [exec, Option.bind_eq_some_iff] at he
  obtain ⟨cs, hcs, m1, he1, he2⟩ := he
  obtain ⟨s, hsl⟩ := hs'.slotOf hh
  obtain ⟨e1, hd1⟩ := put_eq (by rw [bytes_length]; exact ht1) he1
  rw [bytes_length] at e1
  have hbo : m1.buf offs = m.buf offs := by
    rw [e1, fill_other hne.symm, ensure_other hne.symm]
  have hdo : m1.dead = m.dead := by
    rw [e1, fill_dead, ensure_dead]
  have ht2' : Target m1 offs ((buckets * 4 + 1) * 4) := by
    refine ⟨ht2.1, ?_⟩
    rw [hbo]
    exact ht2.2
  obtain ⟨e2, hd2⟩ := put_eq (by rw [bytes_length]; exact ht2') he2
  rw [bytes_length] at e2
  rw [hbo, hdo] at hd2
  obtain ⟨p, sl1, ρ1, h1, h2, h3, h4⟩ := hs'.alloc (x := perm) (bytes := size' * 4)
    (vt := some 8) (by simp) ht1 hd1 (by simp)
  have ht2'' : Target (m.ensure perm (size' * 4) (some 8)) offs ((buckets * 4 + 1) * 4) := by
    refine ⟨ht2.1, ?_⟩
    rw [ensure_other hne.symm]
    exact ht2.2
  obtain ⟨o, sl2, ρ2, g1, g2, g3, g4⟩ := h4.alloc (x := offs) (bytes := (buckets * 4 + 1) * 4)
    (vt := some 8) (by simp) ht2'' (by rw [ensure_other hne.symm, ensure_dead]; exact hd2) (by simp)
  have hld := g4.load (ensure_read (ensure_read hcs)) (g2.some (h2.some hsl))
  -- the two arrays after both allocations
  obtain ⟨c1, hc1, _, hcl1, _⟩ := ensure_buf (vt := some 8) ht1
  have hp2 : ((m.ensure perm (size' * 4) (some 8)).ensure offs ((buckets * 4 + 1) * 4)
      (some 8)).buf perm = some c1 := by
    rw [ensure_other hne]
    exact hc1
  have hlen1 : (sem.bytes (.perm size' bs buckets) [dataOf cs] (size' * 4) :
      List (Cell Nat)).length = c1.cells.length := by
    rw [bytes_length, hcl1]
  have st1 := (g4.at_eq hp2 (g2.some h3)).store hlen1
  have k1 := g4.fill hp2 hlen1 (refs_none (refsOf_bytes _ _ _ _))
  rw [map_ren_none (refsOf_bytes _ _ _ _)] at k1
  obtain ⟨c2, hc2, _, hcl2, _⟩ := ensure_buf (vt := some 8) ht2''
  have ho2 : (((m.ensure perm (size' * 4) (some 8)).ensure offs ((buckets * 4 + 1) * 4)
      (some 8)).fill perm (sem.bytes (.perm size' bs buckets) [dataOf cs] (size' * 4))).buf offs =
        some c2 := by
    rw [fill_other hne.symm]
    exact hc2
  have hlen2 : (sem.bytes (.offsets size' bs buckets) [dataOf cs] ((buckets * 4 + 1) * 4) :
      List (Cell Nat)).length = c2.cells.length := by
    rw [bytes_length, hcl2]
  have st2 := (k1.at_eq ho2 g3).store hlen2
  have k2 := k1.fill ho2 hlen2 (refs_none (refsOf_bytes _ _ _ _))
  rw [map_ren_none (refsOf_bytes _ _ _ _)] at k2
  rw [← ensure_fill_comm hne.symm, ← e1, ← e2] at k2
  simp only [Option.getD_some] at h1 g1 k2
  refine StepOk.one (op := {
      kind := .mkperm buckets bs,
      deps := [{ slot := s, ptype := .input, vtype := 8 },
        { slot := p, ptype := .output, vtype := 8 }, { slot := o, ptype := .output, vtype := 8 }],
      size := size })
    (h2.trans g2) k2 ((addOutParam_ops _ _ _).trans (addOutParam_ops _ _ _)) ?_ ?_
  · have hat := hs'.at_eq hb hsl
    have hin := hat.inParam hs' 0
    rw [hvt] at hin
    simp only [if_true, Option.getD_some] at hin
    have hv : hasVariable r (addr src) = true := by
      unfold hasVariable
      rw [hat.map]
      rfl
    simp only [recordCmd, recordMkperm, hv, if_true, hin, Option.map_some, h1, g1]
  · simp only [replayOp, replayMkperm, Op.dep, List.getD_cons_zero, List.getD_cons_succ]
    rw [hs'.size hh hsl]
    simp only [orRaise, show typeSize 8 = 4 from rfl]
    rw [Nat.mod_eq_of_lt hlt]
    simp only [Bool.false_eq_true, if_false]
    rw [hld]
    simp only [orUb, dataOf_ren]
    rw [st1]
    simp only
    rw [st2]

/-! ## Parameter blocks -/

theorem patch_ren (f : Nat → Nat) (cs new : List (Cell Nat)) (off : Nat) :
    patch (cs.map (ren f)) off (new.map (ren f)) = (patch cs off new).map (List.map (ren f)) := by
  unfold patch
  simp only [List.length_map]
  split_ifs
  · simp [List.map_take, List.map_drop]
  · rfl

theorem patch_refs {cs new cs1 : List (Cell Nat)} {off t : Nat} (h : patch cs off new = some cs1)
    (ht : t ∈ refsOf cs1) : t ∈ refsOf cs ∨ t ∈ refsOf new := by
  unfold patch at h
  split_ifs at h
  simp only [Option.some.injEq] at h
  subst h
  obtain ⟨k, hk⟩ := mem_refsOf.1 ht
  rw [List.mem_append, List.mem_append] at hk
  rcases hk with (hk | hk) | hk
  · exact Or.inl (mem_refsOf.2 ⟨k, List.mem_of_mem_take hk⟩)
  · exact Or.inr (mem_refsOf.2 ⟨k, hk⟩)
  · exact Or.inl (mem_refsOf.2 ⟨k, List.mem_of_mem_drop hk⟩)

theorem patch_length {cs new cs1 : List (Cell Nat)} {off : Nat} (h : patch cs off new = some cs1) :
    cs1.length = cs.length := by
  unfold patch at h
  split_ifs at h
  simp only [Option.some.injEq] at h
  subst h
  simp only [List.length_append, List.length_take, List.length_drop]
  omega

theorem buildBlock_length {es : List Entry} {cs cs1 : List (Cell Nat)}
    (h : buildBlock m es cs = some cs1) : cs1.length = cs.length := by
  induction es generalizing cs with
  | nil =>
    simp only [buildBlock, Option.some.injEq] at h
    rw [h]
  | cons e es ih =>
    simp only [buildBlock, Option.bind_eq_some_iff] at h
    obtain ⟨w, _, cs2, h2, h3⟩ := h
    rw [ih h3, patch_length h2]

/-- One entry of a parameter block: `st'` has the addresses and the contents. -/
theorem entry_sim {st' : RState} {m1 : Mem} (hs : Sim addr nin live r m1 st sl ρ)
    (hold : ∀ x b, m.buf x = some b → m1.buf x = some b)
    (hslot : ∀ x b s, m.buf x = some b → sl x = some s → st'.slot s = st.slot s)
    (hheap : st'.heap = st.heap) {e : Entry}
    (hval : ∀ off x size, e = .val off x size →
      ∃ b vt, m.buf x = some b ∧ b.vt = some vt ∧ typeSize vt = size)
    (hnum : ∀ off v, e = .lit off 8 v → ∀ x ∈ live, addr x ≠ v)
    {w : Nat × List (Cell Nat)} (he : entryCells m e = some w) :
    ∃ a, recordEntry addr (fun v => live.any fun x => decide (addr x = v)) r e = some (r, a) ∧
      a.offset = w.1 ∧ a.offset + entrySize a = e.stop ∧
      entryBytes st' a = some (w.2.map (ren ρ)) ∧ ∀ t ∈ refsOf w.2, (sl t).isSome := by
  cases e with
  | lit off size v =>
    simp only [entryCells, Option.some.injEq] at he
    subst he
    have hna : ¬ (size = 8 ∧ (live.any fun x => decide (addr x = v)) = true) := by
      rintro ⟨e, h⟩
      rw [List.any_eq_true] at h
      obtain ⟨x, hx, h⟩ := h
      exact hnum off v (e ▸ rfl) x hx (by simpa using h)
    refine ⟨{ ptype := .register, data := v, offset := off, tsize := size }, ?_, rfl, rfl, ?_, ?_⟩
    · simp only [recordEntry]
      rw [if_neg hna]
    · simp only [entryBytes, reduceCtorEq, if_false]
      rw [map_ren_none (refsOf_bytes_map _)]
    · exact refs_none (refsOf_bytes_map _)
  | ptr off x =>
    simp only [entryCells] at he
    split_ifs at he with hx
    simp only [Option.some.injEq] at he
    subst he
    obtain ⟨b, hb⟩ := Option.isSome_iff_exists.1 hx
    obtain ⟨s, hat⟩ := hs.look x b (hold x b hb)
    have hal : (live.any fun y => decide (addr y = addr x)) = true := by
      rw [List.any_eq_true]
      exact ⟨x, hs.live x (by rw [hold x b hb]; rfl), by simp⟩
    have hadd : addVariable r (addr x) = (r, s) := by
      unfold addVariable
      rw [hat.map]
    refine ⟨{ slot := s, ptype := .input, vtype := b.vt.getD 0, ptrAccess := true, offset := off,
              testUninit := false }, ?_, ?_, ?_, ?_, ?_⟩
    · simp only [recordEntry, hal, if_true, hadd]
      rw [hat.input hs _ rfl]
      rfl
    · rfl
    · simp [entrySize, Entry.stop]
    · simp only [entryBytes, if_true]
      rw [hslot x b s hb hat.asg, hat.slot]
      simp [ren]
    · intro t ht
      obtain ⟨k, hk⟩ := mem_refsOf.1 ht
      obtain ⟨j, _, hj⟩ := List.mem_map.1 hk
      simp only [Cell.ref.injEq] at hj
      rw [← hj.1, hat.asg]
      rfl
  | val off x size =>
    obtain ⟨b, vt, hb, hbv, hts⟩ := hval off x size rfl
    simp only [entryCells, Option.map_eq_some_iff] at he
    obtain ⟨cs, hcs, he⟩ := he
    subst he
    have hb1 := hold x b hb
    obtain ⟨s, hat⟩ := hs.look x b hb1
    have hadd : addVariable r (addr x) = (r, s) := by
      unfold addVariable
      rw [hat.map]
    have hread : m1.read x size = some cs := by
      unfold Mem.read Mem.get at hcs ⊢
      rw [hb1]
      rw [hb] at hcs
      exact hcs
    refine ⟨{ slot := s, ptype := .input, vtype := vt, offset := off, testUninit := false },
      ?_, ?_, ?_, ?_, ?_⟩
    · simp only [recordEntry, hadd]
      rw [hat.input hs _ rfl, hbv]
      rfl
    · rfl
    · simp [entrySize, Entry.stop, hts]
    · simp only [entryBytes, if_true, Bool.false_eq_true, if_false, hts]
      split_ifs with h0
      · subst h0
        have := read_length hcs
        have : cs = [] := List.eq_nil_of_length_eq_zero this
        simp [this]
      · have := hat.load hb1 hread
        unfold loadSlot Verif.Freeze.load at this ⊢
        rw [hslot x b s hb hat.asg, hheap]
        exact this
    · intro t ht
      exact hat.refs t (read_refs hb1 hread ht)

theorem entries_sim {st' : RState} {m1 : Mem} (hs : Sim addr nin live r m1 st sl ρ)
    (hold : ∀ x b, m.buf x = some b → m1.buf x = some b)
    (hslot : ∀ x b s, m.buf x = some b → sl x = some s → st'.slot s = st.slot s)
    (hheap : st'.heap = st.heap) {es : List Entry}
    (hval : ∀ off x size, .val off x size ∈ es →
      ∃ b vt, m.buf x = some b ∧ b.vt = some vt ∧ typeSize vt = size)
    (hnum : ∀ off v, .lit off 8 v ∈ es → ∀ x ∈ live, addr x ≠ v)
    {cs cs1 : List (Cell Nat)} (hr : ∀ t ∈ refsOf cs, (sl t).isSome)
    (he : buildBlock m es cs = some cs1) (acc : List Access) :
    ∃ as, recordEntries addr (fun v => live.any fun x => decide (addr x = v)) es r acc =
        some (r, acc ++ as) ∧
      as.map (fun a => a.offset + entrySize a) = es.map Entry.stop ∧
      writeEntries st' as (cs.map (ren ρ)) = some (cs1.map (ren ρ)) ∧
      ∀ t ∈ refsOf cs1, (sl t).isSome := by
  induction es generalizing cs acc with
  | nil =>
    simp only [buildBlock, Option.some.injEq] at he
    subst he
    exact ⟨[], by simp [recordEntries], rfl, rfl, hr⟩
  | cons e es ih =>
    simp only [buildBlock, Option.bind_eq_some_iff] at he
    obtain ⟨w, hw, cs2, h2, h3⟩ := he
    obtain ⟨a, ha1, ha2, ha3, ha4, ha5⟩ := entry_sim hs hold hslot hheap
      (e := e) (fun off x size h => hval off x size (h ▸ List.mem_cons_self ..))
      (fun off v h => hnum off v (h ▸ List.mem_cons_self ..)) hw
    have hr2 : ∀ t ∈ refsOf cs2, (sl t).isSome := by
      intro t ht
      rcases patch_refs h2 ht with h | h
      · exact hr t h
      · exact ha5 t h
    obtain ⟨as, hb1, hb2, hb3, hb4⟩ := ih
      (fun off x size h => hval off x size (List.mem_cons_of_mem _ h))
      (fun off v h => hnum off v (List.mem_cons_of_mem _ h)) hr2 h3 (acc ++ [a])
    refine ⟨a :: as, ?_, ?_, ?_, hb4⟩
    · simp only [recordEntries, ha1, Option.bind_some, hb1, List.append_assoc, List.cons_append,
        List.nil_append]
    · simp only [List.map_cons, ha3, hb2]
    · simp only [writeEntries, ha4, Option.bind_some, ha2, patch_ren, h2, Option.map_some, hb3]

theorem foldl_max_eq {α : Type} (f : α → Nat) (l : List α) (n : Nat) :
    l.foldl (fun n a => max n (f a)) n = max n (largest (l.map f)) := by
  induction l generalizing n with
  | nil => simp [largest]
  | cons a l ih =>
    simp only [List.foldl_cons, ih, List.map_cons, largest, List.foldr_cons]
    omega

theorem step_aggregate {dst total total' : Nat} {es : List Entry}
    (hs : Sim addr nin live r m st sl ρ) (hap : Apart addr ([dst] ++ live))
    (hnum : ∀ v ∈ (Cmd.aggregate dst total es).numbers, ∀ x ∈ [dst] ++ live, addr x ≠ v)
    (hw : Whole m (.aggregate dst total' es))
    (he : exec sem m (.aggregate dst total' es) = some m2) :
    StepOk sem addr nin live r m2 st sl ρ (.aggregate dst total es) := by
  obtain ⟨hval, htot, h0⟩ := hw
  have hs' := hs.weaken hap fun y hy => List.mem_append.2 (Or.inr hy)
  simp only [exec, Option.bind_eq_some_iff] at he
  obtain ⟨cs, hcs, he⟩ := he
  obtain ⟨hbo, hd, e⟩ := new_eq he
  obtain ⟨d, sl1, ρ1, h1, h2, h3, h4⟩ := hs'.alloc (x := dst) (bytes := total')
    (vt := some 4) (by simp) ⟨h0, Or.inl hbo⟩ (fun _ => hd) (by simp)
  have hm : m.ensure dst total' (some 4) =
      m.set dst { cells := List.replicate total' .undef, len := total', vt := some 4 } := by
    unfold Mem.ensure
    rw [hbo]
  rw [hm] at h4
  have hold : ∀ x b, m.buf x = some b →
      (m.set dst ⟨List.replicate total' .undef, total', some 4⟩).buf x = some b := by
    intro x b hb
    rw [Mem.set_other]
    · exact hb
    · intro e
      rw [e, hbo] at hb
      cases hb
  have hslot : ∀ x b s, m.buf x = some b → sl1 x = some s →
      (({ alloc false st d total' with slot := st.slot } : RState)).slot s =
        (alloc false st d total').slot s := by
    intro x b s hb hsx
    obtain ⟨s0, hat0⟩ := hs'.look x b hb
    have e0 : s0 = s := by
      have := (h2.some hat0.asg).symm.trans hsx
      simpa using this
    subst e0
    have hat1 := h4.at_eq (hold x b hb) hsx
    simp only
    rw [hat0.slot, hat1.slot, (h2 x (by rw [hat0.asg]; rfl)).2]
  have hrep : ∀ t ∈ refsOf (List.replicate total' (Cell.undef (α := Nat))), (sl1 t).isSome := by
    intro t ht
    obtain ⟨k, hk⟩ := mem_refsOf.1 ht
    have := List.eq_of_mem_replicate hk
    cases this
  have hnum' : ∀ off v, Entry.lit off 8 v ∈ es → ∀ x ∈ [dst] ++ live, addr x ≠ v := by
    intro off v hv
    exact hnum v (List.mem_filterMap.2 ⟨_, hv, rfl⟩)
  obtain ⟨as, ha1, ha2, ha3, ha4⟩ := entries_sim
    (st' := { alloc false st d total' with slot := st.slot }) h4 hold hslot rfl hval hnum' hrep hcs
    [{ slot := d, ptype := .output, vtype := 4 }]
  have hbs : blockSize as = total' := by
    unfold blockSize
    rw [foldl_max_eq, ha2, Nat.zero_max]
    exact htot.symm
  have hlen : cs.length = total' := by
    rw [buildBlock_length hcs]
    simp
  have hat := h4.at_eq (Mem.set_self _ _ _) h3
  have hld : loadSlot (alloc false st d total') d total' =
      some ((List.replicate total' (Cell.undef (α := Nat))).map (ren ρ1)) := by
    have hr : (m.set dst ⟨List.replicate total' .undef, total', some 4⟩).read dst total' =
        some (List.replicate total' .undef) := by
      unfold Mem.read Mem.get
      rw [Mem.set_self]
      simp
    exact hat.load (Mem.set_self _ _ _) hr
  have hst := hat.store (cs := cs.map (ren ρ1)) (by simp [hlen])
  have h5 := h4.fill (Mem.set_self _ _ _) (cs := cs) (by simp [hlen]) ha4
  simp only [Mem.fill, Mem.set_self, Mem.set_set] at h5
  rw [← e] at h5
  simp only [Option.getD_some] at h1 h5 ha1
  refine StepOk.one (op := {
      kind := .aggregate,
      deps := { slot := d, ptype := .output, vtype := 4 } :: as, size := es.length })
    h2 h5 (addOutParam_ops _ _ _) ?_ ?_
  · simp only [recordCmd, recordAggregate, h1]
    have ha1' := ha1
    simp only [List.cons_append, List.nil_append] at ha1'
    rw [ha1']
    rfl
  · simp only [replayOp, replayAggregate, Op.dep, List.getD_cons_zero, List.drop_succ_cons,
      List.drop_zero, hbs]
    simp only [hld, orUb, ha3, hst]
    simp only [Bool.false_eq_true, if_false]

end

end Verif.Freeze
