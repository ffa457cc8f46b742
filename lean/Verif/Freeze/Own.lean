import Verif.Freeze.Dry

/-!
# Ownership of memory during a replay
-/

namespace Verif.Freeze

/-! ## The slots that operations write -/

/-- The slots whose memory an operation allocates. -/
def Op.outs (op : Op) : List Nat :=
  match op.kind with
  | .barrier => []
  | .launch _ => (op.deps.filter fun a => decide (a.ptype = .output)).map (·.slot)
  | .memset _ => [(op.dep 0).slot]
  | .memcpy => [(op.dep 1).slot]
  | .compress => [(op.dep 1).slot]
  | .mkperm _ _ => [(op.dep 1).slot, (op.dep 2).slot]
  | .blockReduce _ => [(op.dep 1).slot]
  | .prefixReduce _ _ _ => [(op.dep 1).slot]
  | .reduceBool _ => [(op.dep 1).slot]
  | .dot => [(op.dep 0).slot]
  | .gemm _ _ _ _ _ _ => [(op.dep 0).slot]
  | .aggregate => [(op.dep 0).slot]
  | .opaqueWidth => [(op.dep 1).slot]
  | .undef => [(op.dep 0).slot]

/-! ## Invariant of the memory -/

/-- The memory during a replay that began with the blocks of `heap0`, all below `next0`;
`nin` inputs, `n` slots. -/
structure Owned (nin n : Nat) (data0 : Nat → Option Nat) (heap0 : Nat → Option (List (Cell Nat)))
    (next0 : Nat) (st : RState) : Prop where
  low : next0 ≤ st.next
  fresh : ∀ a, st.next ≤ a → st.heap a = none
  live : ∀ s a, (st.slot s).data = some a → (st.heap a).isSome
  inj : ∀ s t a, nin ≤ s → (st.slot s).data = some a → (st.slot t).data = some a → s = t
  cover : ∀ a, next0 ≤ a → (st.heap a).isSome →
    ∃ s, nin ≤ s ∧ s < n ∧ (st.slot s).data = some a
  inputs : ∀ s, s < nin → (st.slot s).data = data0 s
  old : ∀ a, a < next0 → (st.heap a).isSome = (heap0 a).isSome
  newer : ∀ s a, nin ≤ s → (st.slot s).data = some a → next0 ≤ a

variable {nin n : Nat} {data0 : Nat → Option Nat} {heap0 : Nat → Option (List (Cell Nat))}
  {next0 : Nat} {st st1 : RState} {sem : Sem}

/-- A change of the contents of blocks and of the sizes of slots. -/
theorem Owned.of_same (h : Owned nin n data0 heap0 next0 st)
    (hd : ∀ s, (st1.slot s).data = (st.slot s).data)
    (hh : ∀ a, (st1.heap a).isSome = (st.heap a).isSome) (hn : st1.next = st.next) :
    Owned nin n data0 heap0 next0 st1 where
  low := hn ▸ h.low
  fresh := fun a ha => by
    have := h.fresh a (hn ▸ ha)
    have e := hh a
    rw [this] at e
    cases hx : st1.heap a with
    | none => rfl
    | some _ =>
      rw [hx] at e
      cases e
  live := fun s a hs => by
    rw [hd] at hs
    rw [hh]
    exact h.live s a hs
  inj := fun s t a hi hs ht => by
    rw [hd] at hs ht
    exact h.inj s t a hi hs ht
  cover := fun a ha hx => by
    rw [hh] at hx
    obtain ⟨s, h1, h2, h3⟩ := h.cover a ha hx
    exact ⟨s, h1, h2, by rw [hd, h3]⟩
  inputs := fun s hs => by
    rw [hd]
    exact h.inputs s hs
  old := fun a ha => by
    rw [hh]
    exact h.old a ha
  newer := fun s a hs ha => by
    rw [hd] at ha
    exact h.newer s a hs ha

/-- Memory for an empty slot. -/
theorem Owned.give (h : Owned nin n data0 heap0 next0 st) {s size : Nat} (hs : nin ≤ s)
    (hn : s < n) (hd : (st.slot s).data = none) (hz : size ≠ 0) (v : Slot)
    (hv : v.data = some st.next) :
    Owned nin n data0 heap0 next0
      { slot := fun t => if t = s then v else st.slot t,
        heap := fun a => if a = st.next then some (List.replicate size .undef) else st.heap a,
        next := st.next + 1 } where
  low := Nat.le_trans h.low (Nat.le_succ _)
  fresh := fun a ha => by
    have ha : st.next + 1 ≤ a := ha
    have e : a ≠ st.next := by omega
    simp only [e, if_false]
    exact h.fresh a (by omega)
  live := fun t a ht => by
    by_cases e : t = s
    · simp only [e, if_true, hv, Option.some.injEq] at ht
      simp [← ht]
    · simp only [e, if_false] at ht
      by_cases e2 : a = st.next
      · simp [e2]
      · simp only [e2, if_false]
        exact h.live t a ht
  inj := fun t u a hi ht hu => by
    by_cases e1 : t = s
    · by_cases e2 : u = s
      · exact e1.trans e2.symm
      · simp only [e1, if_true, hv, Option.some.injEq] at ht
        simp only [e2, if_false] at hu
        have := h.live u a hu
        rw [← ht, h.fresh _ (Nat.le_refl _)] at this
        cases this
    · by_cases e2 : u = s
      · simp only [e2, if_true, hv, Option.some.injEq] at hu
        simp only [e1, if_false] at ht
        have := h.live t a ht
        rw [← hu, h.fresh _ (Nat.le_refl _)] at this
        cases this
      · simp only [e1, e2, if_false] at ht hu
        exact h.inj t u a hi ht hu
  cover := fun a ha hx => by
    by_cases e : a = st.next
    · exact ⟨s, hs, hn, by simp [hv, e]⟩
    · simp only [e, if_false] at hx
      obtain ⟨t, h1, h2, h3⟩ := h.cover a ha hx
      refine ⟨t, h1, h2, ?_⟩
      by_cases e2 : t = s
      · rw [e2, hd] at h3
        cases h3
      · simp only [e2, if_false]
        exact h3
  inputs := fun t ht => by
    have e : t ≠ s := by omega
    simp only [e, if_false]
    exact h.inputs t ht
  old := fun a ha => by
    have e : a ≠ st.next := by
      have := h.low
      omega
    simp only [e, if_false]
    exact h.old a ha
  newer := fun t a ht hta => by
    by_cases e : t = s
    · simp only [e, if_true, hv, Option.some.injEq] at hta
      rw [← hta]
      exact h.low
    · simp only [e, if_false] at hta
      exact h.newer t a ht hta

/-- The memory of a slot is released. -/
theorem Owned.take (h : Owned nin n data0 heap0 next0 st) {s a : Nat} (hs : nin ≤ s)
    (hd : (st.slot s).data = some a) (v : Slot) (hv : v.data = none) :
    Owned nin n data0 heap0 next0 ((mfree st a).setSlot s v) where
  low := h.low
  fresh := fun b hb => by
    have := h.fresh b hb
    simp [mfree, RState.setSlot, this]
  live := fun t b ht => by
    unfold RState.setSlot mfree at ht ⊢
    by_cases e : t = s
    · simp only [e, if_true, hv] at ht
      cases ht
    · simp only [e, if_false] at ht
      have hne : b ≠ a := by
        intro hb
        subst hb
        exact e (h.inj s t b hs hd ht).symm
      simp only [hne, if_false]
      exact h.live t b ht
  inj := fun t u b hi ht hu => by
    unfold RState.setSlot mfree at ht hu
    by_cases e1 : t = s
    · simp only [e1, if_true, hv] at ht
      cases ht
    · by_cases e2 : u = s
      · simp only [e2, if_true, hv] at hu
        cases hu
      · simp only [e1, e2, if_false] at ht hu
        exact h.inj t u b hi ht hu
  cover := fun b hb hx => by
    unfold RState.setSlot mfree at hx ⊢
    by_cases e : b = a
    · simp [e] at hx
    · simp only [e, if_false] at hx
      obtain ⟨t, h1, h2, h3⟩ := h.cover b hb hx
      refine ⟨t, h1, h2, ?_⟩
      by_cases e2 : t = s
      · rw [e2, hd] at h3
        exact absurd (Option.some.inj h3).symm e
      · simp only [e2, if_false]
        exact h3
  inputs := fun t ht => by
    have e : t ≠ s := by omega
    unfold RState.setSlot mfree
    simp only [e, if_false]
    exact h.inputs t ht
  old := fun b hb => by
    have e : b ≠ a := by
      have := h.newer s a hs hd
      omega
    unfold RState.setSlot mfree
    simp only [e, if_false]
    exact h.old b hb
  newer := fun t b ht htb => by
    unfold RState.setSlot mfree at htb
    by_cases e : t = s
    · simp only [e, if_true, hv] at htb
      cases htb
    · simp only [e, if_false] at htb
      exact h.newer t b ht htb

theorem Owned.alloc (h : Owned nin n data0 heap0 next0 st) {s : Nat} (hs : nin ≤ s) (hn : s < n)
    (size : Nat) : Owned nin n data0 heap0 next0 (Verif.Freeze.alloc false st s size) := by
  unfold Verif.Freeze.alloc
  cases hd : (st.slot s).data with
  | none =>
    simp only [Bool.false_eq_true, if_false, hd]
    by_cases hz : size = 0
    · refine h.of_same (fun t => ?_) (fun a => ?_) ?_
      · by_cases e : t = s
        · simp [RState.setSlot, malloc, hz, e, hd]
        · simp [RState.setSlot, malloc, hz, e]
      · simp [RState.setSlot, malloc, hz]
      · simp [RState.setSlot, malloc, hz]
    · have := h.give hs hn hd hz { data := some st.next, allocSize := size, dataSize := size } rfl
      simpa [RState.setSlot, malloc, hz] using this
  | some a =>
    simp only [Bool.false_eq_true, if_false]
    by_cases hl : (st.slot s).allocSize < size
    · have hz : size ≠ 0 := by omega
      have h1 := h.take hs hd {} rfl
      have h2 := h1.give hs hn (by simp [RState.setSlot]) hz
        { data := some st.next, allocSize := size, dataSize := size } rfl
      simp only [hd, hl, if_true]
      have e : (malloc (mfree st a) size).1.setSlot s
          { data := (malloc (mfree st a) size).2, allocSize := size, dataSize := size } =
          { slot := fun t => if t = s then { data := some st.next, allocSize := size, dataSize := size }
              else ((mfree st a).setSlot s {}).slot t,
            heap := fun b => if b = ((mfree st a).setSlot s {}).next then
              some (List.replicate size .undef) else ((mfree st a).setSlot s {}).heap b,
            next := ((mfree st a).setSlot s {}).next + 1 } := by
        unfold malloc
        rw [if_neg hz]
        unfold RState.setSlot mfree
        congr 1
        funext t
        by_cases e : t = s <;> simp [e]
      rw [e]
      exact h2
    · simp only [hd, hl, if_false]
      refine h.of_same (fun t => ?_) (fun a => rfl) rfl
      by_cases e : t = s
      · simp [RState.setSlot, e, hd]
      · simp [RState.setSlot, e]

theorem Owned.store (h : Owned nin n data0 heap0 next0 st) {s : Nat} {cs : List (Cell Nat)}
    (hs : storeSlot st s cs = some st1) : Owned nin n data0 heap0 next0 st1 := by
  have e := storeSlot_slot hs
  unfold storeSlot at hs
  rw [Option.bind_eq_some_iff] at hs
  obtain ⟨a, _, hs⟩ := hs
  unfold Verif.Freeze.store at hs
  rw [Option.bind_eq_some_iff] at hs
  obtain ⟨old, ho, hs⟩ := hs
  split at hs
  · cases hs
    refine h.of_same (fun t => rfl) (fun b => ?_) rfl
    by_cases e : b = a
    · simp [e, ho]
    · simp [e]
  · cases hs

theorem Owned.blocks (h : Owned nin n data0 heap0 next0 st) (ws : List (Nat × List (Cell Nat))) :
    Owned nin n data0 heap0 next0 (storeBlocks ws st) := by
  induction ws generalizing st with
  | nil => exact h
  | cons w ws ih =>
    unfold storeBlocks
    refine ih (h.of_same (fun t => rfl) (fun b => ?_) rfl)
    by_cases e : b = w.1
    · simp [e]
    · simp [e]

theorem Owned.store_ok (h : Owned nin n data0 heap0 next0 st) {s : Nat} {cs : List (Cell Nat)}
    (hs : orUb (storeSlot st s cs) .ok = .ok st1) : Owned nin n data0 heap0 next0 st1 := by
  obtain ⟨x, hx, hs⟩ := orUb_ok hs
  cases hs
  exact h.store hx

theorem Owned.params (h : Owned nin n data0 heap0 next0 st) (k : Nat) (as : List Access)
    (hs : ∀ a ∈ as, a.ptype = .output → nin ≤ a.slot ∧ a.slot < n) (ps : List (Option Nat)) :
    Owned nin n data0 heap0 next0 (launchParams false k as st ps).1 := by
  induction as generalizing st ps with
  | nil => exact h
  | cons a as ih =>
    unfold launchParams
    by_cases ha : a.ptype = .output
    · rw [if_pos ha]
      have := hs a (List.mem_cons_self ..) ha
      exact ih (h.alloc this.1 this.2 _) (fun b hb => hs b (List.mem_cons_of_mem _ hb)) _
    · rw [if_neg ha]
      exact ih h (fun b hb => hs b (List.mem_cons_of_mem _ hb)) _

theorem step_owned (h : Owned nin n data0 heap0 next0 st) (op : Op)
    (hs : ∀ s ∈ op.outs, nin ≤ s ∧ s < n) (hr : replayOp sem false st op = .ok st1) :
    Owned nin n data0 heap0 next0 st1 := by
  unfold replayOp at hr
  unfold Op.outs at hs
  cases hk : op.kind with
  | barrier =>
    rw [hk] at hr
    cases hr
    exact h
  | launch k =>
    rw [hk] at hr hs
    simp only [replayLaunch] at hr
    obtain ⟨z, hz, hr⟩ := bind_ok hr
    simp only [Bool.false_eq_true, if_false] at hr
    obtain ⟨ps, _, hr⟩ := orUb_ok hr
    obtain ⟨ws, _, hr⟩ := orUb_ok hr
    cases hr
    refine Owned.blocks (Owned.params h _ _ ?_ _) ws
    intro a ha hp
    exact hs a.slot (List.mem_map_of_mem (List.mem_filter.2 ⟨ha, by simpa using hp⟩))
  | memset v =>
    rw [hk] at hr hs
    simp only [replayMemset] at hr
    obtain ⟨z, hz, hr⟩ := orRaise_ok hr
    simp only [Bool.false_eq_true, if_false] at hr
    have := hs _ (List.mem_cons_self ..)
    exact (h.alloc this.1 this.2 _).store_ok hr
  | compress =>
    rw [hk] at hr hs
    simp only [replayCompress] at hr
    obtain ⟨z, hz, hr⟩ := orRaise_ok hr
    simp only [Bool.false_eq_true, if_false] at hr
    obtain ⟨cs, _, hr⟩ := orUb_ok hr
    obtain ⟨st2, h2, hr⟩ := orUb_ok hr
    cases hr
    have := hs _ (List.mem_cons_self ..)
    refine ((h.alloc this.1 this.2 _).store h2).of_same (fun t => ?_) (fun a => rfl) rfl
    by_cases e : t = (op.dep 1).slot
    · simp [RState.setSlot, e]
    · simp [RState.setSlot, e]
  | memcpy =>
    rw [hk] at hr hs
    simp only [replayMemcpy, Bool.false_eq_true, if_false] at hr
    have := hs _ (List.mem_cons_self ..)
    split at hr
    · cases hr
      exact h.alloc this.1 this.2 _
    · obtain ⟨cs, _, hr⟩ := orUb_ok hr
      exact (h.alloc this.1 this.2 _).store_ok hr
  | mkperm buckets bs =>
    rw [hk] at hr hs
    simp only [replayMkperm] at hr
    obtain ⟨z, hz, hr⟩ := orRaise_ok hr
    simp only [Bool.false_eq_true, if_false] at hr
    obtain ⟨cs, _, hr⟩ := orUb_ok hr
    obtain ⟨st2, h2, hr⟩ := orUb_ok hr
    have k1 := hs _ (List.mem_cons_self ..)
    have k2 := hs _ (List.mem_cons_of_mem _ (List.mem_cons_self ..))
    exact (((h.alloc k1.1 k1.2 _).alloc k2.1 k2.2 _).store h2).store_ok hr
  | blockReduce rop =>
    rw [hk] at hr hs
    simp only [replayBlockReduce] at hr
    obtain ⟨z, hz, hr⟩ := orRaise_ok hr
    generalize (if op.inputSize = op.size then z else op.inputSize) = bs at hr
    by_cases hm : z % bs ≠ 0
    · rw [if_pos hm] at hr
      cases hr
    · rw [if_neg hm] at hr
      simp only [Bool.false_eq_true, if_false] at hr
      obtain ⟨cs, _, hr⟩ := orUb_ok hr
      have := hs _ (List.mem_cons_self ..)
      exact (h.alloc this.1 this.2 _).store_ok hr
  | prefixReduce rop ex rev =>
    rw [hk] at hr hs
    simp only [replayPrefixReduce] at hr
    obtain ⟨z, hz, hr⟩ := orRaise_ok hr
    generalize (if op.inputSize = op.size then z else op.inputSize) = bs at hr
    by_cases hm : z % bs ≠ 0
    · rw [if_pos hm] at hr
      cases hr
    · rw [if_neg hm] at hr
      simp only [Bool.false_eq_true, if_false] at hr
      obtain ⟨cs, _, hr⟩ := orUb_ok hr
      have := hs _ (List.mem_cons_self ..)
      exact (h.alloc this.1 this.2 _).store_ok hr
  | dot =>
    rw [hk] at hr hs
    simp only [replayDot] at hr
    obtain ⟨z, hz, hr⟩ := orRaise_ok hr
    obtain ⟨z2, hz2, hr⟩ := orRaise_ok hr
    simp only [Bool.false_eq_true, if_false, false_and] at hr
    obtain ⟨cs, _, hr⟩ := orUb_ok hr
    obtain ⟨ds, _, hr⟩ := orUb_ok hr
    have := hs _ (List.mem_cons_self ..)
    exact (h.alloc this.1 this.2 _).store_ok hr
  | gemm flags M N K grid batch =>
    rw [hk] at hr hs
    simp only [replayGemm] at hr
    obtain ⟨z, hz, hr⟩ := orRaise_ok hr
    split at hr
    · simp at hr
    · obtain ⟨z2, hz2, hr⟩ := orRaise_ok hr
      split at hr
      · simp at hr
      · simp only [Bool.false_eq_true, if_false] at hr
        obtain ⟨cs, _, hr⟩ := orUb_ok hr
        obtain ⟨ds, _, hr⟩ := orUb_ok hr
        have := hs _ (List.mem_cons_self ..)
        exact (h.alloc this.1 this.2 _).store_ok hr
  | aggregate =>
    rw [hk] at hr hs
    simp only [replayAggregate, Bool.false_eq_true, if_false] at hr
    obtain ⟨cs, _, hr⟩ := orUb_ok hr
    obtain ⟨ds, _, hr⟩ := orUb_ok hr
    have := hs _ (List.mem_cons_self ..)
    exact (h.alloc this.1 this.2 _).store_ok hr
  | opaqueWidth =>
    rw [hk] at hr hs
    simp only [replayOpaqueWidth] at hr
    obtain ⟨z, hz, hr⟩ := orRaise_ok hr
    simp only [Bool.false_eq_true, if_false] at hr
    have := hs _ (List.mem_cons_self ..)
    exact (h.alloc this.1 this.2 _).store_ok hr
  | undef =>
    rw [hk] at hr hs
    simp only [replayUndef] at hr
    cases hr
    have := hs _ (List.mem_cons_self ..)
    exact h.alloc this.1 this.2 _
  | reduceBool rop =>
    rw [hk] at hr hs
    simp only [replayReduceBool] at hr
    obtain ⟨z, hz, hr⟩ := orRaise_ok hr
    simp only [Bool.false_eq_true, if_false] at hr
    obtain ⟨cs, _, hr⟩ := orUb_ok hr
    have := hs _ (List.mem_cons_self ..)
    exact (h.alloc this.1 this.2 _).store_ok hr

theorem ops_owned (h : Owned nin n data0 heap0 next0 st) (ops : List Op)
    (hs : ∀ op ∈ ops, ∀ s ∈ op.outs, nin ≤ s ∧ s < n)
    (hr : replayOps sem false st ops = .ok st1) : Owned nin n data0 heap0 next0 st1 := by
  induction ops generalizing st with
  | nil =>
    cases hr
    exact h
  | cons op ops ih =>
    unfold replayOps at hr
    obtain ⟨st2, h2, hr⟩ := bind_ok hr
    exact ih (step_owned h op (hs op (List.mem_cons_self ..)) h2)
      (fun o ho => hs o (List.mem_cons_of_mem _ ho)) hr

end Verif.Freeze
