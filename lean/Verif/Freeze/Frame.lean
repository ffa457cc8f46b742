import Verif.Freeze.Dry
import Verif.Freeze.Kernel

/-!
# The memory that a replay accesses
-/

namespace Verif.Freeze

/-- All pointers lead into `O`. -/
def RefsIn (O : Nat → Prop) (cs : List (Cell Nat)) : Prop := ∀ t k, Cell.ref t k ∈ cs → O t

/-- A state of a replay that only has access to blocks in `O`; `heap0` is the memory at the
beginning. -/
structure Confined (O : Nat → Prop) (heap0 : Nat → Option (List (Cell Nat))) (st : RState) :
    Prop where
  slots : ∀ s a, (st.slot s).data = some a → O a
  closed : ∀ a cs, O a → st.heap a = some cs → RefsIn O cs
  rest : ∀ a, ¬ O a → st.heap a = heap0 a
  fresh : ∀ a, st.next ≤ a → O a

variable {O : Nat → Prop} {heap0 : Nat → Option (List (Cell Nat))} {st st1 : RState} {sem : Sem}

theorem RefsIn.append {cs ds : List (Cell Nat)} (h1 : RefsIn O cs) (h2 : RefsIn O ds) :
    RefsIn O (cs ++ ds) := by
  intro t k h
  rcases List.mem_append.1 h with h | h
  · exact h1 t k h
  · exact h2 t k h

theorem RefsIn.sub {cs ds : List (Cell Nat)} (h1 : RefsIn O cs) (h : ∀ c ∈ ds, c ∈ cs) :
    RefsIn O ds := fun t k hm => h1 t k (h _ hm)

theorem refsIn_bytes (p : Prim) (l : List (List (Option Nat))) (n : Nat) :
    RefsIn O (sem.bytes p l n) := by
  intro t k h
  unfold Sem.bytes at h
  unfold fit at h
  have := List.mem_of_mem_take h
  rcases List.mem_append.1 this with h | h
  · obtain ⟨x, _, e⟩ := List.mem_map.1 h
    cases x <;> cases e
  · have := List.eq_of_mem_replicate h
    cases this

theorem refsIn_data (l : List Nat) : RefsIn O (l.map Cell.byte) := by
  intro t k h
  obtain ⟨x, _, e⟩ := List.mem_map.1 h
  cases e

theorem refsIn_undef (n : Nat) : RefsIn O (List.replicate n Cell.undef) := by
  intro t k h
  have := List.eq_of_mem_replicate h
  cases this

theorem Confined.setSlot (h : Confined O heap0 st) (s : Nat) (v : Slot)
    (hv : ∀ a, v.data = some a → O a) : Confined O heap0 (st.setSlot s v) where
  slots := fun t a ha => by
    unfold RState.setSlot at ha
    by_cases e : t = s
    · simp only [e, if_true] at ha
      exact hv a ha
    · simp only [e, if_false] at ha
      exact h.slots t a ha
  closed := h.closed
  rest := h.rest
  fresh := h.fresh

theorem Confined.mfree (h : Confined O heap0 st) {a : Nat} (ha : O a) :
    Confined O heap0 (Verif.Freeze.mfree st a) where
  slots := h.slots
  closed := fun b cs hb hc => by
    unfold Verif.Freeze.mfree at hc
    by_cases e : b = a
    · simp only [e, if_true] at hc
      cases hc
    · simp only [e, if_false] at hc
      exact h.closed b cs hb hc
  rest := fun b hb => by
    unfold Verif.Freeze.mfree
    by_cases e : b = a
    · exact absurd (e ▸ ha) hb
    · simp only [e, if_false]
      exact h.rest b hb
  fresh := h.fresh

theorem Confined.malloc (h : Confined O heap0 st) (n : Nat) :
    Confined O heap0 (Verif.Freeze.malloc st n).1 ∧
      ∀ a, (Verif.Freeze.malloc st n).2 = some a → O a := by
  unfold Verif.Freeze.malloc
  by_cases hn : n = 0
  · simp only [hn, if_true]
    exact ⟨h, fun a ha => (nomatch ha)⟩
  · simp only [hn, if_false]
    refine ⟨⟨h.slots, ?_, ?_, ?_⟩, ?_⟩
    · intro a cs ha hc
      by_cases e : a = st.next
      · simp only [e, if_true, Option.some.injEq] at hc
        subst hc
        exact refsIn_undef n
      · simp only [e, if_false] at hc
        exact h.closed a cs ha hc
    · intro a ha
      have e : a ≠ st.next := by
        rintro rfl
        exact ha (h.fresh _ (Nat.le_refl _))
      simp only [e, if_false]
      exact h.rest a ha
    · intro a ha
      exact h.fresh a (Nat.le_trans (Nat.le_succ _) ha)
    · intro a ha
      cases ha
      exact h.fresh _ (Nat.le_refl _)

theorem Confined.alloc (h : Confined O heap0 st) (s size : Nat) :
    Confined O heap0 (Verif.Freeze.alloc false st s size) := by
  unfold Verif.Freeze.alloc
  cases hd : (st.slot s).data with
  | none =>
    simp only [Bool.false_eq_true, if_false, hd]
    obtain ⟨h1, h2⟩ := h.malloc size
    exact h1.setSlot s _ h2
  | some a =>
    have ha := h.slots s a hd
    simp only [Bool.false_eq_true, if_false, hd]
    split
    · obtain ⟨h1, h2⟩ := (h.mfree ha).malloc size
      exact h1.setSlot s _ h2
    · refine h.setSlot s _ fun b hb => ?_
      simp only [hd, Option.some.injEq] at hb
      exact hb ▸ ha

theorem Confined.storeSlot (h : Confined O heap0 st) {s : Nat} {cs : List (Cell Nat)}
    (hcs : RefsIn O cs) (hs : Verif.Freeze.storeSlot st s cs = some st1) :
    Confined O heap0 st1 := by
  unfold Verif.Freeze.storeSlot at hs
  rw [Option.bind_eq_some_iff] at hs
  obtain ⟨a, ha, hs⟩ := hs
  have hO := h.slots s a ha
  unfold store at hs
  rw [Option.bind_eq_some_iff] at hs
  obtain ⟨old, ho, hs⟩ := hs
  split at hs
  · cases hs
    refine ⟨h.slots, ?_, ?_, h.fresh⟩
    · intro b ds hb hd
      by_cases e : b = a
      · simp only [e, if_true, Option.some.injEq] at hd
        subst hd
        exact hcs.append ((h.closed a old hO ho).sub fun c hc => List.mem_of_mem_drop hc)
      · simp only [e, if_false] at hd
        exact h.closed b ds hb hd
    · intro b hb
      have e : b ≠ a := by
        rintro rfl
        exact hb hO
      simp only [e, if_false]
      exact h.rest b hb
  · cases hs

theorem Confined.store_ok (h : Confined O heap0 st) {s : Nat} {cs : List (Cell Nat)}
    (hcs : RefsIn O cs) (hs : orUb (Verif.Freeze.storeSlot st s cs) .ok = .ok st1) :
    Confined O heap0 st1 := by
  obtain ⟨x, hx, hs⟩ := orUb_ok hs
  cases hs
  exact h.storeSlot hcs hx

theorem Confined.loadSlot (h : Confined O heap0 st) {s n : Nat} {cs : List (Cell Nat)}
    (hs : Verif.Freeze.loadSlot st s n = some cs) : RefsIn O cs := by
  unfold Verif.Freeze.loadSlot load at hs
  rw [Option.bind_eq_some_iff] at hs
  obtain ⟨a, ha, hs⟩ := hs
  rw [Option.bind_eq_some_iff] at hs
  obtain ⟨old, ho, hs⟩ := hs
  split at hs
  · cases hs
    exact (h.closed a old (h.slots s a ha) ho).sub fun c hc => List.mem_of_mem_take hc
  · cases hs

theorem Confined.blocks (h : Confined O heap0 st) {ws : List (Nat × List (Cell Nat))}
    (hw : ∀ w ∈ ws, O w.1 ∧ RefsIn O w.2) : Confined O heap0 (storeBlocks ws st) := by
  induction ws generalizing st with
  | nil => exact h
  | cons w ws ih =>
    unfold storeBlocks
    refine ih ?_ fun v hv => hw v (List.mem_cons_of_mem _ hv)
    obtain ⟨h1, h2⟩ := hw w (List.mem_cons_self ..)
    refine ⟨h.slots, ?_, ?_, h.fresh⟩
    · intro b ds hb hd
      by_cases e : b = w.1
      · simp only [e, if_true] at hd
        obtain ⟨x, _, rfl⟩ := Option.map_eq_some_iff.1 hd
        exact h2
      · simp only [e, if_false] at hd
        exact h.closed b ds hb hd
    · intro b hb
      have e : b ≠ w.1 := by
        rintro rfl
        exact hb h1
      simp only [e, if_false]
      exact h.rest b hb

theorem Confined.kernel (h : Confined O heap0 st) {f : KernelFn} {ps : List Nat}
    {ws : List (Nat × List (Cell Nat))} (hps : ∀ p ∈ ps, O p)
    (hk : callKernel f st.heap ps = some ws) : ∀ w ∈ ws, O w.1 ∧ RefsIn O w.2 := by
  unfold callKernel at hk
  rw [Option.bind_eq_some_iff] at hk
  obtain ⟨cs, hcs, hk⟩ := hk
  simp only at hk
  rw [Option.bind_eq_some_iff] at hk
  obtain ⟨contents, hcon, hk⟩ := hk
  have hget : ∀ (l : List Nat) (ds : List (List (Cell Nat))), l.mapM st.heap = some ds →
      (∀ p ∈ l, O p) → ∀ d ∈ ds, RefsIn O d := by
    intro l
    induction l with
    | nil =>
      intro ds hd _ d hm
      simp at hd
      subst hd
      cases hm
    | cons p l ih =>
      intro ds hd hO d hm
      simp only [List.mapM_cons, bind, Option.bind_eq_some_iff, pure, Option.some.injEq] at hd
      obtain ⟨x, hx, ys, hys, rfl⟩ := hd
      rcases List.mem_cons.1 hm with rfl | hm
      · exact h.closed p d (hO p (List.mem_cons_self ..)) hx
      · exact ih ys hys (fun q hq => hO q (List.mem_cons_of_mem _ hq)) d hm
  have hvs : ∀ v ∈ uniq (ps ++ cs.flatMap refsOf), O v := by
    intro v hv
    rw [mem_uniq] at hv
    rcases List.mem_append.1 hv with hv | hv
    · exact hps v hv
    · obtain ⟨d, hd, hv⟩ := List.mem_flatMap.1 hv
      unfold refsOf at hv
      obtain ⟨c, hc, e⟩ := List.mem_filterMap.1 hv
      cases c with
      | byte b => cases e
      | undef => cases e
      | ref t k =>
        cases e
        exact hget ps cs hcs hps d hd _ _ hc
  cases hk
  intro w hw
  obtain ⟨e, he, rfl⟩ := List.mem_map.1 hw
  have hz := List.of_mem_zip (List.fst_mem_of_mem_zipIdx he)
  refine ⟨hvs _ hz.1, ?_⟩
  have hold := hget _ _ hcon hvs _ hz.2
  unfold written
  split
  · exact hold
  · intro t k hm
    unfold fit at hm
    rcases List.mem_append.1 (List.mem_of_mem_take hm) with hm | hm
    · obtain ⟨c, _, e2⟩ := List.mem_map.1 hm
      cases c with
      | byte b => cases e2
      | undef => cases e2
      | ref i k' =>
        unfold uncanon at e2
        simp only at e2
        split at e2
        · rename_i t' ht
          cases e2
          exact hvs _ (List.mem_of_getElem? ht)
        · cases e2
    · have := List.eq_of_mem_replicate hm
      cases this

theorem Confined.params (h : Confined O heap0 st) (k : Nat) (as : List Access)
    {ps : List (Option Nat)} (hps : ∀ a, some a ∈ ps → O a) :
    Confined O heap0 (launchParams false k as st ps).1 ∧
      ∀ a, some a ∈ (launchParams false k as st ps).2 → O a := by
  induction as generalizing st ps with
  | nil => exact ⟨h, hps⟩
  | cons a as ih =>
    unfold launchParams
    have key : ∀ st1, Confined O heap0 st1 →
        ∀ b, some b ∈ ps ++ [(st1.slot a.slot).data] → O b := by
      intro st1 h1 b hb
      rcases List.mem_append.1 hb with hb | hb
      · exact hps b hb
      · rw [List.mem_singleton] at hb
        exact h1.slots _ b hb.symm
    by_cases ha : a.ptype = .output
    · rw [if_pos ha]
      exact ih (h.alloc _ _) (key _ (h.alloc _ _))
    · rw [if_neg ha]
      exact ih h (key _ h)

theorem Confined.entries (h : Confined O heap0 st) {as : List Access} {cs ds : List (Cell Nat)}
    (hc : RefsIn O cs) (hr : writeEntries st as cs = some ds) : RefsIn O ds := by
  induction as generalizing cs with
  | nil =>
    cases hr
    exact hc
  | cons a as ih =>
    unfold writeEntries at hr
    rw [Option.bind_eq_some_iff] at hr
    obtain ⟨w, hw, hr⟩ := hr
    rw [Option.bind_eq_some_iff] at hr
    obtain ⟨c2, hc2, hr⟩ := hr
    refine ih ?_ hr
    have hw' : RefsIn O w := by
      unfold entryBytes at hw
      split at hw
      · split at hw
        · cases hw
          split
          · rename_i p hp
            intro t k hm
            obtain ⟨i, _, e⟩ := List.mem_map.1 hm
            cases e
            exact h.slots _ _ hp
          · intro t k hm
            have := List.eq_of_mem_replicate hm
            cases this
        · split at hw
          · cases hw
            intro t k hm
            cases hm
          · exact h.loadSlot hw
      · cases hw
        exact refsIn_data _
    unfold patch at hc2
    split at hc2
    · cases hc2
      exact ((hc.sub fun c hm => List.mem_of_mem_take hm).append hw').append
        (hc.sub fun c hm => List.mem_of_mem_drop hm)
    · cases hc2

theorem step_confined (h : Confined O heap0 st) (op : Op)
    (hr : replayOp sem false st op = .ok st1) : Confined O heap0 st1 := by
  unfold replayOp at hr
  cases hk : op.kind with
  | barrier =>
    rw [hk] at hr
    cases hr
    exact h
  | launch k =>
    rw [hk] at hr
    simp only [replayLaunch] at hr
    obtain ⟨z, hz, hr⟩ := bind_ok hr
    simp only [Bool.false_eq_true, if_false] at hr
    obtain ⟨ps, hps, hr⟩ := orUb_ok hr
    obtain ⟨ws, hws, hr⟩ := orUb_ok hr
    cases hr
    obtain ⟨h1, h2⟩ := h.params (launchSize op z.1 z.2) op.deps (ps := []) fun a ha => by cases ha
    refine h1.blocks (h1.kernel ?_ hws)
    have : ∀ (l : List (Option Nat)) (qs : List Nat), l.mapM id = some qs →
        ∀ q ∈ qs, some q ∈ l := by
      intro l
      induction l with
      | nil =>
        intro qs hq q hm
        simp at hq
        subst hq
        cases hm
      | cons x l ih =>
        intro qs hq q hm
        simp only [List.mapM_cons, bind, Option.bind_eq_some_iff, pure, Option.some.injEq, id] at hq
        obtain ⟨y, hy, ys, hys, rfl⟩ := hq
        rcases List.mem_cons.1 hm with rfl | hm
        · rw [hy]
          exact List.mem_cons_self ..
        · exact List.mem_cons_of_mem _ (ih ys hys q hm)
    exact fun p hp => h2 p (this _ _ hps p hp)
  | memset v =>
    rw [hk] at hr
    simp only [replayMemset] at hr
    obtain ⟨z, hz, hr⟩ := orRaise_ok hr
    simp only [Bool.false_eq_true, if_false] at hr
    refine (h.alloc _ _).store_ok ?_ hr
    intro t k hm
    obtain ⟨l, hl, hm⟩ := List.mem_flatten.1 hm
    rw [List.eq_of_mem_replicate hl] at hm
    exact refsIn_data (O := O) _ t k hm
  | compress =>
    rw [hk] at hr
    simp only [replayCompress] at hr
    obtain ⟨z, hz, hr⟩ := orRaise_ok hr
    simp only [Bool.false_eq_true, if_false] at hr
    obtain ⟨cs, _, hr⟩ := orUb_ok hr
    obtain ⟨st2, h2, hr⟩ := orUb_ok hr
    cases hr
    have h3 := (h.alloc _ _).storeSlot (refsIn_bytes _ _ _) h2
    exact h3.setSlot _ _ fun a ha => h3.slots _ a ha
  | memcpy =>
    rw [hk] at hr
    simp only [replayMemcpy, Bool.false_eq_true, if_false] at hr
    split at hr
    · cases hr
      exact h.alloc _ _
    · obtain ⟨cs, hcs, hr⟩ := orUb_ok hr
      exact (h.alloc _ _).store_ok ((h.alloc _ _).loadSlot hcs) hr
  | mkperm buckets bs =>
    rw [hk] at hr
    simp only [replayMkperm] at hr
    obtain ⟨z, hz, hr⟩ := orRaise_ok hr
    simp only [Bool.false_eq_true, if_false] at hr
    obtain ⟨cs, _, hr⟩ := orUb_ok hr
    obtain ⟨st2, h2, hr⟩ := orUb_ok hr
    exact (((h.alloc _ _).alloc _ _).storeSlot (refsIn_bytes _ _ _) h2).store_ok
      (refsIn_bytes _ _ _) hr
  | blockReduce rop =>
    rw [hk] at hr
    simp only [replayBlockReduce] at hr
    obtain ⟨z, hz, hr⟩ := orRaise_ok hr
    generalize (if op.inputSize = op.size then z else op.inputSize) = bs at hr
    by_cases hm : z % bs ≠ 0
    · rw [if_pos hm] at hr
      cases hr
    · rw [if_neg hm] at hr
      simp only [Bool.false_eq_true, if_false] at hr
      obtain ⟨cs, _, hr⟩ := orUb_ok hr
      exact (h.alloc _ _).store_ok (refsIn_bytes _ _ _) hr
  | prefixReduce rop ex rev =>
    rw [hk] at hr
    simp only [replayPrefixReduce] at hr
    obtain ⟨z, hz, hr⟩ := orRaise_ok hr
    generalize (if op.inputSize = op.size then z else op.inputSize) = bs at hr
    by_cases hm : z % bs ≠ 0
    · rw [if_pos hm] at hr
      cases hr
    · rw [if_neg hm] at hr
      simp only [Bool.false_eq_true, if_false] at hr
      obtain ⟨cs, _, hr⟩ := orUb_ok hr
      exact (h.alloc _ _).store_ok (refsIn_bytes _ _ _) hr
  | dot =>
    rw [hk] at hr
    simp only [replayDot] at hr
    obtain ⟨z, hz, hr⟩ := orRaise_ok hr
    obtain ⟨z2, hz2, hr⟩ := orRaise_ok hr
    simp only [Bool.false_eq_true, if_false, false_and] at hr
    obtain ⟨cs, _, hr⟩ := orUb_ok hr
    obtain ⟨ds, _, hr⟩ := orUb_ok hr
    exact (h.alloc _ _).store_ok (refsIn_bytes _ _ _) hr
  | gemm flags M N K grid batch =>
    rw [hk] at hr
    simp only [replayGemm] at hr
    obtain ⟨z, hz, hr⟩ := orRaise_ok hr
    split at hr
    · simp at hr
    · obtain ⟨z2, hz2, hr⟩ := orRaise_ok hr
      split at hr
      · simp at hr
      · simp only [Bool.false_eq_true, if_false] at hr
        obtain ⟨cs, _, hr⟩ := orUb_ok hr
        obtain ⟨ds, _, hr⟩ := orUb_ok hr
        exact (h.alloc _ _).store_ok (refsIn_bytes _ _ _) hr
  | aggregate =>
    rw [hk] at hr
    simp only [replayAggregate, Bool.false_eq_true, if_false] at hr
    obtain ⟨cs, hcs, hr⟩ := orUb_ok hr
    obtain ⟨ds, hds, hr⟩ := orUb_ok hr
    have h1 := h.alloc (op.dep 0).slot (blockSize (op.deps.drop 1))
    have h2 : Confined O heap0
        { alloc false st (op.dep 0).slot (blockSize (op.deps.drop 1)) with slot := st.slot } :=
      ⟨h.slots, h1.closed, h1.rest, h1.fresh⟩
    exact h1.store_ok (h2.entries (h1.loadSlot hcs) hds) hr
  | opaqueWidth =>
    rw [hk] at hr
    simp only [replayOpaqueWidth] at hr
    obtain ⟨z, hz, hr⟩ := orRaise_ok hr
    simp only [Bool.false_eq_true, if_false] at hr
    exact (h.alloc _ _).store_ok (refsIn_data _) hr
  | undef =>
    rw [hk] at hr
    simp only [replayUndef] at hr
    cases hr
    exact h.alloc _ _
  | reduceBool rop =>
    rw [hk] at hr
    simp only [replayReduceBool] at hr
    obtain ⟨z, hz, hr⟩ := orRaise_ok hr
    simp only [Bool.false_eq_true, if_false] at hr
    obtain ⟨cs, _, hr⟩ := orUb_ok hr
    exact (h.alloc _ _).store_ok (refsIn_bytes _ _ _) hr

theorem ops_confined (h : Confined O heap0 st) (ops : List Op)
    (hr : replayOps sem false st ops = .ok st1) : Confined O heap0 st1 := by
  induction ops generalizing st with
  | nil =>
    cases hr
    exact h
  | cons op ops ih =>
    unfold replayOps at hr
    obtain ⟨st2, h2, hr⟩ := bind_ok hr
    exact ih (step_confined h op h2) hr

theorem Confined.temps (h : Confined O heap0 st) (rc : Recording) (ss : List Nat) :
    Confined O heap0 (freeTemps rc ss st) := by
  induction ss generalizing st with
  | nil => exact h
  | cons s ss ih =>
    unfold freeTemps
    apply ih
    split
    · split
      · rename_i a ha
        exact (h.mfree (h.slots s a ha)).setSlot s {} fun b hb => (nomatch hb)
      · exact h
    · exact h

end Verif.Freeze
