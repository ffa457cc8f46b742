import Verif.Freeze.Model

/-!
# Dry runs and replays determine the same sizes
-/

namespace Verif.Freeze

/-- Both states assign the same sizes to the slots. -/
def SameSizes (d r : RState) : Prop := ∀ s, (d.slot s).dataSize = (r.slot s).dataSize

/-- Only empty slots have no memory. -/
def Backed (r : RState) : Prop := ∀ s, (r.slot s).data = none → (r.slot s).dataSize = 0

theorem alloc_size (dry : Bool) (st : RState) (s n t : Nat) :
    ((alloc dry st s n).slot t).dataSize = if t = s then n else (st.slot t).dataSize := by
  unfold alloc malloc mfree RState.setSlot
  cases hd : (st.slot s).data with
  | none =>
    cases dry
    · by_cases hn : n = 0
      · by_cases ht : t = s <;> simp [hd, hn, ht]
      · by_cases ht : t = s <;> simp [hd, hn, ht]
    · by_cases ht : t = s <;> simp [hd, ht]
  | some a =>
    by_cases hl : (st.slot s).allocSize < n
    · cases dry
      · by_cases hn : n = 0
        · by_cases ht : t = s <;> simp [hd, hn, ht, hl]
        · by_cases ht : t = s <;> simp [hd, hn, ht, hl]
      · by_cases ht : t = s <;> simp [hd, ht, hl]
    · by_cases ht : t = s <;> simp [hd, ht, hl]

theorem alloc_dry (st : RState) (s n : Nat) :
    (alloc true st s n).heap = st.heap ∧ (alloc true st s n).next = st.next := by
  unfold alloc RState.setSlot
  cases hd : (st.slot s).data with
  | none => simp [hd]
  | some a =>
    by_cases hl : (st.slot s).allocSize < n
    · simp [hd, hl]
    · simp [hd, hl]

theorem SameSizes.alloc {d r : RState} (h : SameSizes d r) (s n : Nat) :
    SameSizes (Verif.Freeze.alloc true d s n) (Verif.Freeze.alloc false r s n) := by
  intro t
  rw [alloc_size, alloc_size, h t]

theorem Backed.alloc {r : RState} (h : Backed r) (s n : Nat) :
    Backed (Verif.Freeze.alloc false r s n) := by
  intro t
  unfold Verif.Freeze.alloc malloc mfree RState.setSlot
  cases hd : (r.slot s).data with
  | none =>
    by_cases hn : n = 0
    · by_cases ht : t = s
      · simp [hd, hn, ht]
      · simpa [hd, hn, ht] using h t
    · by_cases ht : t = s
      · simp [hd, hn, ht]
      · simpa [hd, hn, ht] using h t
  | some a =>
    by_cases hl : (r.slot s).allocSize < n
    · have hn : n ≠ 0 := by omega
      by_cases ht : t = s
      · simp [hd, hn, ht, hl]
      · simpa [hd, hn, ht, hl] using h t
    · by_cases ht : t = s
      · subst ht
        simp [hl, hd]
      · simpa [hd, ht, hl] using h t

theorem storeSlot_slot {st st1 : RState} {s : Nat} {cs : List (Cell Nat)}
    (h : storeSlot st s cs = some st1) : st1.slot = st.slot := by
  unfold storeSlot at h
  rw [Option.bind_eq_some_iff] at h
  obtain ⟨a, _, h⟩ := h
  unfold store at h
  rw [Option.bind_eq_some_iff] at h
  obtain ⟨old, _, h⟩ := h
  split at h
  · cases h
    rfl
  · cases h

theorem storeBlocks_slot (ws : List (Nat × List (Cell Nat))) (st : RState) :
    (storeBlocks ws st).slot = st.slot := by
  induction ws generalizing st with
  | nil => rfl
  | cons w ws ih => exact ih _

theorem SameSizes.of_slot {d r r1 : RState} (h : SameSizes d r) (e : r1.slot = r.slot) :
    SameSizes d r1 := by
  intro s
  rw [e]
  exact h s

theorem Backed.of_slot {r r1 : RState} (h : Backed r) (e : r1.slot = r.slot) : Backed r1 := by
  intro s
  rw [e]
  exact h s

/-- A replay step agrees with a dry step that succeeded: it succeeds with the same sizes, or
it accesses invalid memory. -/
def Agrees (d1 : RState) (x : Res RState) : Prop :=
  (∃ r1, x = .ok r1 ∧ SameSizes d1 r1 ∧ Backed r1) ∨ x = .ub

theorem agrees_store {d1 r1 : RState} {s : Nat} {cs : List (Cell Nat)} (hs : SameSizes d1 r1)
    (hb : Backed r1) : Agrees d1 (orUb (storeSlot r1 s cs) .ok) := by
  cases h : storeSlot r1 s cs with
  | none => exact Or.inr rfl
  | some r2 =>
    have e := storeSlot_slot h
    exact Or.inl ⟨r2, rfl, hs.of_slot e, hb.of_slot e⟩

theorem agrees_load {d1 : RState} {β : Type} {o : Option β} {f : β → Res RState}
    (h : ∀ c, o = some c → Agrees d1 (f c)) : Agrees d1 (orUb o f) := by
  cases o with
  | none => exact Or.inr rfl
  | some c => exact h c rfl

theorem Slot.size_eq {v w : Slot} (h : v.dataSize = w.dataSize) (t : Nat) :
    v.size t = w.size t := by
  unfold Slot.size
  rw [h]

theorem size_pos {v : Slot} {t n : Nat} (h : v.size t = some n) : v.dataSize ≠ 0 := by
  intro e
  unfold Slot.size at h
  rw [e] at h
  simp at h

theorem launchSizes_dry {d r : RState} (hs : SameSizes d r) (hb : Backed r) (as : List Access)
    (i q : Nat) {z : Nat × Nat} (h : launchSizes true d as i q = .ok z) :
    launchSizes false r as i q = .ok z := by
  induction as generalizing i q with
  | nil => exact h
  | cons a as ih =>
    unfold launchSizes at h ⊢
    by_cases ha : a.ptype = .input
    · rw [if_pos ha] at h ⊢
      rw [← Slot.size_eq (hs a.slot)]
      cases hz : (d.slot a.slot).size (typeSize a.vtype) with
      | none =>
        rw [hz] at h
        cases h
      | some n =>
        rw [hz] at h
        simp only [orRaise] at h ⊢
        rw [if_neg (by simp)] at h
        have hn : (r.slot a.slot).data ≠ none := by
          intro e
          exact size_pos hz ((hs a.slot).trans (hb _ e))
        rw [if_neg (fun e => hn e.1)]
        exact ih _ _ h
    · rw [if_neg ha] at h ⊢
      exact ih _ _ h

theorem launchParams_dry {d r : RState} (hs : SameSizes d r) (hb : Backed r) (n : Nat)
    (as : List Access) (ps qs : List (Option Nat)) :
    SameSizes (launchParams true n as d ps).1 (launchParams false n as r qs).1 ∧
      Backed (launchParams false n as r qs).1 := by
  induction as generalizing d r ps qs with
  | nil => exact ⟨hs, hb⟩
  | cons a as ih =>
    unfold launchParams
    by_cases ha : a.ptype = .output
    · rw [if_pos ha, if_pos ha]
      exact ih (hs.alloc _ _) (hb.alloc _ _) _ _
    · rw [if_neg ha, if_neg ha]
      exact ih hs hb _ _

variable {sem : Sem} {d d1 r : RState}

theorem orRaise_ok {σ τ : Type} {st : RState} {o : Option σ} {f : σ → Res τ} {z : τ}
    (h : orRaise st o f = .ok z) : ∃ x, o = some x ∧ f x = .ok z := by
  cases o with
  | none => cases h
  | some x => exact ⟨x, rfl, h⟩

theorem bind_ok {σ τ : Type} {x : Res σ} {f : σ → Res τ} {z : τ} (h : x.bind f = .ok z) :
    ∃ y, x = .ok y ∧ f y = .ok z := by
  cases x with
  | ok y => exact ⟨y, rfl, h⟩
  | _ => cases h

theorem ok_inj {σ : Type} {x y : σ} (h : (Res.ok x : Res σ) = .ok y) : x = y := by
  cases h
  rfl

/-- A replay step agrees with the dry step. -/
theorem step_dry (hs : SameSizes d r) (hb : Backed r) (op : Op)
    (h : replayOp sem true d op = .ok d1) : Agrees d1 (replayOp sem false r op) := by
  unfold replayOp at h ⊢
  cases hk : op.kind with
  | barrier =>
    rw [hk] at h
    cases h
    exact Or.inl ⟨r, rfl, hs, hb⟩
  | launch k =>
    rw [hk] at h
    simp only [replayLaunch] at h ⊢
    obtain ⟨z, hz, h⟩ := bind_ok h
    rw [launchSizes_dry hs hb _ _ _ hz]
    simp only [if_true] at h
    cases h
    obtain ⟨h1, h2⟩ := launchParams_dry hs hb (launchSize op z.1 z.2) op.deps [] []
    simp only [Res.bind, Bool.false_eq_true, if_false]
    refine agrees_load fun ps _ => agrees_load fun ws _ => ?_
    exact Or.inl ⟨_, rfl, h1.of_slot (storeBlocks_slot ..), h2.of_slot (storeBlocks_slot ..)⟩
  | memset v =>
    rw [hk] at h
    simp only [replayMemset] at h ⊢
    obtain ⟨n, hn, h⟩ := orRaise_ok h
    simp only [if_true] at h
    cases h
    have h1 := hs.alloc (op.dep 0).slot (op.size * op.inputSize)
    rw [← Slot.size_eq (h1 _), hn]
    simp only [orRaise, Bool.false_eq_true, if_false]
    exact agrees_store h1 (hb.alloc _ _)
  | compress =>
    rw [hk] at h
    simp only [replayCompress] at h
    obtain ⟨n, hn, h⟩ := orRaise_ok h
    cases h
  | memcpy =>
    rw [hk] at h
    simp only [replayMemcpy, if_true] at h ⊢
    cases h
    rw [hs (op.dep 0).slot]
    have h1 := hs.alloc (op.dep 1).slot (r.slot (op.dep 0).slot).dataSize
    have h2 := hb.alloc (op.dep 1).slot (r.slot (op.dep 0).slot).dataSize
    simp only [Bool.false_eq_true, if_false]
    split
    · exact Or.inl ⟨_, rfl, h1, h2⟩
    · exact agrees_load fun cs _ => agrees_store h1 h2
  | mkperm buckets bs =>
    rw [hk] at h
    simp only [replayMkperm] at h ⊢
    obtain ⟨n, hn, h⟩ := orRaise_ok h
    simp only [if_true] at h
    cases h
    rw [← Slot.size_eq (hs _), hn]
    simp only [orRaise, Bool.false_eq_true, if_false]
    refine agrees_load fun cs _ => agrees_load fun r3 h3 => ?_
    have e := storeSlot_slot h3
    exact agrees_store (((hs.alloc _ _).alloc _ _).of_slot e) (((hb.alloc _ _).alloc _ _).of_slot e)
  | blockReduce rop =>
    rw [hk] at h
    simp only [replayBlockReduce] at h ⊢
    obtain ⟨n, hn, h⟩ := orRaise_ok h
    rw [← Slot.size_eq (hs _), hn]
    simp only [orRaise]
    generalize (if op.inputSize = op.size then n else op.inputSize) = bs at h ⊢
    by_cases hm : n % bs ≠ 0
    · rw [if_pos hm] at h
      cases h
    · rw [if_neg hm] at h ⊢
      simp only [if_true] at h
      cases h
      simp only [Bool.false_eq_true, if_false]
      exact agrees_load fun cs _ => agrees_store (hs.alloc _ _) (hb.alloc _ _)
  | prefixReduce rop ex rev =>
    rw [hk] at h
    simp only [replayPrefixReduce] at h ⊢
    obtain ⟨n, hn, h⟩ := orRaise_ok h
    rw [← Slot.size_eq (hs _), hn]
    simp only [orRaise]
    generalize (if op.inputSize = op.size then n else op.inputSize) = bs at h ⊢
    by_cases hm : n % bs ≠ 0
    · rw [if_pos hm] at h
      cases h
    · rw [if_neg hm] at h ⊢
      simp only [if_true] at h
      cases h
      simp only [Bool.false_eq_true, if_false]
      exact agrees_load fun cs _ => agrees_store (hs.alloc _ _) (hb.alloc _ _)
  | dot =>
    rw [hk] at h
    simp only [replayDot] at h ⊢
    obtain ⟨n, hn, h⟩ := orRaise_ok h
    obtain ⟨n2, hn2, h⟩ := orRaise_ok h
    rw [← Slot.size_eq (hs _), hn]
    simp only [orRaise]
    rw [← Slot.size_eq (hs _), hn2]
    simp only [true_and, if_true] at h
    by_cases hm : n ≠ n2
    · rw [if_pos hm] at h
      cases h
    · rw [if_neg hm] at h
      cases h
      simp only [Bool.false_eq_true, false_and, if_false]
      exact agrees_load fun cs _ => agrees_load fun ds _ =>
        agrees_store (hs.alloc _ _) (hb.alloc _ _)
  | gemm flags M N K grid batch =>
    rw [hk] at h
    simp only [replayGemm] at h ⊢
    obtain ⟨n, hn, h⟩ := orRaise_ok h
    rw [← Slot.size_eq (hs _), hn]
    simp only [orRaise]
    by_cases hm : n ≠ expectedSize (M * K) (·.1) batch
    · rw [if_pos hm] at h
      cases h
    · rw [if_neg hm] at h ⊢
      obtain ⟨n2, hn2, h⟩ := orRaise_ok h
      rw [← Slot.size_eq (hs _), hn2]
      simp only
      by_cases hm2 : n2 ≠ expectedSize (K * N) (·.2) batch
      · rw [if_pos hm2] at h
        cases h
      · rw [if_neg hm2] at h ⊢
        simp only [if_true] at h
        cases h
        simp only [Bool.false_eq_true, if_false]
        exact agrees_load fun cs _ => agrees_load fun ds _ =>
          agrees_store (hs.alloc _ _) (hb.alloc _ _)
  | aggregate =>
    rw [hk] at h
    simp only [replayAggregate, if_true] at h ⊢
    cases h
    simp only [Bool.false_eq_true, if_false]
    exact agrees_load fun cs _ => agrees_load fun ds _ =>
      agrees_store (hs.alloc _ _) (hb.alloc _ _)
  | opaqueWidth =>
    rw [hk] at h
    simp only [replayOpaqueWidth] at h ⊢
    obtain ⟨n, hn, h⟩ := orRaise_ok h
    simp only [if_true] at h
    cases h
    have h1 := hs.alloc (op.dep 1).slot (typeSize (op.dep 1).vtype)
    rw [← Slot.size_eq (h1 _), hn]
    simp only [orRaise, Bool.false_eq_true, if_false]
    exact agrees_store h1 (hb.alloc _ _)
  | undef =>
    rw [hk] at h
    simp only [replayUndef] at h ⊢
    cases h
    exact Or.inl ⟨_, rfl, hs.alloc _ _, hb.alloc _ _⟩
  | reduceBool rop =>
    rw [hk] at h
    simp only [replayReduceBool] at h ⊢
    obtain ⟨n, hn, h⟩ := orRaise_ok h
    simp only [if_true] at h
    cases h
    have h1 := hs.alloc (op.dep 1).slot 1
    rw [← Slot.size_eq (h1 _), hn]
    simp only [orRaise, Bool.false_eq_true, if_false]
    exact agrees_load fun cs _ => agrees_store h1 (hb.alloc _ _)

theorem ops_dry (hs : SameSizes d r) (hb : Backed r) (ops : List Op)
    (h : replayOps sem true d ops = .ok d1) : Agrees d1 (replayOps sem false r ops) := by
  induction ops generalizing d r with
  | nil =>
    cases h
    exact Or.inl ⟨r, rfl, hs, hb⟩
  | cons op ops ih =>
    unfold replayOps at h ⊢
    obtain ⟨d2, h2, h⟩ := bind_ok h
    rcases step_dry hs hb op h2 with ⟨r2, e, k1, k2⟩ | e
    · rw [e]
      exact ih k1 k2 h
    · rw [e]
      exact Or.inr rfl

/-! ## Dry runs have no effects -/

/-- The outcome of a dry step from `st`: it does not abort, does not access memory, and does not
change the memory of the process. -/
def Harmless (st : RState) : Res RState → Prop
  | .ok st1 => st1.heap = st.heap ∧ st1.next = st.next
  | .raise st1 => st1.heap = st.heap ∧ st1.next = st.next
  | .reject => True
  | .abort => False
  | .ub => False

theorem harmless_raise {st : RState} {σ : Type} {o : Option σ} {f : σ → Res RState}
    (h : ∀ x, Harmless st (f x)) {st1 : RState} (h1 : st1.heap = st.heap ∧ st1.next = st.next) :
    Harmless st (orRaise st1 o f) := by
  cases o with
  | none => exact h1
  | some x => exact h x

theorem harmless_alloc (st : RState) (s n : Nat) : Harmless st (.ok (alloc true st s n)) :=
  alloc_dry st s n

theorem launchParams_pure (n : Nat) (as : List Access) (st : RState) (ps : List (Option Nat)) :
    (launchParams true n as st ps).1.heap = st.heap ∧
      (launchParams true n as st ps).1.next = st.next := by
  induction as generalizing st ps with
  | nil => exact ⟨rfl, rfl⟩
  | cons a as ih =>
    unfold launchParams
    split
    · have h := ih (alloc true st a.slot (n * typeSize a.vtype))
        (ps ++ [((alloc true st a.slot (n * typeSize a.vtype)).slot a.slot).data])
      have h1 := alloc_dry st a.slot (n * typeSize a.vtype)
      exact ⟨h.1.trans h1.1, h.2.trans h1.2⟩
    · exact ih _ _

theorem launchSizes_pure (st : RState) (as : List Access) (i q : Nat) :
    (∃ z, launchSizes true st as i q = .ok z) ∨ launchSizes true st as i q = .raise st := by
  induction as generalizing i q with
  | nil => exact Or.inl ⟨_, rfl⟩
  | cons a as ih =>
    unfold launchSizes
    split
    · cases (st.slot a.slot).size (typeSize a.vtype) with
      | none => exact Or.inr rfl
      | some n =>
        simp only [orRaise]
        rw [if_neg (by simp)]
        exact ih _ _
    · exact ih _ _

theorem step_harmless (st : RState) (op : Op) : Harmless st (replayOp sem true st op) := by
  unfold replayOp
  cases hk : op.kind with
  | barrier => exact ⟨rfl, rfl⟩
  | launch k =>
    simp only [replayLaunch]
    rcases launchSizes_pure st op.deps 0 0 with ⟨z, hz⟩ | hz
    · rw [hz]
      simp only [Res.bind, if_true]
      exact launchParams_pure ..
    · rw [hz]
      exact ⟨rfl, rfl⟩
  | memset v =>
    simp only [replayMemset, if_true]
    exact harmless_raise (fun _ => harmless_alloc ..) (alloc_dry ..)
  | compress =>
    simp only [replayCompress, if_true]
    refine harmless_raise (fun _ => ?_) ⟨rfl, rfl⟩
    trivial
  | memcpy =>
    simp only [replayMemcpy, if_true]
    exact harmless_alloc ..
  | mkperm buckets bs =>
    simp only [replayMkperm, if_true]
    refine harmless_raise (fun n => ?_) ⟨rfl, rfl⟩
    exact ⟨(alloc_dry ..).1.trans (alloc_dry ..).1, (alloc_dry ..).2.trans (alloc_dry ..).2⟩
  | blockReduce rop =>
    simp only [replayBlockReduce, if_true]
    refine harmless_raise (fun n => ?_) ⟨rfl, rfl⟩
    generalize (if op.inputSize = op.size then n else op.inputSize) = bs
    by_cases hm : n % bs ≠ 0
    · rw [if_pos hm]
      trivial
    · rw [if_neg hm]
      exact harmless_alloc ..
  | prefixReduce rop ex rev =>
    simp only [replayPrefixReduce, if_true]
    refine harmless_raise (fun n => ?_) ⟨rfl, rfl⟩
    generalize (if op.inputSize = op.size then n else op.inputSize) = bs
    by_cases hm : n % bs ≠ 0
    · rw [if_pos hm]
      trivial
    · rw [if_neg hm]
      exact harmless_alloc ..
  | dot =>
    simp only [replayDot, if_true, true_and]
    refine harmless_raise (fun n => harmless_raise (fun n2 => ?_) ⟨rfl, rfl⟩) ⟨rfl, rfl⟩
    split
    · trivial
    · exact harmless_alloc ..
  | gemm flags M N K grid batch =>
    simp only [replayGemm, if_true]
    refine harmless_raise (fun n => ?_) ⟨rfl, rfl⟩
    split
    · trivial
    · refine harmless_raise (fun n2 => ?_) ⟨rfl, rfl⟩
      split
      · trivial
      · exact harmless_alloc ..
  | aggregate =>
    simp only [replayAggregate, if_true]
    exact harmless_alloc ..
  | opaqueWidth =>
    simp only [replayOpaqueWidth, if_true]
    exact harmless_raise (fun _ => harmless_alloc ..) (alloc_dry ..)
  | undef =>
    simp only [replayUndef]
    exact harmless_alloc ..
  | reduceBool rop =>
    simp only [replayReduceBool, if_true]
    exact harmless_raise (fun _ => harmless_alloc ..) (alloc_dry ..)

theorem ops_harmless (ops : List Op) (st : RState) : Harmless st (replayOps sem true st ops) := by
  induction ops generalizing st with
  | nil => exact ⟨rfl, rfl⟩
  | cons op ops ih =>
    unfold replayOps
    have h := step_harmless (sem := sem) st op
    cases hx : replayOp sem true st op with
    | ok st1 =>
      rw [hx] at h
      have h2 := ih st1
      simp only [Res.bind]
      cases hy : replayOps sem true st1 ops with
      | ok st2 =>
        rw [hy] at h2
        exact ⟨h2.1.trans h.1, h2.2.trans h.2⟩
      | raise st2 =>
        rw [hy] at h2
        exact ⟨h2.1.trans h.1, h2.2.trans h.2⟩
      | reject => trivial
      | abort =>
        rw [hy] at h2
        exact h2
      | ub =>
        rw [hy] at h2
        exact h2
    | raise st1 =>
      rw [hx] at h
      exact h
    | reject => trivial
    | abort =>
      rw [hx] at h
      exact h
    | ub =>
      rw [hx] at h
      exact h

/-! ## Dry runs do not reject inputs that can be replayed -/

theorem orUb_ok {σ τ : Type} {o : Option σ} {f : σ → Res τ} {z : τ} (h : orUb o f = .ok z) :
    ∃ x, o = some x ∧ f x = .ok z := by
  cases o with
  | none => cases h
  | some x => exact ⟨x, rfl, h⟩

theorem store_ok {st z : RState} {s : Nat} {cs : List (Cell Nat)}
    (h : orUb (storeSlot st s cs) .ok = .ok z) : z.slot = st.slot := by
  obtain ⟨x, hx, h⟩ := orUb_ok h
  cases h
  exact storeSlot_slot hx

theorem launchSizes_real {d r : RState} (hs : SameSizes d r) (as : List Access)
    (i q : Nat) {z : Nat × Nat} (h : launchSizes false r as i q = .ok z) :
    launchSizes true d as i q = .ok z := by
  induction as generalizing i q with
  | nil => exact h
  | cons a as ih =>
    unfold launchSizes at h ⊢
    by_cases ha : a.ptype = .input
    · rw [if_pos ha] at h ⊢
      rw [Slot.size_eq (hs a.slot)]
      obtain ⟨n, hn, h⟩ := orRaise_ok h
      rw [hn]
      simp only [orRaise]
      rw [if_neg (by simp)]
      by_cases e : (r.slot a.slot).data = none ∧ false = false
      · rw [if_pos e] at h
        cases h
      · rw [if_neg e] at h
        exact ih _ _ h
    · rw [if_neg ha] at h ⊢
      exact ih _ _ h

theorem launchParams_real {d r : RState} (hs : SameSizes d r) (n : Nat)
    (as : List Access) (ps qs : List (Option Nat)) :
    SameSizes (launchParams true n as d ps).1 (launchParams false n as r qs).1 := by
  induction as generalizing d r ps qs with
  | nil => exact hs
  | cons a as ih =>
    unfold launchParams
    by_cases ha : a.ptype = .output
    · rw [if_pos ha, if_pos ha]
      exact ih (hs.alloc _ _) _ _
    · rw [if_neg ha, if_neg ha]
      exact ih hs _ _

variable {r1 : RState}

theorem step_real (hs : SameSizes d r) (op : Op) (hc : op.kind ≠ .compress) (hdot : op.kind ≠ .dot)
    (h : replayOp sem false r op = .ok r1) :
    ∃ d1, replayOp sem true d op = .ok d1 ∧ SameSizes d1 r1 := by
  unfold replayOp at h ⊢
  cases hk : op.kind with
  | barrier =>
    rw [hk] at h
    cases h
    exact ⟨d, rfl, hs⟩
  | launch k =>
    rw [hk] at h
    simp only [replayLaunch] at h ⊢
    obtain ⟨z, hz, h⟩ := bind_ok h
    rw [launchSizes_real hs _ _ _ hz]
    simp only [Bool.false_eq_true, if_false] at h
    obtain ⟨ps, _, h⟩ := orUb_ok h
    obtain ⟨ws, _, h⟩ := orUb_ok h
    cases h
    simp only [Res.bind, if_true]
    exact ⟨_, rfl, (launchParams_real hs _ _ _ _).of_slot (storeBlocks_slot ..)⟩
  | memset v =>
    rw [hk] at h
    simp only [replayMemset] at h ⊢
    obtain ⟨n, hn, h⟩ := orRaise_ok h
    simp only [Bool.false_eq_true, if_false] at h
    have h1 := hs.alloc (op.dep 0).slot (op.size * op.inputSize)
    rw [Slot.size_eq (h1 _), hn]
    exact ⟨_, rfl, h1.of_slot (store_ok h)⟩
  | compress => exact absurd hk hc
  | memcpy =>
    rw [hk] at h
    simp only [replayMemcpy, if_true, Bool.false_eq_true, if_false] at h ⊢
    rw [hs (op.dep 0).slot]
    have h1 := hs.alloc (op.dep 1).slot (r.slot (op.dep 0).slot).dataSize
    split at h
    · cases h
      exact ⟨_, rfl, h1⟩
    · obtain ⟨cs, _, h⟩ := orUb_ok h
      exact ⟨_, rfl, h1.of_slot (store_ok h)⟩
  | mkperm buckets bs =>
    rw [hk] at h
    simp only [replayMkperm] at h ⊢
    obtain ⟨n, hn, h⟩ := orRaise_ok h
    simp only [Bool.false_eq_true, if_false] at h
    rw [Slot.size_eq (hs _), hn]
    obtain ⟨cs, _, h⟩ := orUb_ok h
    obtain ⟨r3, h3, h⟩ := orUb_ok h
    exact ⟨_, rfl, (((hs.alloc _ _).alloc _ _).of_slot (storeSlot_slot h3)).of_slot (store_ok h)⟩
  | blockReduce rop =>
    rw [hk] at h
    simp only [replayBlockReduce] at h ⊢
    obtain ⟨n, hn, h⟩ := orRaise_ok h
    rw [Slot.size_eq (hs _), hn]
    simp only [orRaise]
    generalize (if op.inputSize = op.size then n else op.inputSize) = bs at h ⊢
    by_cases hm : n % bs ≠ 0
    · rw [if_pos hm] at h
      cases h
    · rw [if_neg hm] at h ⊢
      simp only [Bool.false_eq_true, if_false] at h
      obtain ⟨cs, _, h⟩ := orUb_ok h
      exact ⟨_, rfl, (hs.alloc _ _).of_slot (store_ok h)⟩
  | prefixReduce rop ex rev =>
    rw [hk] at h
    simp only [replayPrefixReduce] at h ⊢
    obtain ⟨n, hn, h⟩ := orRaise_ok h
    rw [Slot.size_eq (hs _), hn]
    simp only [orRaise]
    generalize (if op.inputSize = op.size then n else op.inputSize) = bs at h ⊢
    by_cases hm : n % bs ≠ 0
    · rw [if_pos hm] at h
      cases h
    · rw [if_neg hm] at h ⊢
      simp only [Bool.false_eq_true, if_false] at h
      obtain ⟨cs, _, h⟩ := orUb_ok h
      exact ⟨_, rfl, (hs.alloc _ _).of_slot (store_ok h)⟩
  | dot => exact absurd hk hdot
  | gemm flags M N K grid batch =>
    rw [hk] at h
    simp only [replayGemm] at h ⊢
    obtain ⟨n, hn, h⟩ := orRaise_ok h
    rw [Slot.size_eq (hs _), hn]
    simp only [orRaise]
    by_cases hm : n ≠ expectedSize (M * K) (·.1) batch
    · rw [if_pos hm] at h
      cases h
    · rw [if_neg hm] at h ⊢
      obtain ⟨n2, hn2, h⟩ := orRaise_ok h
      rw [Slot.size_eq (hs _), hn2]
      simp only
      by_cases hm2 : n2 ≠ expectedSize (K * N) (·.2) batch
      · rw [if_pos hm2] at h
        cases h
      · rw [if_neg hm2] at h ⊢
        simp only [Bool.false_eq_true, if_false] at h
        obtain ⟨cs, _, h⟩ := orUb_ok h
        obtain ⟨ds, _, h⟩ := orUb_ok h
        exact ⟨_, rfl, (hs.alloc _ _).of_slot (store_ok h)⟩
  | aggregate =>
    rw [hk] at h
    simp only [replayAggregate, Bool.false_eq_true, if_false, if_true] at h ⊢
    obtain ⟨cs, _, h⟩ := orUb_ok h
    obtain ⟨ds, _, h⟩ := orUb_ok h
    exact ⟨_, rfl, (hs.alloc _ _).of_slot (store_ok h)⟩
  | opaqueWidth =>
    rw [hk] at h
    simp only [replayOpaqueWidth] at h ⊢
    obtain ⟨n, hn, h⟩ := orRaise_ok h
    simp only [Bool.false_eq_true, if_false] at h
    have h1 := hs.alloc (op.dep 1).slot (typeSize (op.dep 1).vtype)
    rw [Slot.size_eq (h1 _), hn]
    exact ⟨_, rfl, h1.of_slot (store_ok h)⟩
  | undef =>
    rw [hk] at h
    simp only [replayUndef] at h ⊢
    cases h
    exact ⟨_, rfl, hs.alloc _ _⟩
  | reduceBool rop =>
    rw [hk] at h
    simp only [replayReduceBool] at h ⊢
    obtain ⟨n, hn, h⟩ := orRaise_ok h
    simp only [Bool.false_eq_true, if_false] at h
    have h1 := hs.alloc (op.dep 1).slot 1
    rw [Slot.size_eq (h1 _), hn]
    obtain ⟨cs, _, h⟩ := orUb_ok h
    exact ⟨_, rfl, h1.of_slot (store_ok h)⟩

theorem ops_real (hs : SameSizes d r) (ops : List Op)
    (hk : ∀ op ∈ ops, op.kind ≠ .compress ∧ op.kind ≠ .dot)
    (h : replayOps sem false r ops = .ok r1) :
    ∃ d1, replayOps sem true d ops = .ok d1 ∧ SameSizes d1 r1 := by
  induction ops generalizing d r with
  | nil =>
    cases h
    exact ⟨d, rfl, hs⟩
  | cons op ops ih =>
    unfold replayOps at h ⊢
    obtain ⟨r2, h2, h⟩ := bind_ok h
    have hc := hk op (List.mem_cons_self ..)
    obtain ⟨d2, e, k1⟩ := step_real hs op hc.1 hc.2 h2
    rw [e]
    exact ih k1 (fun o ho => hk o (List.mem_cons_of_mem _ ho)) h

/-! ## Operations that do not abort -/

/-- The operations that do not require a dry run. -/
def Safe : OpKind → Prop
  | .blockReduce _ => False
  | .prefixReduce _ _ _ => False
  | .gemm _ _ _ _ _ _ => False
  | _ => True

def Goes : Res RState → Prop
  | .reject => False
  | .abort => False
  | _ => True

theorem goes_raise {σ : Type} {st : RState} {o : Option σ} {f : σ → Res RState}
    (h : ∀ x, Goes (f x)) : Goes (orRaise st o f) := by
  cases o with
  | none => trivial
  | some x => exact h x

theorem goes_ub {σ : Type} {o : Option σ} {f : σ → Res RState}
    (h : ∀ x, Goes (f x)) : Goes (orUb o f) := by
  cases o with
  | none => trivial
  | some x => exact h x

theorem launchSizes_goes (st : RState) (as : List Access) (i q : Nat) :
    (∃ z, launchSizes false st as i q = .ok z) ∨ ∃ z, launchSizes false st as i q = .raise z := by
  induction as generalizing i q with
  | nil => exact Or.inl ⟨_, rfl⟩
  | cons a as ih =>
    unfold launchSizes
    split
    · cases (st.slot a.slot).size (typeSize a.vtype) with
      | none => exact Or.inr ⟨_, rfl⟩
      | some n =>
        simp only [orRaise]
        split
        · exact Or.inr ⟨_, rfl⟩
        · exact ih _ _
    · exact ih _ _

theorem step_goes (st : RState) (op : Op) (hk : Safe op.kind) : Goes (replayOp sem false st op) := by
  unfold replayOp
  cases e : op.kind with
  | barrier => trivial
  | launch k =>
    simp only [replayLaunch]
    rcases launchSizes_goes st op.deps 0 0 with ⟨z, hz⟩ | ⟨z, hz⟩
    · rw [hz]
      simp only [Res.bind, Bool.false_eq_true, if_false]
      exact goes_ub fun _ => goes_ub fun _ => trivial
    · rw [hz]
      trivial
  | memset v =>
    simp only [replayMemset, Bool.false_eq_true, if_false]
    exact goes_raise fun _ => goes_ub fun _ => trivial
  | compress =>
    simp only [replayCompress, Bool.false_eq_true, if_false]
    exact goes_raise fun _ => goes_ub fun _ => goes_ub fun _ => trivial
  | memcpy =>
    simp only [replayMemcpy, Bool.false_eq_true, if_false]
    split
    · trivial
    · exact goes_ub fun _ => goes_ub fun _ => trivial
  | mkperm buckets bs =>
    simp only [replayMkperm, Bool.false_eq_true, if_false]
    exact goes_raise fun _ => goes_ub fun _ => goes_ub fun _ => goes_ub fun _ => trivial
  | blockReduce rop =>
    rw [e] at hk
    exact False.elim hk
  | prefixReduce rop ex rev =>
    rw [e] at hk
    exact False.elim hk
  | dot =>
    simp only [replayDot, Bool.false_eq_true, if_false, false_and]
    exact goes_raise fun _ => goes_raise fun _ => goes_ub fun _ => goes_ub fun _ =>
      goes_ub fun _ => trivial
  | gemm flags M N K grid batch =>
    rw [e] at hk
    exact False.elim hk
  | aggregate =>
    simp only [replayAggregate, Bool.false_eq_true, if_false]
    exact goes_ub fun _ => goes_ub fun _ => goes_ub fun _ => trivial
  | opaqueWidth =>
    simp only [replayOpaqueWidth, Bool.false_eq_true, if_false]
    exact goes_raise fun _ => goes_ub fun _ => trivial
  | undef => trivial
  | reduceBool rop =>
    simp only [replayReduceBool, Bool.false_eq_true, if_false]
    exact goes_raise fun _ => goes_ub fun _ => goes_ub fun _ => trivial

theorem ops_goes (ops : List Op) (st : RState) (hk : ∀ op ∈ ops, Safe op.kind) :
    Goes (replayOps sem false st ops) := by
  induction ops generalizing st with
  | nil => trivial
  | cons op ops ih =>
    unfold replayOps
    have h := step_goes (sem := sem) st op (hk op (List.mem_cons_self ..))
    cases hx : replayOp sem false st op with
    | ok st1 => exact ih st1 fun o ho => hk o (List.mem_cons_of_mem _ ho)
    | raise st1 => trivial
    | ub => trivial
    | reject =>
      rw [hx] at h
      exact h
    | abort =>
      rw [hx] at h
      exact h

/-! ## The operations of a recording -/

/-- The operation that a call is recorded as. -/
def kindOk (P : OpKind → Prop) (r : Rec) : Prop := ∀ op ∈ r.ops, P op.kind

/-- The call needs a dry run when it is replayed. -/
def Cmd.flagged : Cmd → Bool
  | .blockReduce .. => true
  | .prefixReduce .. => true
  | .gemm .. => true
  | _ => false

/-- The kind of operation that a call is recorded as. -/
def Cmd.kindIs (c : Cmd) (k : OpKind) : Prop :=
  match c, k with
  | .launch .., .launch _ => True
  | .memset .., .memset _ => True
  | .memcpy .., .memcpy => True
  | .compress .., .compress => True
  | .mkperm .., .mkperm _ _ => True
  | .blockReduce .., .blockReduce _ => True
  | .prefixReduce .., .prefixReduce _ _ _ => True
  | .reduceBool .., .reduceBool _ => True
  | .dot .., .dot => True
  | .gemm .., .gemm _ _ _ _ _ _ => True
  | .aggregate .., .aggregate => True
  | .opaqueWidth .., .opaqueWidth => True
  | .undef .., .undef => True
  | .barrier, .barrier => True
  | _, _ => False

theorem addVariable_ops (r : Rec) (p : Nat) :
    (addVariable r p).1.ops = r.ops ∧ (addVariable r p).1.dry = r.dry := by
  unfold addVariable Rec.setVar
  split <;> exact ⟨rfl, rfl⟩

theorem addOutput_ops (r : Rec) (a : Access) :
    (addOutput r a).1.ops = r.ops ∧ (addOutput r a).1.dry = r.dry := ⟨rfl, rfl⟩

theorem outParam_ops (r : Rec) (p vt : Nat) :
    (addOutParam r p vt).1.ops = r.ops ∧ (addOutParam r p vt).1.dry = r.dry :=
  addVariable_ops r p

theorem recordParams_ops {addr : Nat → Nat} {size : Nat} {ps : List Param} {r : Rec} {i q : Nat}
    {as : List Access} {x : Rec × Nat × Nat × List Access}
    (h : recordParams addr size ps r i q as = some x) : x.1.ops = r.ops ∧ x.1.dry = r.dry := by
  induction ps generalizing r i q as with
  | nil =>
    cases h
    exact ⟨rfl, rfl⟩
  | cons p ps ih =>
    unfold recordParams at h
    rw [Option.bind_eq_some_iff] at h
    obtain ⟨y, hy, h⟩ := h
    obtain ⟨h1, h2⟩ := ih h
    have : y.1.ops = r.ops ∧ y.1.dry = r.dry := by
      unfold recordParam at hy
      split at hy
      · rw [Option.bind_eq_some_iff] at hy
        obtain ⟨s, _, hy⟩ := hy
        rw [Option.map_eq_some_iff] at hy
        obtain ⟨a, _, rfl⟩ := hy
        exact ⟨rfl, rfl⟩
      · rw [Option.bind_eq_some_iff] at hy
        obtain ⟨s, _, hy⟩ := hy
        rw [Option.map_eq_some_iff] at hy
        obtain ⟨a, _, rfl⟩ := hy
        exact ⟨rfl, rfl⟩
      · cases hy
        exact addVariable_ops ..
    exact ⟨h1.trans this.1, h2.trans this.2⟩

theorem recordEntries_ops {addr : Nat → Nat} {isAlloc : Nat → Bool} {es : List Entry} {r : Rec}
    {as : List Access} {x : Rec × List Access}
    (h : recordEntries addr isAlloc es r as = some x) : x.1.ops = r.ops ∧ x.1.dry = r.dry := by
  induction es generalizing r as with
  | nil =>
    cases h
    exact ⟨rfl, rfl⟩
  | cons e es ih =>
    unfold recordEntries at h
    rw [Option.bind_eq_some_iff] at h
    obtain ⟨y, hy, h⟩ := h
    obtain ⟨h1, h2⟩ := ih h
    have : y.1.ops = r.ops ∧ y.1.dry = r.dry := by
      unfold recordEntry at hy
      split at hy
      · split at hy
        · rw [Option.map_eq_some_iff] at hy
          obtain ⟨a, _, rfl⟩ := hy
          exact addVariable_ops ..
        · cases hy
          exact ⟨rfl, rfl⟩
      · split at hy
        · rw [Option.map_eq_some_iff] at hy
          obtain ⟨a, _, rfl⟩ := hy
          exact addVariable_ops ..
        · cases hy
          exact ⟨rfl, rfl⟩
      · rw [Option.map_eq_some_iff] at hy
        obtain ⟨a, _, rfl⟩ := hy
        exact addVariable_ops ..
    exact ⟨h1.trans this.1, h2.trans this.2⟩

theorem pushed {r w : Rec} {op : Op} (h : w.ops = r.ops) : (w.push op).ops = r.ops ++ [op] := by
  rw [← h]
  rfl

/-- The effect of a call on the list of operations and on the flag. -/
theorem recordCmd_ops {addr : Nat → Nat} {live : List Nat} {r r1 : Rec} {c : Cmd}
    (h : recordCmd addr live r c = some r1) :
    (r1.ops = r.ops ∧ r1.dry = r.dry) ∨
      ∃ op, r1.ops = r.ops ++ [op] ∧ c.kindIs op.kind ∧ r1.dry = (r.dry || c.flagged) := by
  cases c with
  | launch k n ps =>
    simp only [recordCmd, recordLaunch] at h
    rw [Option.map_eq_some_iff] at h
    obtain ⟨x, hx, rfl⟩ := h
    obtain ⟨h1, h2⟩ := recordParams_ops hx
    refine Or.inr ⟨_, pushed h1, trivial, ?_⟩
    simp only [Rec.push, Cmd.flagged, Bool.or_false]
    exact h2
  | memset x size isize v =>
    simp only [recordCmd, recordMemset, Option.some.injEq] at h
    subst h
    obtain ⟨h1, h2⟩ := outParam_ops r (addr x) 0
    refine Or.inr ⟨_, pushed h1, trivial, ?_⟩
    simp only [Rec.push, Cmd.flagged, Bool.or_false]
    exact h2
  | memcpy dst src b =>
    simp only [recordCmd, recordMemcpy] at h
    rw [Option.bind_eq_some_iff] at h
    obtain ⟨s, _, h⟩ := h
    rw [Option.map_eq_some_iff] at h
    obtain ⟨a, _, rfl⟩ := h
    obtain ⟨h1, h2⟩ := addVariable_ops r (addr dst)
    refine Or.inr ⟨_, pushed h1, trivial, ?_⟩
    simp only [Rec.push, Cmd.flagged, Bool.or_false]
    exact h2
  | memcpySync dst src b =>
    simp only [recordCmd, Option.some.injEq] at h
    subst h
    exact Or.inl ⟨rfl, rfl⟩
  | compress src s out =>
    simp only [recordCmd, recordCompress] at h
    rw [Option.map_eq_some_iff] at h
    obtain ⟨a, _, rfl⟩ := h
    obtain ⟨h1, h2⟩ := outParam_ops r (addr out) 8
    refine Or.inr ⟨_, pushed h1, trivial, ?_⟩
    simp only [Rec.push, Cmd.flagged, Bool.or_false]
    exact h2
  | mkperm src s bs buckets perm offs =>
    simp only [recordCmd, recordMkperm] at h
    split at h
    · rw [Option.map_eq_some_iff] at h
      obtain ⟨a, _, rfl⟩ := h
      obtain ⟨h1, h2⟩ := outParam_ops r (addr perm) 8
      obtain ⟨h3, h4⟩ := outParam_ops (addOutParam r (addr perm) 8).1 (addr offs) 8
      refine Or.inr ⟨_, pushed (h3.trans h1), trivial, ?_⟩
      simp only [Rec.push, Cmd.flagged, Bool.or_false]
      exact h4.trans h2
    · cases h
      exact Or.inl ⟨rfl, rfl⟩
  | blockReduce vt rop s bs src out =>
    simp only [recordCmd, recordBlockReduce] at h
    rw [Option.map_eq_some_iff] at h
    obtain ⟨a, _, rfl⟩ := h
    obtain ⟨h1, h2⟩ := outParam_ops r (addr out) vt
    refine Or.inr ⟨_, pushed h1, trivial, ?_⟩
    simp only [Cmd.flagged, Bool.or_true]
  | prefixReduce vt rop s bs ex rev src out =>
    simp only [recordCmd, recordPrefixReduce] at h
    rw [Option.map_eq_some_iff] at h
    obtain ⟨a, _, rfl⟩ := h
    obtain ⟨h1, h2⟩ := outParam_ops r (addr out) vt
    refine Or.inr ⟨_, pushed h1, trivial, ?_⟩
    simp only [Cmd.flagged, Bool.or_true]
  | reduceBool rop s src out =>
    simp only [recordCmd, recordReduceBool] at h
    rw [Option.map_eq_some_iff] at h
    obtain ⟨a, _, rfl⟩ := h
    obtain ⟨h1, h2⟩ := outParam_ops r (addr out) 1
    refine Or.inr ⟨_, pushed h1, trivial, ?_⟩
    simp only [Rec.push, Cmd.flagged, Bool.or_false]
    exact h2
  | dot vt x y s out =>
    simp only [recordCmd, recordDot] at h
    rw [Option.bind_eq_some_iff] at h
    obtain ⟨a, _, h⟩ := h
    rw [Option.map_eq_some_iff] at h
    obtain ⟨b, _, rfl⟩ := h
    obtain ⟨h1, h2⟩ := outParam_ops r (addr out) vt
    refine Or.inr ⟨_, pushed h1, trivial, ?_⟩
    simp only [Rec.push, Cmd.flagged, Bool.or_false]
    exact h2
  | gemm vt flags M N K grid batch A B C =>
    simp only [recordCmd, recordGemm] at h
    rw [Option.bind_eq_some_iff] at h
    obtain ⟨a, _, h⟩ := h
    rw [Option.map_eq_some_iff] at h
    obtain ⟨b, _, rfl⟩ := h
    obtain ⟨h1, h2⟩ := outParam_ops r (addr C) vt
    refine Or.inr ⟨_, pushed h1, trivial, ?_⟩
    simp only [Cmd.flagged, Bool.or_true]
  | aggregate dst total es =>
    simp only [recordCmd, recordAggregate] at h
    rw [Option.map_eq_some_iff] at h
    obtain ⟨x, hx, rfl⟩ := h
    obtain ⟨h1, h2⟩ := recordEntries_ops hx
    obtain ⟨h3, h4⟩ := outParam_ops r (addr dst) 4
    refine Or.inr ⟨_, pushed (h1.trans h3), trivial, ?_⟩
    simp only [Rec.push, Cmd.flagged, Bool.or_false]
    exact h2.trans h4
  | opaqueWidth src vt s out =>
    simp only [recordCmd, recordOpaqueWidth] at h
    rw [Option.map_eq_some_iff] at h
    obtain ⟨a, _, rfl⟩ := h
    obtain ⟨h1, h2⟩ := outParam_ops r (addr out) 8
    refine Or.inr ⟨_, pushed h1, trivial, ?_⟩
    simp only [Rec.push, Cmd.flagged, Bool.or_false]
    exact h2
  | undef x vt s =>
    simp only [recordCmd, recordUndef, Option.some.injEq] at h
    subst h
    obtain ⟨h1, h2⟩ := outParam_ops r (addr x) vt
    refine Or.inr ⟨_, pushed h1, trivial, ?_⟩
    simp only [Rec.push, Cmd.flagged, Bool.or_false]
    exact h2
  | barrier =>
    simp only [recordCmd, Option.some.injEq] at h
    subst h
    refine Or.inr ⟨_, rfl, trivial, ?_⟩
    simp only [Rec.push, Cmd.flagged, Bool.or_false]
  | free x =>
    simp only [recordCmd, Option.some.injEq] at h
    subst h
    exact Or.inl ⟨rfl, rfl⟩

theorem recordStart_ops (addr : Nat → Nat) (ins : List Arr) :
    (recordStart addr ins).ops = [] := by
  unfold recordStart
  suffices ∀ r : Rec, r.ops = [] →
      (ins.foldl (fun r i => addFunctionInput r (addr i.arr) i.vt) r).ops = [] from this _ rfl
  induction ins with
  | nil => exact fun r h => h
  | cons i ins ih =>
    intro r h
    rw [List.foldl_cons]
    refine ih _ ?_
    show (addVariable r (addr i.arr)).1.ops = []
    rw [(addVariable_ops ..).1, h]

theorem kindIs_safe {c : Cmd} {k : OpKind} (h : c.kindIs k) (hf : c.flagged = false) : Safe k := by
  cases c <;> cases k <;> first | exact trivial | exact False.elim h | cases hf

/-- A recording that is not flagged only contains operations that cannot abort. -/
theorem recordAll_safe {addr : Nat → Nat} {tr : List Cmd} {live : List Nat} {r : Rec}
    (h : r.dry = false → ∀ op ∈ r.ops, Safe op.kind)
    (hd : (recordAll addr live r tr).dry = false) :
    ∀ op ∈ (recordAll addr live r tr).ops, Safe op.kind := by
  induction tr generalizing live r with
  | nil => exact h hd
  | cons c cs ih =>
    unfold recordAll at hd ⊢
    refine ih ?_ hd
    cases hc : recordCmd addr live r c with
    | none => exact h
    | some r1 =>
      intro h1 op hop
      rcases recordCmd_ops hc with ⟨e1, e2⟩ | ⟨o, e1, e2, e3⟩
      · exact h (e2.symm.trans h1) op (e1 ▸ hop)
      · have h1' : r1.dry = false := h1
        rw [e3, Bool.or_eq_false_iff] at h1'
        have hop' : op ∈ r1.ops := hop
        rw [e1] at hop'
        rcases List.mem_append.1 hop' with ho | ho
        · exact h h1'.1 op ho
        · rw [List.mem_singleton] at ho
          subst ho
          exact kindIs_safe e2 h1'.2

/-- The operations of a recording are of the kinds of its calls. -/
theorem recordAll_kinds {addr : Nat → Nat} {tr : List Cmd} {live : List Nat} {r : Rec}
    {P : OpKind → Prop} (h : ∀ op ∈ r.ops, P op.kind)
    (hp : ∀ c ∈ tr, ∀ k, c.kindIs k → P k) :
    ∀ op ∈ (recordAll addr live r tr).ops, P op.kind := by
  induction tr generalizing live r with
  | nil => exact h
  | cons c cs ih =>
    unfold recordAll
    refine ih ?_ fun d hd => hp d (List.mem_cons_of_mem _ hd)
    cases hc : recordCmd addr live r c with
    | none => exact h
    | some r1 =>
      intro op hop
      rcases recordCmd_ops hc with ⟨e1, _⟩ | ⟨o, e1, e2, _⟩
      · exact h op (e1 ▸ hop)
      · have hop' : op ∈ r1.ops := hop
        rw [e1] at hop'
        rcases List.mem_append.1 hop' with ho | ho
        · exact h op ho
        · rw [List.mem_singleton] at ho
          subst ho
          exact hp c (List.mem_cons_self ..) _ e2

theorem record_rec {addr : Nat → Nat} {ext : List Nat} {ins : List Arr} {tr : List Cmd}
    {outs : List Arr} {rc : Recording} (h : record addr ext ins tr outs = some rc) :
    rc.ops = (recordAll addr (ins.map (·.arr) ++ ext) (recordStart addr ins) tr).ops ∧
      rc.dry = (recordAll addr (ins.map (·.arr) ++ ext) (recordStart addr ins) tr).dry := by
  unfold record recordStop at h
  split at h
  · cases h
  · split at h
    · cases h
      exact ⟨rfl, rfl⟩
    · cases h

theorem backed_init (ss : List Nat) (vs : List InVar) (f : Nat → Slot)
    (h : ∀ s, (f s).data = none → (f s).dataSize = 0) (s : Nat)
    (hd : (initSlots ss vs f s).data = none) : (initSlots ss vs f s).dataSize = 0 := by
  induction ss generalizing vs f with
  | nil =>
    unfold initSlots at hd ⊢
    exact h s hd
  | cons t ss ih =>
    cases vs with
    | nil =>
      unfold initSlots at hd ⊢
      exact h s hd
    | cons v vs =>
      unfold initSlots at hd ⊢
      refine ih vs _ ?_ hd
      intro u hu
      by_cases e : u = t
      · simp [e, initSlot] at hu
      · simp only [e, if_false] at hu ⊢
        exact h u hu

end Verif.Freeze
