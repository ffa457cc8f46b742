import Verif.Lock.Lemmas
/-! Accounting of log messages. -/
namespace Verif.Lock

/-- Messages a thread has taken from the queue and not yet handed to the callback. -/
def frameMsgs : Frame → List Msg
  | .del todo _ => todo
  | .unl _ => []

def taken (th : Th) : List Msg := th.frames.flatMap frameMsgs

def takenAll (s : St) : List Msg := s.threads.flatMap taken

theorem flatMap_set_count (l : List Th) (i : Nat) (th th' : Th) (h : l[i]? = some th) (m : Msg) :
    ((l.set i th').flatMap taken).count m + (taken th).count m =
      (l.flatMap taken).count m + (taken th').count m := by
  induction l generalizing i with
  | nil => simp at h
  | cons x l ih =>
    cases i with
    | zero =>
      simp at h; subst h
      simp only [List.set_cons_zero, List.flatMap_cons, List.count_append]
      omega
    | succ i =>
      have := ih i (by simpa using h)
      simp only [List.set_cons_succ, List.flatMap_cons, List.count_append]
      omega

/-- Every logged message is queued, taken by a delivery loop, or delivered. -/
def Account (s : St) : Prop := ∀ m,
  s.logged.count m = s.queue.count m + (takenAll s).count m + (s.delivered.map (·.2)).count m

/-- Something will flush the queue. -/
def wit (owner count i : Nat) (th : Th) : Prop :=
  (owner = i + 1 ∧ PENDING ≤ count) ∨ .unl true ∈ th.frames ∨
  match th.pc with
  | .logPushed | .flush | .deliver | .pendReset | .pendDec | .relStore true => True
  | .acqLoad (some true) | .acqTry (some true) | .acqSpin (some true) | .acqWeak (some true)
  | .acqGot (some true) | .restore true => True
  | _ => False

def Covered (s : St) : Prop := s.queue ≠ [] → s.deferred = true ∨
  ∃ (i : Nat) (th : Th), s.threads[i]? = some th ∧ wit s.owner s.count i th

theorem account_same {s s' : St} {i : Nat} {th th' : Th} (hi : s.threads[i]? = some th)
    (hthr : s'.threads = s.threads.set i th') (ht : taken th' = taken th) (hq : s'.queue = s.queue)
    (hl : s'.logged = s.logged) (hd : s'.delivered = s.delivered) (h : Account s) : Account s' := by
  intro m
  have := flatMap_set_count s.threads i th th' hi m
  rw [ht] at this
  have h2 := h m
  unfold takenAll at *
  rw [hthr, hq, hl, hd]
  omega

theorem covered_same {s s' : St} {i : Nat} {th th' : Th} (hi : s.threads[i]? = some th)
    (hthr : s'.threads = s.threads.set i th') (hq : s'.queue = s.queue)
    (hd : s'.deferred = s.deferred)
    (hown : s'.owner = s.owner ∨ (s.owner = 0 ∧ s'.owner = i + 1) ∨ (s.owner = i + 1 ∧ s'.owner = 0))
    (hcnt : s'.count = s.count ∨ s.owner = i + 1)
    (hw : wit s.owner s.count i th → wit s'.owner s'.count i th') (h : Covered s) : Covered s' := by
  have hlt : i < s.threads.length := by
    rcases Nat.lt_or_ge i s.threads.length with h | h
    · exact h
    · rw [List.getElem?_eq_none h] at hi; cases hi
  intro hne
  rw [hq] at hne
  rcases h hne with h | ⟨j, u, hj, hu⟩
  · left; rw [hd]; exact h
  · right
    by_cases e : j = i
    · subst e
      rw [hi] at hj; cases hj
      exact ⟨j, th', by rw [hthr]; simp [hlt], hw hu⟩
    · refine ⟨j, u, ?_, ?_⟩
      · rw [hthr, List.getElem?_set]
        have : ¬ i = j := fun h => e h.symm
        simp [this, hj]
      · rcases hu with ⟨h1, h2⟩ | hu
        · left
          constructor
          · rcases hown with h | ⟨h, _⟩ | ⟨h, _⟩ <;> omega
          · rcases hcnt with h | h
            · rw [h]; exact h2
            · omega
        · exact Or.inr hu

theorem account_init (n : Nat) : Account (init n) := by
  intro m
  have : (List.replicate n ({} : Th)).flatMap taken = [] := by
    rw [List.flatMap_eq_nil_iff]
    intro x hx
    rw [List.mem_replicate] at hx
    rw [hx.2]
    rfl
  simp [takenAll, init, this]

theorem log_step {s s' : St} (hI : Inv s) (hA : Account s) (hC : Covered s) {i : Nat} {a : Act}
    (h : step s i a = some s') : Account s' ∧ Covered s' := by
  have hI' := inv_step hI h
  unfold step at h
  have hsome : ∃ th, s.threads[i]? = some th := by
    cases hth : s.threads[i]? with
    | none => rw [hth] at h; cases h
    | some th => exact ⟨th, rfl⟩
  obtain ⟨th, hth⟩ := hsome
  have hlt : i < s.threads.length := by
    rcases Nat.lt_or_ge i s.threads.length with h | h
    · exact h
    · rw [List.getElem?_eq_none h] at hth; cases hth
  rw [hth] at h
  simp only at h
  obtain ⟨hphys, hpc, hbound, hfr⟩ := hI.th i th hth
  have hP := P_pos
  -- steps that only change the program counter, the owner and the recursion counter
  have plain : ∀ (s'' : St) (th' : Th), s''.threads = s.threads.set i th' → th'.frames = th.frames →
      s''.queue = s.queue → s''.logged = s.logged → s''.delivered = s.delivered →
      s''.deferred = s.deferred →
      (s''.owner = s.owner ∨ (s.owner = 0 ∧ s''.owner = i + 1) ∨ (s.owner = i + 1 ∧ s''.owner = 0)) →
      (s''.count = s.count ∨ s.owner = i + 1) →
      (wit s.owner s.count i th → wit s''.owner s''.count i th') → Account s'' ∧ Covered s'' := by
    intro s'' th' h1 h2 h3 h4 h5 h6 h7 h8 h9
    exact ⟨account_same hth h1 (by simp [taken, h2]) h3 h4 h5 hA,
      covered_same hth h1 h3 h6 h7 h8 h9 hC⟩
  cases hp : th.pc <;> cases a <;> simp only [hp] at h <;> try (cases h; done)
  case run.acquire =>
    cases h
    exact plain _ _ rfl rfl rfl rfl rfl rfl (Or.inl rfl) (Or.inl rfl) (by simp [wit, hp])
  case run.release =>
    split at h
    · cases h
    · cases h
      exact plain _ _ rfl rfl rfl rfl rfl rfl (Or.inl rfl) (Or.inl rfl) (by simp [wit, hp])
  case run.log m =>
    cases h
    constructor
    · intro x
      have hc := flatMap_set_count s.threads i th { th with pc := .logPushed } hth x
      have ht : taken { th with pc := .logPushed } = taken th := rfl
      rw [ht] at hc
      have h2 := hA x
      unfold takenAll at *
      simp only [St.upd, List.count_append]
      omega
    · intro _
      right
      exact ⟨i, { th with pc := .logPushed }, by simp [St.upd, hlt], by simp [wit]⟩
  case run.unlockBegin =>
    split at h
    · cases h
    · rename_i hd
      cases h
      have ho : s.owner = i + 1 := hphys.1 (by simp [phys]; omega)
      refine ⟨account_same hth rfl (by simp [taken, frameMsgs]) rfl rfl rfl hA,
        covered_same hth rfl rfl rfl (Or.inl rfl) (Or.inr ho) ?_ hC⟩
      intro hw
      right; left
      rcases hw with ⟨_, hw⟩ | hw | hw
      · simp [hw]
      · simp [hw]
      · simp [hp] at hw
  case run.unlockEnd =>
    split at h
    · rename_i p fs hf
      cases h
      refine ⟨account_same hth rfl (by simp [taken, hf, frameMsgs]) rfl rfl rfl hA,
        covered_same hth rfl rfl rfl (Or.inl rfl) (Or.inl rfl) ?_ hC⟩
      intro hw
      rcases hw with hw | hw | hw
      · exact Or.inl hw
      · right
        rw [hf] at hw
        rcases List.mem_cons.1 hw with hw | hw
        · right; cases hw; trivial
        · left; exact hw
      · simp [hp] at hw
    · cases h
  case run.flushApi =>
    split at h
    · cases h
      exact plain _ _ rfl rfl rfl rfl rfl rfl (Or.inl rfl) (Or.inl rfl) (by simp [wit, hp])
    · cases h
  case run.next =>
    split at h
    · rename_i m todo base fs hf
      split at h
      · cases h
        constructor
        · intro x
          have hc := flatMap_set_count s.threads i th { th with frames := .del todo base :: fs } hth x
          have h2 := hA x
          have ht : taken th = m :: taken { th with frames := .del todo base :: fs } := by
            simp [taken, hf, frameMsgs]
          rw [ht, List.count_cons] at hc
          unfold takenAll at *
          simp only [St.upd, List.map_append, List.count_append, List.map_cons, List.map_nil,
            List.count_cons, List.count_nil]
          rw [← hp]
          omega
        · refine covered_same hth rfl rfl rfl (Or.inl rfl) (Or.inl rfl) ?_ hC
          intro hw
          rcases hw with hw | hw | hw
          · exact Or.inl hw
          · right; left
            rw [hf] at hw
            simpa using hw
          · simp [hp] at hw
      · cases h
    · rename_i base fs hf
      split at h
      · cases h
        refine ⟨account_same hth rfl (by simp [taken, hf, frameMsgs]) rfl rfl rfl hA,
          covered_same hth rfl rfl rfl (Or.inl rfl) (Or.inl rfl) ?_ hC⟩
        intro hw
        rcases hw with hw | hw | hw
        · exact Or.inl hw
        · right; left
          rw [hf] at hw
          simpa using hw
        · simp [hp] at hw
      · cases h
    · cases h
  case acqLoad.load k v =>
    split at h
    · rename_i hv
      split at h
      · rename_i hself
        have ho := hv.1 hself
        split at h
        · cases h
          refine plain _ _ rfl rfl rfl rfl rfl rfl (Or.inl rfl) (Or.inr ho) ?_
          intro hw
          rcases hw with ⟨h1, h2⟩ | hw | hw
          · exact Or.inl ⟨h1, by simp [St.upd]; omega⟩
          · exact Or.inr (Or.inl hw)
          · right; right
            cases k with
            | none => simp [hp] at hw
            | some p => cases p <;> simp [hp, acqDone] at hw ⊢
        · cases h
      · split at h
        · cases h
          refine plain _ _ rfl rfl rfl rfl rfl rfl (Or.inl rfl) (Or.inl rfl) ?_
          rcases k with _ | (_ | _) <;> simp [wit, hp]
        · cases h
          refine plain _ _ rfl rfl rfl rfl rfl rfl (Or.inl rfl) (Or.inl rfl) ?_
          rcases k with _ | (_ | _) <;> simp [wit, hp]
    · cases h
  case acqTry.cas k sp =>
    split at h
    · rename_i ho
      cases h
      refine plain _ _ rfl rfl rfl rfl rfl rfl (Or.inr (Or.inl ⟨ho, rfl⟩)) (Or.inl rfl) ?_
      have h0 : ¬ (0 = i + 1) := by omega
      rcases k with _ | (_ | _) <;> simp [wit, hp, ho, St.upd] <;> exact fun h => Or.inr h
    · cases h
      refine plain _ _ rfl rfl rfl rfl rfl rfl (Or.inl rfl) (Or.inl rfl) ?_
      rcases k with _ | (_ | _) <;> simp [wit, hp]
  case acqSpin.load k v =>
    split at h
    · split at h
      · cases h
        refine plain _ _ rfl rfl rfl rfl rfl rfl (Or.inl rfl) (Or.inl rfl) ?_
        rcases k with _ | (_ | _) <;> simp [wit, hp]
      · cases h; exact ⟨hA, hC⟩
    · cases h
  case acqWeak.cas k sp =>
    split at h
    · rename_i ho
      cases h
      refine plain _ _ rfl rfl rfl rfl rfl rfl (Or.inr (Or.inl ⟨ho.1, rfl⟩)) (Or.inl rfl) ?_
      rcases k with _ | (_ | _) <;> simp [wit, hp, ho.1, St.upd] <;> exact fun h => Or.inr h
    · cases h
      refine plain _ _ rfl rfl rfl rfl rfl rfl (Or.inl rfl) (Or.inl rfl) ?_
      rcases k with _ | (_ | _) <;> simp [wit, hp]
  case acqGot.go k =>
    cases h
    have ho : s.owner = i + 1 := hphys.1 (by simp [phys, hp])
    simp [pcOk, hp] at hpc
    refine plain _ _ rfl rfl rfl rfl rfl rfl (Or.inl rfl) (Or.inr ho) ?_
    intro hw
    rcases hw with ⟨h1, h2⟩ | hw | hw
    · omega
    · exact Or.inr (Or.inl hw)
    · right; right
      rcases k with _ | (_ | _) <;> simp [hp, acqDone] at hw ⊢
  case restore.go p =>
    cases h
    simp [pcOk, hp] at hpc
    have ho : s.owner = i + 1 := hphys.1 (by simp [phys]; omega)
    refine plain _ _ rfl rfl rfl rfl rfl rfl (Or.inl rfl) (Or.inr ho) ?_
    intro hw
    rcases hw with ⟨h1, h2⟩ | hw | hw
    · left
      refine ⟨ho, ?_⟩
      simp only [St.upd, setPending]
      split
      · split <;> omega
      · exact h2
    · exact Or.inr (Or.inl hw)
    · left
      refine ⟨ho, ?_⟩
      cases p
      · simp [hp] at hw
      · simp only [St.upd, setPending, if_true]
        split <;> omega
  case relDec.go =>
    cases h
    simp [pcOk, hp] at hpc
    have ho : s.owner = i + 1 := hphys.1 (by simp [phys]; omega)
    refine plain _ _ rfl rfl rfl rfl rfl rfl (Or.inl rfl) (Or.inr ho) ?_
    intro hw
    rcases hw with ⟨h1, h2⟩ | hw | hw
    · left
      refine ⟨ho, ?_⟩
      have := hpc.2
      unfold Cnt at this
      simp only [St.upd]
      omega
    · exact Or.inr (Or.inl hw)
    · simp [hp] at hw
  case relCheck.go =>
    split at h
    · rename_i h0
      cases h
      refine plain _ _ rfl rfl rfl rfl rfl rfl (Or.inl rfl) (Or.inl rfl) ?_
      intro hw
      rcases hw with ⟨h1, h2⟩ | hw | hw
      · omega
      · exact Or.inr (Or.inl hw)
      · simp [hp] at hw
    · split at h
      · cases h
        exact plain _ _ rfl rfl rfl rfl rfl rfl (Or.inl rfl) (Or.inl rfl) (by simp [wit, hp])
      · cases h
        exact plain _ _ rfl rfl rfl rfl rfl rfl (Or.inl rfl) (Or.inl rfl) (by simp [wit, hp])
  case relStore.go f =>
    cases h
    simp [pcOk, hp] at hpc
    have ho : s.owner = i + 1 := hphys.1 (by simp [phys, hp])
    refine plain _ _ rfl rfl rfl rfl rfl rfl (Or.inr (Or.inr ⟨ho, rfl⟩)) (Or.inl rfl) ?_
    intro hw
    rcases hw with ⟨h1, h2⟩ | hw | hw
    · omega
    · exact Or.inr (Or.inl hw)
    · cases f
      · simp [hp] at hw
      · exact Or.inr (Or.inr (by simp))
  case pendReset.go =>
    cases h
    have ho : s.owner = i + 1 := hphys.1 (by simp [phys, hp])
    exact plain _ _ rfl rfl rfl rfl rfl rfl (Or.inl rfl) (Or.inr ho) (by simp [wit])
  case pendDec.go =>
    cases h
    have ho : s.owner = i + 1 := hphys.1 (by simp [phys, hp])
    exact plain _ _ rfl rfl rfl rfl rfl rfl (Or.inl rfl) (Or.inr ho) (by simp [wit])
  case logPushed.load v =>
    split at h
    · rename_i hv
      split at h
      · rename_i hself
        have ho := hv.1 hself
        cases h
        refine plain _ _ rfl rfl rfl rfl rfl rfl (Or.inl rfl) (Or.inr ho) ?_
        intro _
        left
        refine ⟨ho, ?_⟩
        simp only [St.upd, setPending]
        split <;> omega
      · cases h
        exact plain _ _ rfl rfl rfl rfl rfl rfl (Or.inl rfl) (Or.inl rfl) (by simp [wit])
    · cases h
  case flush.defer d =>
    split at h
    · cases h
      exact ⟨account_same hth rfl rfl rfl rfl rfl hA, fun _ => Or.inl rfl⟩
    · cases h
      exact plain _ _ rfl rfl rfl rfl rfl rfl (Or.inl rfl) (Or.inl rfl) (by simp [wit])
  case deliver.go =>
    cases h
    constructor
    · intro x
      have hc := flatMap_set_count s.threads i th
        { th with pc := .run, frames := .del s.queue th.depth :: th.frames } hth x
      have h2 := hA x
      have ht : taken { th with pc := .run, frames := .del s.queue th.depth :: th.frames } =
          s.queue ++ taken th := by simp [taken, frameMsgs]
      rw [ht, List.count_append] at hc
      unfold takenAll at *
      simp only [St.upd, List.count_nil]
      omega
    · intro hne; simp [St.upd] at hne

theorem log_reach {n : Nat} {s : St} (h : Reach n s) : Account s ∧ Covered s := by
  induction h with
  | init => exact ⟨account_init n, fun h => absurd rfl h⟩
  | step hr hs ih => exact log_step (inv_reach hr) ih.1 ih.2 hs

end Verif.Lock
