import Verif.Lock.Log
/-!
# Properties of the lock and of log delivery (C08, C09)
-/
namespace Verif.Lock

/-! ## C08 -/

/-- **C08** (mutual exclusion): in every reachable state at most one thread is inside the critical
section (has acquired the lock more often than released it). -/
theorem C08_mutual_exclusion (n : Nat) (s : St) (h : Reach n s) (i j : Nat) (a b : Th)
    (ha : s.threads[i]? = some a) (hb : s.threads[j]? = some b) (hda : 0 < a.depth)
    (hdb : 0 < b.depth) : i = j := by
  have hI := inv_reach h
  have h1 := (hI.th i a ha).phys.1 (by simp [phys, hda])
  have h2 := (hI.th j b hb).phys.1 (by simp [phys, hdb])
  omega

/-- **C08** (recursion): a thread inside of the critical section acquires the lock again without
waiting: its load of the owner can only yield its own identifier, and the acquisition is
complete after this single step, whatever the other threads do. -/
theorem C08_reentry_does_not_block (n : Nat) (s : St) (h : Reach n s) (i : Nat) (th : Th)
    (ht : s.threads[i]? = some th) (hd : 0 < th.depth) (hb : th.depth + 1 < 2 ^ 63)
    (hpc : th.pc = .acqLoad none) :
    (∀ v s', step s i (.load v) = some s' → v = i + 1 ∧
      s'.threads[i]? = some { th with pc := .run, depth := th.depth + 1 }) ∧
    ∃ s', step s i (.load (i + 1)) = some s' := by
  have hI := inv_reach h
  have ho := (hI.th i th ht).phys.1 (by simp [phys, hd])
  have hlt : i < s.threads.length := by
    rcases Nat.lt_or_ge i s.threads.length with h | h
    · exact h
    · rw [List.getElem?_eq_none h] at ht; cases ht
  constructor
  · intro v s' hs
    unfold step at hs
    rw [ht] at hs
    simp only [hpc] at hs
    split at hs
    · rename_i hv
      have hv1 := hv.2 ho
      rw [if_pos hv1, if_pos (show th.depth + 1 < PENDING from hb)] at hs
      cases hs
      exact ⟨hv1, by simp [St.upd, hlt, acqDone]⟩
    · cases hs
  · exact ⟨{ s with count := s.count + 1 }.upd i { th with pc := .run, depth := th.depth + 1 },
      by simp [step, ht, hpc, ho, PENDING, hb, acqDone]⟩

/-- **C08** (release): when no thread is in the middle of an acquisition or release, the lock is
free exactly if every thread has released it as often as it acquired it, and otherwise it is
held by the one thread that has not. -/
theorem C08_free_iff_balanced (n : Nat) (s : St) (h : Reach n s)
    (hq : ∀ (i : Nat) (th : Th), s.threads[i]? = some th → th.pc = .run) :
    (s.owner = 0 ↔ ∀ (i : Nat) (th : Th), s.threads[i]? = some th → th.depth = 0) ∧
    (∀ (i : Nat) (th : Th), s.threads[i]? = some th → (s.owner = i + 1 ↔ 0 < th.depth)) := by
  have hI := inv_reach h
  have key : ∀ (i : Nat) (th : Th), s.threads[i]? = some th → (s.owner = i + 1 ↔ 0 < th.depth) := by
    intro i th ht
    rw [← (hI.th i th ht).phys]
    simp [phys, hq i th ht]
  refine ⟨⟨?_, ?_⟩, key⟩
  · intro h0 i th ht
    have := key i th ht
    omega
  · intro hall
    by_contra hne
    obtain ⟨th, ht⟩ := hI.owner hne
    have h1 := key _ th ht
    have h2 := hall _ th ht
    omega

/-- **C08** (progress): when the lock is free, a thread that waits for it can take it with its own
next steps. -/
theorem C08_waiting_thread_can_take_free_lock (s : St) (i : Nat) (th : Th)
    (ht : s.threads[i]? = some th) (hpc : th.pc = .acqSpin none) (hfree : s.owner = 0) :
    ∃ s1 s2 s3, step s i (.load 0) = some s1 ∧ step s1 i (.cas false) = some s2 ∧
      step s2 i .go = some s3 ∧ s3.threads[i]? = some { th with pc := .run, depth := 1 } ∧
      s3.owner = i + 1 := by
  have hlt : i < s.threads.length := by
    rcases Nat.lt_or_ge i s.threads.length with h | h
    · exact h
    · rw [List.getElem?_eq_none h] at ht; cases ht
  have e1 : step s i (.load 0) = some (s.upd i { th with pc := .acqWeak none }) := by
    simp [step, ht, hpc, hfree]
  have e2 : step (s.upd i { th with pc := .acqWeak none }) i (.cas false) =
      some ({ s with owner := i + 1 }.upd i { th with pc := .acqGot none }) := by
    simp [step, St.upd, hlt, hfree]
  have e3 : step ({ s with owner := i + 1 }.upd i { th with pc := .acqGot none }) i .go =
      some ({ s with owner := i + 1, count := 1 }.upd i { th with pc := .run, depth := 1 }) := by
    simp [step, St.upd, hlt, acqDone]
  exact ⟨_, _, _, e1, e2, e3, by simp [St.upd, hlt], rfl⟩

/-- Execution of a schedule. -/
def exec (s : St) : List (Nat × Act) → Option St
  | [] => some s
  | (i, a) :: l => match step s i a with
    | none => none
    | some s' => exec s' l

theorem reach_exec {n : Nat} (l : List (Nat × Act)) : ∀ {s s' : St}, Reach n s → exec s l = some s' →
    Reach n s' := by
  induction l with
  | nil => intro s s' h e; simp [exec] at e; subst e; exact h
  | cons x l ih =>
    intro s s' h e
    obtain ⟨i, a⟩ := x
    unfold exec at e
    split at e
    · cases e
    · rename_i s1 h1
      exact ih (.step h h1) e

/-- Thread 0 acquires twice, logs, releases once; thread 1 spins. -/
def exLock : List (Nat × Act) :=
  [(0, .acquire), (1, .acquire), (0, .load 0), (1, .load 0), (0, .cas false), (1, .cas false),
   (0, .go), (0, .acquire), (0, .load 1), (0, .log 7), (0, .load 1), (0, .release), (0, .go),
   (0, .go), (1, .load 1)]

example : (exec (init 2) exLock).map (fun s => (s.owner, s.threads.map (·.depth))) =
    some (1, [1, 0]) := by decide
example : (exec (init 2) exLock).map (fun s => s.threads.map (·.pc)) =
    some [.run, .acqSpin none] := by decide

/-! ## C09 -/

/-- **C09** (never under the lock): whenever the callback is invoked, the invoking thread does not
hold the lock. -/
theorem C09_not_under_lock (n : Nat) (s s' : St) (h : Reach n s) (i : Nat) (a : Act) (m : Msg)
    (hs : step s i a = some s') (hd : s'.delivered = s.delivered ++ [(i, m)]) :
    s.owner ≠ i + 1 ∧ s'.owner ≠ i + 1 := by
  have hI := inv_reach h
  have hne : s'.delivered ≠ s.delivered := by
    rw [hd]; intro e
    have := congrArg List.length e
    simp at this
  unfold step at hs
  cases hth : s.threads[i]? with
  | none => rw [hth] at hs; cases hs
  | some th =>
    rw [hth] at hs
    simp only at hs
    have hok := hI.th i th hth
    cases hp : th.pc <;> cases a <;> simp only [hp] at hs <;> try (cases hs; done)
    case some.run.next =>
      split at hs
      · rename_i m' todo base fs hf
        split at hs
        · rename_i hbase
          cases hs
          have hb0 : base = 0 := hok.frames (m' :: todo) base (by rw [hf]; simp)
          have hno : phys th = false := by simp [phys, hp]; omega
          have : s.owner ≠ i + 1 := by
            intro e
            rw [hok.phys.2 e] at hno
            cases hno
          exact ⟨this, this⟩
        · cases hs
      · split at hs
        · cases hs; exact absurd rfl hne
        · cases hs
      · cases hs
    all_goals
      first
      | (cases hs; exact absurd rfl hne)
      | (exfalso; apply hne; revert hs; (repeat' split) <;> intro hs <;> first | (cases hs; rfl) | cases hs)

/-- **C09** (exactly once): no message is delivered more often than it was logged, and in every
state in which all threads are idle (in client code, lock released, no delivery loop or temporary
release open) and the client hook has not asked to postpone delivery, the messages
delivered are exactly those that were logged. -/
theorem C09_exactly_once (n : Nat) (s : St) (h : Reach n s) :
    (∀ m, (s.delivered.map (·.2)).count m ≤ s.logged.count m) ∧
    ((∀ (i : Nat) (th : Th), s.threads[i]? = some th → th = {}) → s.deferred = false →
      (s.delivered.map (·.2)).Perm s.logged) := by
  obtain ⟨hA, hC⟩ := log_reach h
  have hI := inv_reach h
  constructor
  · intro m; have := hA m; omega
  · intro hidle hdef
    have hq : s.queue = [] := by
      by_contra hne
      rcases hC hne with h1 | ⟨i, th, ht, hw⟩
      · rw [hdef] at h1; cases h1
      · have he := hidle i th ht
        subst he
        rcases hw with ⟨h1, h2⟩ | hw | hw
        · have := (hI.th i _ ht).phys.2 h1
          simp [phys] at this
        · simp at hw
        · simp at hw
    have ht : takenAll s = [] := by
      unfold takenAll
      rw [List.flatMap_eq_nil_iff]
      intro th hth
      obtain ⟨i, hi, he⟩ := List.mem_iff_getElem.1 hth
      have := hidle i th (by rw [List.getElem?_eq_getElem hi, he])
      subst this
      rfl
    apply List.perm_iff_count.2
    intro m
    have := hA m
    rw [hq, ht] at this
    simp at this
    omega

/-- A run that ends idle: thread 0 logs twice inside nested critical sections and thread 1 once outside. -/
def exLog : List (Nat × Act) :=
  [(0, .acquire), (0, .load 0), (0, .cas false), (0, .go), (0, .log 1), (0, .load 1),
   (0, .unlockBegin), (0, .go), (0, .go), (0, .go), (1, .log 5), (1, .load 0), (1, .defer false),
   (1, .go), (1, .next), (1, .next), (1, .next), (0, .unlockEnd), (0, .load 0), (0, .cas false),
   (0, .go), (0, .go), (0, .log 2), (0, .load 1), (0, .release), (0, .go), (0, .go), (0, .go),
   (0, .go), (0, .go), (0, .defer false), (0, .go), (0, .next), (0, .next)]

example : ∃ s, Reach 2 s ∧ s.threads = [{}, {}] ∧ s.deferred = false ∧ s.logged = [1, 5, 2] ∧
    s.delivered = [(1, 1), (1, 5), (0, 2)] := by
  have h : (exec (init 2) exLog).map (fun s => (s.threads, s.deferred, s.logged, s.delivered)) =
      some ([{}, {}], false, [1, 5, 2], [(1, 1), (1, 5), (0, 2)]) := by decide
  cases he : exec (init 2) exLog with
  | none => rw [he] at h; cases h
  | some s =>
    rw [he] at h
    simp at h
    exact ⟨s, reach_exec exLog .init he, h⟩

/-- **C09** (no message is stranded): while messages are queued, some thread is still going to
flush the queue — it holds the lock with the pending mark, carries the mark across a
temporary release, or is on its way to the flush — unless the client hook asked for postponement. -/
theorem C09_not_stranded (n : Nat) (s : St) (h : Reach n s) (hq : s.queue ≠ []) :
    s.deferred = true ∨ ∃ (i : Nat) (th : Th), s.threads[i]? = some th ∧ wit s.owner s.count i th :=
  (log_reach h).2 hq

/-! ### Order -/

/-- Reachability by schedules in which a delivery loop takes messages from the queue only
after all messages taken earlier have been handed to the callback. -/
inductive SeqReach (n : Nat) : St → Prop
  | init : SeqReach n (init n)
  | step {s s' : St} {i : Nat} {a : Act} : SeqReach n s → step s i a = some s' →
      ((∃ th, s.threads[i]? = some th ∧ th.pc = .deliver) → takenAll s = []) → SeqReach n s'

theorem SeqReach.reach {n : Nat} {s : St} (h : SeqReach n s) : Reach n s := by
  induction h with
  | init => exact .init
  | step _ hs _ ih => exact .step ih hs

theorem flatMap_set (l : List Th) (i : Nat) (th th' : Th) (h : l[i]? = some th) :
    ∃ pre post, l.flatMap taken = pre ++ taken th ++ post ∧
      (l.set i th').flatMap taken = pre ++ taken th' ++ post := by
  induction l generalizing i with
  | nil => simp at h
  | cons x l ih =>
    cases i with
    | zero =>
      simp at h; subst h
      exact ⟨[], l.flatMap taken, by simp, by simp⟩
    | succ i =>
      obtain ⟨pre, post, h1, h2⟩ := ih i (by simpa using h)
      exact ⟨taken x ++ pre, post, by simp [h1], by simp [h2]⟩

/-- Ordered accounting. -/
structure Ord (s : St) : Prop where
  eq : s.delivered.map (·.2) ++ takenAll s ++ s.queue = s.logged
  one : ∀ (i : Nat) (th : Th) (t : List Msg) (b : Nat), s.threads[i]? = some th → .del t b ∈ th.frames →
    t ≠ [] → takenAll s = t

theorem taken_of_frames {th th' : Th} (h : th'.frames.flatMap frameMsgs = th.frames.flatMap frameMsgs) :
    taken th' = taken th := h

theorem ord_same {s s' : St} {i : Nat} {th th' : Th} (hi : s.threads[i]? = some th)
    (hthr : s'.threads = s.threads.set i th')
    (hf : ∀ t b, .del t b ∈ th'.frames → t ≠ [] → .del t b ∈ th.frames)
    (ht : taken th' = taken th) (hq : s'.queue = s.queue) (hl : s'.logged = s.logged)
    (hd : s'.delivered = s.delivered) (h : Ord s) : Ord s' := by
  have hlt : i < s.threads.length := by
    rcases Nat.lt_or_ge i s.threads.length with h | h
    · exact h
    · rw [List.getElem?_eq_none h] at hi; cases hi
  have hall : takenAll s' = takenAll s := by
    obtain ⟨pre, post, h1, h2⟩ := flatMap_set s.threads i th th' hi
    unfold takenAll
    rw [hthr, h1, h2, ht]
  refine ⟨by rw [hall, hq, hl, hd]; exact h.eq, ?_⟩
  intro j u t b hj hb hne
  rw [hall]
  rw [hthr, List.getElem?_set] at hj
  by_cases e : i = j
  · subst e
    simp [hlt] at hj
    subst hj
    exact h.one i th t b hi (hf t b hb hne) hne
  · simp [e] at hj
    exact h.one j u t b hj hb hne

theorem ord_step {s s' : St} (hO : Ord s) {i : Nat} {a : Act} (h : step s i a = some s')
    (hseq : (∃ th, s.threads[i]? = some th ∧ th.pc = .deliver) → takenAll s = []) : Ord s' := by
  unfold step at h
  have hsome : ∃ th, s.threads[i]? = some th := by
    cases hth : s.threads[i]? with
    | none => rw [hth] at h; cases h
    | some th => exact ⟨th, rfl⟩
  obtain ⟨th, hth⟩ := hsome
  have hlt : i < s.threads.length := by
    rcases Nat.lt_or_ge i s.threads.length with h | h
    · exact h
    · rw [List.getElem?_eq_none h] at hth; cases hth
  rw [hth] at h
  simp only at h
  cases hp : th.pc <;> cases a <;> simp only [hp] at h <;> try (cases h; done)
  case run.log m =>
    cases h
    have hall : takenAll ({ s with queue := s.queue ++ [m], logged := s.logged ++ [m] }.upd i
        { th with pc := .logPushed }) = takenAll s := by
      obtain ⟨pre, post, h1, h2⟩ := flatMap_set s.threads i th { th with pc := .logPushed } hth
      unfold takenAll
      simp only [St.upd]
      rw [h1, h2]
      rfl
    refine ⟨?_, ?_⟩
    · rw [hall]
      simp only [St.upd]
      rw [← List.append_assoc, hO.eq]
    · intro j u t b hj hb hne
      rw [hall]
      simp only [St.upd, List.getElem?_set] at hj
      by_cases e : i = j
      · subst e
        simp [hlt] at hj
        subst hj
        exact hO.one i th t b hth hb hne
      · simp [e] at hj
        exact hO.one j u t b hj hb hne
  case run.unlockBegin =>
    split at h
    · cases h
    · cases h
      refine ord_same hth rfl ?_ (by simp [taken, frameMsgs]) rfl rfl rfl hO
      intro t b hb _
      simpa using hb
  case run.unlockEnd =>
    split at h
    · rename_i p fs hf
      cases h
      refine ord_same hth rfl ?_ (by simp [taken, frameMsgs, hf]) rfl rfl rfl hO
      intro t b hb _
      rw [hf]
      exact List.mem_cons_of_mem _ hb
    · cases h
  case run.next =>
    split at h
    · rename_i m todo base fs hf
      split at h
      · cases h
        have hone := hO.one i th (m :: todo) base hth (by rw [hf]; simp) (by simp)
        obtain ⟨pre, post, h1, h2⟩ := flatMap_set s.threads i th
          { th with frames := .del todo base :: fs } hth
        have e1 : takenAll s = pre ++ taken th ++ post := h1
        have ht : taken th = m :: (todo ++ fs.flatMap frameMsgs) := by simp [taken, hf, frameMsgs]
        have ht' : taken { th with frames := .del todo base :: fs } = todo ++ fs.flatMap frameMsgs := by
          simp [taken, frameMsgs]
        rw [hone, ht] at e1
        have hlen := congrArg List.length e1
        simp at hlen
        have p0 : pre = [] := List.length_eq_zero_iff.1 (by omega)
        have q0 : post = [] := List.length_eq_zero_iff.1 (by omega)
        have f0 : fs.flatMap frameMsgs = [] := by
          apply List.length_eq_zero_iff.1
          rw [List.length_flatMap]
          omega
        subst p0 q0
        rw [ht', f0] at h2
        simp only [List.nil_append, List.append_nil] at h2
        have hall : takenAll ({ s with delivered := s.delivered ++ [(i, m)] }.upd i
            { th with frames := .del todo base :: fs }) = todo := h2
        rw [hp] at hall
        refine ⟨?_, ?_⟩
        · rw [hall]
          simp only [St.upd, List.map_append, List.map_cons, List.map_nil]
          have := hO.eq
          rw [hone] at this
          rw [← this]
          simp
        · intro j u t b hj hb hne
          rw [hall]
          simp only [St.upd, List.getElem?_set] at hj
          by_cases e : i = j
          · subst e
            simp [hlt] at hj
            subst hj
            simp at hb
            rcases hb with ⟨rfl, _⟩ | hb
            · rfl
            · exfalso
              have : t = [] := by
                have := (List.flatMap_eq_nil_iff.1 f0) _ hb
                simpa [frameMsgs] using this
              exact hne this
          · simp [e] at hj
            have h3 := hO.one j u t b hj hb hne
            exfalso
            -- thread `j` would hold messages outside of the segment of thread `i`
            have hj' : (s.threads.set i { th with frames := .del todo base :: fs })[j]? = some u := by
              rw [List.getElem?_set]; simp [e, hj]
            obtain ⟨pre', post', g1, _⟩ := flatMap_set _ j u u hj'
            rw [h2] at g1
            have hl := congrArg List.length g1
            have hl2 : t.length ≤ (taken u).length := by
              have hm : t ∈ u.frames.map frameMsgs := List.mem_map.2 ⟨_, hb, rfl⟩
              unfold taken
              rw [List.flatMap_def]
              exact (List.sublist_flatten_of_mem hm).length_le
            have hl3 := congrArg List.length (hone.symm.trans h3)
            simp at hl hl3
            omega
      · cases h
    · rename_i base fs hf
      split at h
      · cases h
        refine ord_same hth rfl ?_ (by simp [taken, frameMsgs, hf]) rfl rfl rfl hO
        intro t b hb _
        rw [hf]
        exact List.mem_cons_of_mem _ hb
      · cases h
    · cases h
  case deliver.go =>
    cases h
    have h0 := hseq ⟨th, hth, hp⟩
    obtain ⟨pre, post, h1, h2⟩ := flatMap_set s.threads i th
      { th with pc := .run, frames := .del s.queue th.depth :: th.frames } hth
    have e1 : takenAll s = pre ++ taken th ++ post := h1
    rw [h0] at e1
    simp at e1
    obtain ⟨p0, t0, q0⟩ := e1
    subst p0 q0
    have ht' : taken { th with pc := .run, frames := .del s.queue th.depth :: th.frames } =
        s.queue ++ taken th := by simp [taken, frameMsgs]
    rw [ht', t0] at h2
    simp only [List.nil_append, List.append_nil] at h2
    have hall : takenAll ({ s with queue := [], deferred := false }.upd i
        { th with pc := .run, frames := .del s.queue th.depth :: th.frames }) = s.queue := h2
    refine ⟨?_, ?_⟩
    · rw [hall]
      simp only [St.upd, List.append_nil]
      have := hO.eq
      rw [h0, List.append_nil] at this
      exact this
    · intro j u t b hj hb hne
      rw [hall]
      simp only [St.upd, List.getElem?_set] at hj
      by_cases e : i = j
      · subst e
        simp [hlt] at hj
        subst hj
        simp at hb
        rcases hb with ⟨rfl, _⟩ | hb
        · rfl
        · have := hO.one i th t b hth hb hne
          rw [h0] at this
          exact absurd this.symm hne
      · simp [e] at hj
        have := hO.one j u t b hj hb hne
        rw [h0] at this
        exact absurd this.symm hne
  all_goals
    revert h
    (repeat' split) <;> intro h <;> first
      | (cases h; exact ord_same hth rfl (fun _ _ h _ => h) rfl rfl rfl rfl hO)
      | (cases h; exact hO)
      | cases h

theorem ord_init (n : Nat) : Ord (init n) := by
  have : (List.replicate n ({} : Th)).flatMap taken = [] := by
    rw [List.flatMap_eq_nil_iff]
    intro x hx
    rw [List.mem_replicate] at hx
    rw [hx.2]
    rfl
  refine ⟨by simp [takenAll, init, this], ?_⟩
  intro i th t b h hb _
  have : th = {} := by
    simp [init, List.getElem?_replicate] at h
    exact h.2.symm
  subst this
  cases hb

/-- **C09** (order, partial): if no two delivery loops overlap, messages reach the callback in the
order in which they were logged.  Missing: overlapping delivery loops, for which
the claim is false, see `C09_order_violated`. -/
theorem C09_in_order_partial (n : Nat) (s : St) (h : SeqReach n s) :
    ∃ rest, s.delivered.map (·.2) ++ rest = s.logged := by
  have hO : Ord s := by
    induction h with
    | init => exact ord_init n
    | step hr hs hseq ih => exact ord_step ih hs hseq
  exact ⟨takenAll s ++ s.queue, by rw [← List.append_assoc]; exact hO.eq⟩

/-- Thread 0 logs 1 while holding the lock.  Thread 1 logs 9 and takes both messages out of the
queue, but is preempted before it calls the callback.  Thread 0 logs 2 and releases the
lock, which delivers 2 before 1. -/
def exOrder : List (Nat × Act) :=
  [(0, .acquire), (0, .load 0), (0, .cas false), (0, .go), (0, .log 1), (0, .load 1),
   (1, .log 9), (1, .load 1), (1, .defer false), (1, .go),
   (0, .log 2), (0, .load 1), (0, .release), (0, .go), (0, .go), (0, .go), (0, .go), (0, .go),
   (0, .defer false), (0, .go), (0, .next), (1, .next), (1, .next)]

/-- **C09** is false for overlapping deliveries: thread 0 logged 1 before 2, but 2 is delivered first. -/
theorem C09_order_violated : ∃ s, Reach 2 s ∧ s.logged = [1, 9, 2] ∧
    s.delivered.map (·.2) = [2, 1, 9] := by
  have h : (exec (init 2) exOrder).map (fun s => (s.logged, s.delivered.map (·.2))) =
      some ([1, 9, 2], [2, 1, 9]) := by decide
  cases he : exec (init 2) exOrder with
  | none => rw [he] at h; cases h
  | some s =>
    rw [he] at h
    simp at h
    exact ⟨s, reach_exec exOrder .init he, h.1, by simpa using h.2⟩

end Verif.Lock
