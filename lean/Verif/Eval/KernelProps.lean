import Verif.Eval.Kernels

/-!
# C19 and C49: theorems about the kernels of one `jit_eval()`
-/

namespace Verif.Eval

open Gen (Visit Seen see)

variable {g : Nat → Option Node} {refs : Nat → Nat}

/-- The computation `L` of one kernel with `size` threads, for the tasks `roots`. -/
structure KernelOk (g : Nat → Option Node) (refs : Nat → Nat) (size : Nat)
    (roots : List Nat) (L : List SV) : Prop where
  /-- every variable is computed at most once -/
  once : (L.map SV.index).Nodup
  /-- each entry has the size of the kernel and the scope of its variable; the
  result of an atomic operation that was executed before is never recomputed -/
  entries : ∀ x ∈ L, x.size = size ∧ ∃ nd, g x.index = some nd ∧ x.scope = nd.scope ∧
    (nd.kind ≠ .callInput → nd.consumed = false)
  /-- every operand is computed before its use. (The exception are operands from a
  newer scope, which the assembly step rejects with an error.) -/
  order : ∀ i nd j ndj, g i = some nd → g j = some ndj → Act.visit j 0 ∈ edges nd 0 →
    ndj.scope ≤ nd.scope → Before j i L ∨ Dead g refs j
  /-- nothing is computed that no task needs -/
  minimal : ∀ x ∈ L, Reach g (fun _ => False) roots x.index 0
  /-- everything that a task needs is computed -/
  complete : InputsAtOneDepth g roots → ∀ i, Reach g (Dead g refs) roots i 0 →
    i ∈ L.map SV.index ∨ Dead g refs i
  /-- first come, first served -/
  firstCome : ∀ p q, roots = p ++ q → ∀ a ∈ p, ¬ Dead g refs a → ∀ b nda ndb,
    g a = some nda → g b = some ndb → nda.scope ≤ ndb.scope →
    ¬ Reach g (fun _ => False) p b 0 → Before a b L

theorem kernelOk_of_group {size : Nat} {roots : List Nat} {S L : List SV}
    (hG : GroupOk g refs size roots S) (hL : SortedSchedule S L) :
    KernelOk g refs size roots L := by
  have hz : ∀ x ∈ S, x.size = size := fun x hx => (hG.entries x hx).1
  have hscope : ∀ {i j : Nat} {ndi ndj : Node}, g i = some ndi → g j = some ndj →
      ndj.scope ≤ ndi.scope → ∀ x ∈ S, ∀ y ∈ S, x.index = i → y.index = j →
      y.scope ≤ x.scope := by
    intro i j ndi ndj hi hj hle x hx y hy hxi hyj
    obtain ⟨_, nx, h1, h2, _⟩ := hG.entries x hx
    obtain ⟨_, ny, h3, h4, _⟩ := hG.entries y hy
    rw [hxi, hi] at h1
    rw [hyj, hj] at h3
    have h1' := Option.some.inj h1
    have h3' := Option.some.inj h3
    rw [h2, h4, ← h1', ← h3']
    exact hle
  refine ⟨(hL.perm.map _).nodup_iff.2 hG.once, fun x hx => hG.entries x (hL.perm.mem_iff.1 hx), ?_,
    fun x hx => hG.minimal x (hL.perm.mem_iff.1 hx), ?_, ?_⟩
  · intro i nd j ndj hi hj he hle
    rcases hG.order i nd j hi he with h | h
    · left
      exact before_sorted hz hG.once hL h (hscope hi hj hle)
    · exact Or.inr h
  · intro hone i hi
    rcases hG.complete hone i hi with h | h
    · left
      exact (hL.perm.map _).mem_iff.2 h
    · exact Or.inr h
  · intro p q hpq a ha hda b nda ndb hga hgb hle hb
    exact before_sorted hz hG.once hL (hG.firstCome p q hpq a ha hda b hb) (hscope hgb hga hle)

/-- The tasks that belong to the kernel of size `z`. -/
def rootsOf (tasks : List Task) (z : Nat) : List Nat :=
  (tasks.filter fun t => decide (t.size = z)).map Task.index

theorem plan_groups {stdSort : List Bucket → List Bucket} {stableSort : List SV → List SV}
    {taskSort : List Task → List Task}
    (hstd : SortOk Bucket.key stdSort) (hstable : StableSortOk SV.key stableSort)
    (hts : StableSortOk Task.key taskSort) {rank : Nat → Nat} (hac : Acyclic g rank)
    {fuel : Nat} {tasks : List Task} {gen : Gen.St} (hidle : Idle ⟨gen, [], []⟩)
    (hlen : ∀ s, runTasks g refs fuel (taskSort tasks) ⟨gen, [], []⟩ = .ok s →
      s.sched.length < 2 ^ 32) {ks : List Group} {out : List SV}
    (h : plan stdSort stableSort taskSort g refs fuel tasks gen = .ok (ks, out)) :
    ks = partition out ∧ out.Pairwise InOrder ∧
    ∀ z, KernelOk g refs z (rootsOf (taskSort tasks) z)
      (out.filter fun x => decide (x.size = z)) := by
  unfold plan at h
  cases hr : runTasks g refs fuel (taskSort tasks) ⟨gen, [], []⟩ with
  | error e => rw [hr] at h; simp at h
  | ok s =>
    rw [hr] at h
    dsimp only at h
    obtain ⟨out', ho, hS⟩ := C20_sorted stdSort stableSort hstd hstable s.sched (hlen s hr)
    rw [ho] at h
    simp only [Except.ok.injEq, Prod.mk.injEq] at h
    obtain ⟨rfl, rfl⟩ := h
    have hsz : (taskSort tasks).Pairwise fun a b => b.size ≤ a.size := by
      refine (hts.sorted tasks).imp ?_
      intro a b hab
      rcases not_less_key hab with h | ⟨h, _⟩ <;> omega
    obtain ⟨S, hS1, hG, _⟩ := runTasks_spec hac _ _ (le_refl _) hsz _ _ hidle hr
    rw [List.nil_append] at hS1
    rw [hS1] at hS
    exact ⟨rfl, hS.sorted, fun z => kernelOk_of_group (hG z) (sorted_filter hS z)⟩

/-- **C19.** If scheduling succeeds, the launched kernels have pairwise different
sizes, in decreasing order. Each of them computes, without repetition and with all
operands before their uses, exactly the variables that the tasks of that size need,
and every size with something to compute has a kernel. -/
theorem C19_kernels {stdSort : List Bucket → List Bucket} {stableSort : List SV → List SV}
    {taskSort : List Task → List Task}
    (hstd : SortOk Bucket.key stdSort) (hstable : StableSortOk SV.key stableSort)
    (hts : StableSortOk Task.key taskSort) {rank : Nat → Nat} (hac : Acyclic g rank)
    {fuel : Nat} {tasks : List Task} {gen : Gen.St} (hidle : Idle ⟨gen, [], []⟩)
    (hlen : ∀ s, runTasks g refs fuel (taskSort tasks) ⟨gen, [], []⟩ = .ok s →
      s.sched.length < 2 ^ 32) {ks : List Group} {out : List SV}
    (h : plan stdSort stableSort taskSort g refs fuel tasks gen = .ok (ks, out)) :
    (ks.map Group.size).Pairwise (· > ·) ∧
    (∀ k ∈ ks, k.entries out ≠ [] ∧
      KernelOk g refs k.size (rootsOf (taskSort tasks) k.size) (k.entries out)) ∧
    (∀ z, z ∉ ks.map Group.size → KernelOk g refs z (rootsOf (taskSort tasks) z) []) := by
  obtain ⟨rfl, hsort, hK⟩ := plan_groups hstd hstable hts hac hidle hlen h
  obtain ⟨p1, p2, p3⟩ := partition_spec hsort
  refine ⟨p2, ?_, ?_⟩
  · intro k hk
    obtain ⟨he, hne⟩ := p1 k hk
    refine ⟨hne, ?_⟩
    rw [he]
    exact hK k.size
  · intro z hz
    have : out.filter (fun x => decide (x.size = z)) = [] := by
      rw [List.filter_eq_nil_iff]
      intro x hx hc
      exact hz (of_decide_eq_true hc ▸ p3 x hx)
    rw [← this]
    exact hK z

/-- The sets of tasks before and after the sort agree. -/
theorem rootsOf_perm {taskSort : List Task → List Task} (hts : StableSortOk Task.key taskSort)
    (tasks : List Task) (z : Nat) : (rootsOf (taskSort tasks) z).Perm (rootsOf tasks z) :=
  ((hts.perm tasks).filter _).map _

theorem runTasks_terminates {rank : Nat → Nat} (hac : Acyclic g rank) {N : Nat}
    (hN : ∀ i, N ≤ i → g i = none) {fuel : Nat} (hf : 2 * N < fuel) :
    ∀ (n : Nat) (ts : List Task), ts.length ≤ n → ∀ s, Idle s →
    runTasks g refs fuel ts s ≠ .error .fuel := by
  intro n
  induction n with
  | zero =>
    intro ts hl s _
    have : ts = [] := List.length_eq_zero_iff.1 (by omega)
    subst this
    simp [runTasks]
  | succ n ih =>
    intro ts hl s hs
    cases ts with
    | nil => simp [runTasks]
    | cons t ts =>
      rw [runTasks]
      have hterm := travGroup_terminates (size := t.size) (refs := refs) hN
        (tasks := t.index :: (ts.takeWhile fun u => decide (u.size = t.size)).map Task.index) hs hf
      cases hg : travGroup g refs t.size fuel
        (t.index :: (ts.takeWhile fun u => decide (u.size = t.size)).map Task.index) s with
      | error e =>
        dsimp only
        intro hc
        simp only [Except.error.injEq] at hc
        subst hc
        exact hterm hg
      | ok s1 =>
        dsimp only
        have hlen := (List.dropWhile_sublist (l := ts)
          (fun u : Task => decide (u.size = t.size))).length_le
        simp only [List.length_cons] at hl
        exact ih _ (by omega) s1 (travGroup_spec hac hs hg).1

/-- **C19, termination.** With `N` variables, scheduling never recurses deeper than
`2 N` levels: it returns a schedule or raises an error. -/
theorem C19_terminates {stdSort : List Bucket → List Bucket} {stableSort : List SV → List SV}
    {taskSort : List Task → List Task} {rank : Nat → Nat} (hac : Acyclic g rank) {N : Nat}
    (hN : ∀ i, N ≤ i → g i = none) {fuel : Nat} (hf : 2 * N < fuel) {tasks : List Task}
    {gen : Gen.St} (hidle : Idle ⟨gen, [], []⟩) :
    plan stdSort stableSort taskSort g refs fuel tasks gen ≠ .error .fuel := by
  have := runTasks_terminates (refs := refs) hac hN hf _ (taskSort tasks) (le_refl _) _ hidle
  unfold plan
  cases hr : runTasks g refs fuel (taskSort tasks) ⟨gen, [], []⟩ with
  | error e =>
    dsimp only
    intro hc
    simp only [Except.error.injEq] at hc
    subst hc
    exact this hr
  | ok s =>
    dsimp only
    cases scheduleSort stdSort stableSort s.sched <;> simp

/-- **C49 (partial).** Of two side effects of one size, the one that was queued
first is executed first, provided that the other one is not needed by a computed
value or by a side effect queued up to then. What is missing: that proviso, see
`C49_result_overtakes`. -/
theorem C49_side_effects_partial {stdSort : List Bucket → List Bucket}
    {stableSort : List SV → List SV} {taskSort : List Task → List Task}
    (hstd : SortOk Bucket.key stdSort) (hstable : StableSortOk SV.key stableSort)
    (hts : StableSortOk Task.key taskSort) {rank : Nat → Nat} (hac : Acyclic g rank)
    {fuel : Nat} {sizeOf : Nat → Nat} {skip elided : Nat → Bool} {q : Queues}
    {gen : Gen.St} (hidle : Idle ⟨gen, [], []⟩)
    (hlen : ∀ s, runTasks g refs fuel (taskSort (collect sizeOf skip elided q))
      ⟨gen, [], []⟩ = .ok s → s.sched.length < 2 ^ 32) {ks : List Group} {out : List SV}
    (h : plan stdSort stableSort taskSort g refs fuel (collect sizeOf skip elided q) gen =
      .ok (ks, out))
    -- the queue of side effects is `pre ++ a :: mid ++ b :: post`
    {pre mid post : List Nat} {a b : Nat} (hq : q.sideEffects = pre ++ a :: (mid ++ b :: post))
    (hsize : sizeOf a = sizeOf b) (ha : elided a = false) (hda : ¬ Dead g refs a)
    {nda ndb : Node} (hga : g a = some nda) (hgb : g b = some ndb)
    (hscope : nda.scope ≤ ndb.scope)
    (hneed : ¬ Reach g (fun _ => False) (q.scheduled ++ pre ++ a :: mid) b 0) :
    Before a b (out.filter fun x => decide (x.size = sizeOf a)) := by
  obtain ⟨_, _, hK⟩ := plan_groups hstd hstable hts hac hidle hlen h
  have hroots : rootsOf (taskSort (collect sizeOf skip elided q)) (sizeOf a) =
      tasksOf sizeOf skip elided q (sizeOf a) := C49_task_order taskSort hts sizeOf skip elided q _
  refine (hK (sizeOf a)).firstCome
    (q.scheduled.filter (fun i => !skip i && decide (sizeOf i = sizeOf a)) ++
      (pre ++ a :: mid).filter (fun i => !elided i && decide (sizeOf i = sizeOf a)))
    ((b :: post).filter (fun i => !elided i && decide (sizeOf i = sizeOf a)))
    ?_ a ?_ hda b nda ndb hga hgb hscope ?_
  · rw [hroots, tasksOf, hq, List.append_assoc, ← List.filter_append]
    simp [List.append_assoc]
  · apply List.mem_append_right
    simp [ha]
  · intro hc
    refine hneed (hc.mono ?_)
    intro i hi
    rcases List.mem_append.1 hi with hi | hi
    · simp [(List.mem_filter.1 hi).1]
    · have := (List.mem_filter.1 hi).1
      simp only [List.append_assoc, List.mem_append] at this ⊢
      exact Or.inr this

/-- **C49.** Explicitly scheduled variables are computed before the side effects of
the same size (unless they need one). -/
theorem C49_values_first {stdSort : List Bucket → List Bucket}
    {stableSort : List SV → List SV} {taskSort : List Task → List Task}
    (hstd : SortOk Bucket.key stdSort) (hstable : StableSortOk SV.key stableSort)
    (hts : StableSortOk Task.key taskSort) {rank : Nat → Nat} (hac : Acyclic g rank)
    {fuel : Nat} {sizeOf : Nat → Nat} {skip elided : Nat → Bool} {q : Queues}
    {gen : Gen.St} (hidle : Idle ⟨gen, [], []⟩)
    (hlen : ∀ s, runTasks g refs fuel (taskSort (collect sizeOf skip elided q))
      ⟨gen, [], []⟩ = .ok s → s.sched.length < 2 ^ 32) {ks : List Group} {out : List SV}
    (h : plan stdSort stableSort taskSort g refs fuel (collect sizeOf skip elided q) gen =
      .ok (ks, out))
    {a b : Nat} (ha : a ∈ q.scheduled) (hska : skip a = false) (hda : ¬ Dead g refs a)
    {nda ndb : Node} (hga : g a = some nda) (hgb : g b = some ndb)
    (hscope : nda.scope ≤ ndb.scope)
    (hneed : ¬ Reach g (fun _ => False) q.scheduled b 0) :
    Before a b (out.filter fun x => decide (x.size = sizeOf a)) := by
  obtain ⟨_, _, hK⟩ := plan_groups hstd hstable hts hac hidle hlen h
  have hroots : rootsOf (taskSort (collect sizeOf skip elided q)) (sizeOf a) =
      tasksOf sizeOf skip elided q (sizeOf a) := C49_task_order taskSort hts sizeOf skip elided q _
  refine (hK (sizeOf a)).firstCome
    (q.scheduled.filter (fun i => !skip i && decide (sizeOf i = sizeOf a)))
    (q.sideEffects.filter (fun i => !elided i && decide (sizeOf i = sizeOf a)))
    ?_ a ?_ hda b nda ndb hga hgb hscope ?_
  · rw [hroots, tasksOf]
  · simp [ha, hska]
  · intro hc
    exact hneed (hc.mono fun i hi => (List.mem_filter.1 hi).1)

/-! ## Operations that must not be repeated (C59) -/

/-- **C59.** A variable that an earlier kernel consumed (the result of an atomic
operation) is never computed again: scheduling raises an error instead. -/
theorem C59_consumed_not_rerun {stdSort : List Bucket → List Bucket}
    {stableSort : List SV → List SV} {taskSort : List Task → List Task}
    (hstd : SortOk Bucket.key stdSort) (hstable : StableSortOk SV.key stableSort)
    (hts : StableSortOk Task.key taskSort) {rank : Nat → Nat} (hac : Acyclic g rank)
    {fuel : Nat} {tasks : List Task} {gen : Gen.St} (hidle : Idle ⟨gen, [], []⟩)
    (hlen : ∀ s, runTasks g refs fuel (taskSort tasks) ⟨gen, [], []⟩ = .ok s →
      s.sched.length < 2 ^ 32) {ks : List Group} {out : List SV}
    (h : plan stdSort stableSort taskSort g refs fuel tasks gen = .ok (ks, out))
    {i : Nat} {nd : Node} (hi : g i = some nd) (hk : nd.kind ≠ .callInput)
    (hc : nd.consumed = true) : i ∉ out.map SV.index := by
  obtain ⟨_, _, hK⟩ := plan_groups hstd hstable hts hac hidle hlen h
  intro hm
  obtain ⟨x, hx, rfl⟩ := List.mem_map.1 hm
  obtain ⟨_, nd', h1, _, h2⟩ := (hK x.size).entries x (List.mem_filter.2 ⟨hx, by simp⟩)
  rw [hi] at h1
  have := Option.some.inj h1
  subst this
  rw [h2 hk] at hc
  simp at hc

theorem count_le_one_of_nodup {l : List SV} (h : (l.map SV.index).Nodup) (i : Nat) :
    (l.filter fun x => decide (x.index = i)).length ≤ 1 := by
  induction l with
  | nil => simp
  | cons x l ih =>
    obtain ⟨h1, h2⟩ := List.nodup_cons.1 h
    rw [List.filter_cons]
    split_ifs with hx
    · have : l.filter (fun x => decide (x.index = i)) = [] := by
        rw [List.filter_eq_nil_iff]
        intro y hy hc
        exact h1 (List.mem_map.2 ⟨y, hy, by
          rw [of_decide_eq_true hc, ← of_decide_eq_true hx]⟩)
      simp [this]
    · exact ih h2

/-- **C59 (partial).** A variable that is needed by tasks of a single size is
computed at most once per evaluation. What is missing: variables that tasks of
several sizes need, see `C59_two_kernels`. -/
theorem C59_one_kernel_partial {stdSort : List Bucket → List Bucket}
    {stableSort : List SV → List SV} {taskSort : List Task → List Task}
    (hstd : SortOk Bucket.key stdSort) (hstable : StableSortOk SV.key stableSort)
    (hts : StableSortOk Task.key taskSort) {rank : Nat → Nat} (hac : Acyclic g rank)
    {fuel : Nat} {tasks : List Task} {gen : Gen.St} (hidle : Idle ⟨gen, [], []⟩)
    (hlen : ∀ s, runTasks g refs fuel (taskSort tasks) ⟨gen, [], []⟩ = .ok s →
      s.sched.length < 2 ^ 32) {ks : List Group} {out : List SV}
    (h : plan stdSort stableSort taskSort g refs fuel tasks gen = .ok (ks, out))
    {i z : Nat} (hz : ∀ w, w ≠ z → ¬ Reach g (fun _ => False) (rootsOf tasks w) i 0) :
    (out.filter fun x => decide (x.index = i)).length ≤ 1 := by
  obtain ⟨_, _, hK⟩ := plan_groups hstd hstable hts hac hidle hlen h
  have hsz : ∀ x ∈ out, x.index = i → x.size = z := by
    intro x hx hxi
    by_contra hne
    refine hz x.size hne ?_
    have := (hK x.size).minimal x (List.mem_filter.2 ⟨hx, by simp⟩)
    rw [hxi] at this
    exact this.mono fun j hj => (rootsOf_perm hts tasks x.size).mem_iff.1 hj
  have hnd := (hK z).once
  have he : out.filter (fun x => decide (x.index = i)) =
      (out.filter fun x => decide (x.size = z)).filter (fun x => decide (x.index = i)) := by
    rw [List.filter_filter]
    apply List.filter_congr
    intro x hx
    by_cases hxi : x.index = i
    · simp [hxi, hsz x hx hxi]
    · simp [hxi]
  rw [he]
  exact count_le_one_of_nodup hnd i

/-! ## Concrete graphs -/

def Act.visited : Act → Option Nat
  | .visit i _ => some i
  | .later _ _ => none

/-- The variables that a node's edges name, at any depth. -/
def visitsOf (nd : Node) : List Nat :=
  match nd.kind with
  | .callInput => [nd.dep.headD 0]
  | _ => (edges nd 0).filterMap Act.visited

theorem visitsOf_complete {nd : Node} {d k e : Nat} (h : Act.visit k e ∈ edges nd d) :
    k ∈ visitsOf nd := by
  by_cases hk : nd.kind = .callInput
  · unfold edges at h
    rw [hk] at h
    dsimp only at h
    unfold visitsOf
    rw [hk]
    split_ifs at h with hd
    · simp at h
    · simp only [List.mem_singleton, Act.visit.injEq] at h
      simp [h.1]
  · have hsh := edges_shift hk 0 d
    rw [Nat.zero_add] at hsh
    rw [hsh] at h
    obtain ⟨a, ha, hae⟩ := List.mem_map.1 h
    have hidx : a.visited = some k := by
      cases a with
      | visit i d => simp only [Act.shift, Act.visit.injEq] at hae; rw [← hae.1]; rfl
      | later i d => simp [Act.shift] at hae
    have : visitsOf nd = (edges nd 0).filterMap Act.visited := by
      unfold visitsOf
      split
      · rename_i hc; exact absurd hc hk
      · rfl
    rw [this, List.mem_filterMap]
    exact ⟨a, ha, hidx⟩

/-- A graph given by a list of nodes, variable 0 being unused. -/
def ofList (l : List Node) (i : Nat) : Option Node := if i = 0 then none else l[i - 1]?

theorem acyclic_ofList {l : List Node}
    (h : ∀ p ∈ l.zipIdx, ∀ k ∈ visitsOf p.1, k < p.2 + 1) : Acyclic (ofList l) id := by
  intro i nd d k e hi hk
  unfold ofList at hi
  split_ifs at hi with h0
  have hm : (nd, i - 1) ∈ l.zipIdx := by
    rw [List.mem_zipIdx_iff_getElem?]
    exact hi
  have := h _ hm k (visitsOf_complete hk)
  simp only [id]
  simp only at this
  omega

theorem idle_init : Idle ⟨Gen.St.init, [], []⟩ :=
  ⟨⟨_, _, Gen.inv_init, by simp⟩, rfl⟩

/-- Two sizes; a diamond; a loop whose loop-carried value depends on the phi; a
scatter to a live array and one to a dead array. -/
def demo : List Node :=
  [ ⟨.plain, [0, 0, 0, 0], 2, 8, false⟩,                     -- 1: input array
    ⟨.plain, [1, 0, 0, 0], 4, 8, false⟩,                     -- 2: a
    ⟨.plain, [2, 1, 0, 0], 4, 8, false⟩,                     -- 3: b
    ⟨.plain, [2, 3, 0, 0], 4, 8, false⟩,                     -- 4: a op b
    ⟨.plain, [0, 0, 0, 0], 4, 8, false⟩,                     -- 5: loop start
    ⟨.loopPhi (some (2, 7)), [5, 0, 0, 0], 5, 8, false⟩,     -- 6: loop variable
    ⟨.plain, [6, 3, 0, 0], 6, 8, false⟩,                     -- 7: loop-carried value
    ⟨.plain, [5, 0, 0, 0], 7, 8, false⟩,                     -- 8: loop end
    ⟨.loopOutput (some (7, 2, 6)), [8, 0, 0, 0], 8, 8, false⟩, -- 9: loop result
    ⟨.plain, [0, 0, 0, 0], 1, 1, false⟩,                     -- 10: pointer
    ⟨.scatter 1, [10, 4, 3, 2], 8, 8, false⟩,                -- 11: scatter to 1
    ⟨.scatter 20, [10, 9, 3, 2], 8, 8, false⟩,               -- 12: scatter to a dead array
    ⟨.plain, [1, 0, 0, 0], 4, 1, false⟩ ]                    -- 13: a scalar

def demoRefs : Nat → Nat := fun i => if i = 20 then 0 else 2

def demoTasks : List Task :=
  collect (fun i => if i = 13 then 1 else 8) (fun _ => false) (fun i => i = 12)
    ⟨[13, 9], [11, 12]⟩

def demoPlan : Except Err (List Group × List SV) :=
  plan (insSort Bucket.key) (insSort SV.key) (insSort Task.key) (ofList demo) demoRefs 30
    demoTasks Gen.St.init

def demoOut : List SV :=
  [⟨8, 1, 10⟩, ⟨8, 2, 1⟩, ⟨8, 4, 2⟩, ⟨8, 4, 5⟩, ⟨8, 4, 3⟩, ⟨8, 4, 4⟩, ⟨8, 5, 6⟩, ⟨8, 6, 7⟩,
   ⟨8, 7, 8⟩, ⟨8, 8, 9⟩, ⟨8, 8, 11⟩, ⟨1, 2, 1⟩, ⟨1, 4, 13⟩]

theorem demo_acyclic : Acyclic (ofList demo) id := acyclic_ofList (by decide +kernel)

example : demoPlan = .ok ([⟨8, 0, 11⟩, ⟨1, 11, 13⟩], demoOut) := by decide +kernel

/-! ## A program whose side effects are executed out of order

`A` is an evaluated array. `jit_var_scatter(A, v, i, m)` queues the scatter 6.
`jit_var_scatter_exch(&A, w, i, m)` returns the old contents, computed by variable 9,
and queues the placeholder 10. Neither flushes pending writes of `A`
(src/op.cpp:2477-2620), and no scope boundary separates them. Evaluating the result
runs the exchange before the scatter that precedes it in the program. -/

def exch : List Node :=
  [ ⟨.plain, [0, 0, 0, 0], 2, 1, false⟩,           -- 1: A
    ⟨.plain, [0, 0, 0, 1], 1, 1, false⟩,           -- 2: write pointer of A
    ⟨.plain, [0, 0, 0, 0], 4, 1, false⟩,           -- 3: v
    ⟨.plain, [0, 0, 0, 0], 4, 1, false⟩,           -- 4: i
    ⟨.plain, [0, 0, 0, 0], 4, 1, false⟩,           -- 5: m
    ⟨.scatter 1, [2, 3, 4, 5], 4, 1, false⟩,       -- 6: scatter
    ⟨.plain, [0, 0, 0, 1], 1, 1, false⟩,           -- 7: pointer of A
    ⟨.plain, [0, 0, 0, 0], 4, 1, false⟩,           -- 8: w
    ⟨.plain, [7, 8, 4, 5], 4, 1, false⟩,           -- 9: exchange
    ⟨.plain, [9, 0, 0, 2], 4, 1, false⟩ ]          -- 10: side effect of the exchange

/-- **C49, failure.** The scatter 6 was queued before the exchange 9 (whose side
effect is 10), yet the kernel executes the exchange first. -/
theorem C49_result_overtakes :
    ∃ out, plan (insSort Bucket.key) (insSort SV.key) (insSort Task.key) (ofList exch)
        (fun _ => 2) 30 (collect (fun _ => 1) (fun _ => false) (fun _ => false) ⟨[9], [6, 10]⟩)
        Gen.St.init = .ok ([⟨1, 0, 9⟩], out) ∧
      out.map SV.index = [7, 2, 8, 4, 5, 9, 3, 6, 10] := by
  refine ⟨[⟨1, 1, 7⟩, ⟨1, 1, 2⟩, ⟨1, 4, 8⟩, ⟨1, 4, 4⟩, ⟨1, 4, 5⟩, ⟨1, 4, 9⟩, ⟨1, 4, 3⟩,
    ⟨1, 4, 6⟩, ⟨1, 4, 10⟩], ?_, ?_⟩ <;> decide +kernel

/-- A set of (variable, depth) pairs that contains the tasks and is closed under
edges contains everything that is needed. -/
theorem reach_within {cut : Nat → Prop} {roots : List Nat} {C : Nat → Nat → Prop}
    (hroot : ∀ i ∈ roots, C i 0)
    (hedge : ∀ i d nd a, C i d → g i = some nd → a ∈ edges nd d → C a.index a.depth)
    {i d : Nat} (h : Reach g cut roots i d) : C i d := by
  induction h with
  | root h => exact hroot _ h
  | edge _ hg _ ha ih => exact hedge _ _ _ _ ih hg ha

/-- The hypotheses of `C49_side_effects_partial` hold for the scatter and the
placeholder of the exchange, if the result is not requested. -/
example : ¬ Reach (ofList exch) (fun _ => False) ([] ++ [] ++ 6 :: []) 10 0 := by
  intro h
  have := reach_within (C := fun i d => d = 0 ∧ i ∈ [2, 3, 4, 5, 6]) (by simp) (by
    intro i d nd a ⟨hd, hi⟩ hg ha
    subst hd
    simp only [List.mem_cons, List.not_mem_nil, or_false] at hi
    rcases hi with rfl | rfl | rfl | rfl | rfl
    all_goals
      simp only [ofList, exch] at hg
      have := Option.some.inj hg
      subst this
      simp [edges, operands] at ha
    rcases ha with rfl | rfl | rfl | rfl <;> simp [Act.index, Act.depth]) h
  simp at this

/-- Without the request for the result, the order is that of the program. -/
example : (plan (insSort Bucket.key) (insSort SV.key) (insSort Task.key) (ofList exch)
    (fun _ => 2) 30 (collect (fun _ => 1) (fun _ => false) (fun _ => false) ⟨[], [6, 10]⟩)
    Gen.St.init).toOption.map (fun r => r.2.map SV.index) =
    some [2, 7, 3, 4, 5, 6, 8, 9, 10] := by
  decide +kernel

/-! ## An atomic operation that is executed by two kernels

`x = jit_var_scatter_inc(&A, i, m)` with scalar `i`, then `y = x + c` with an array
`c` of size 8, and `y` is evaluated. The result `x` carries the mark that it must not
be recomputed (`consumed`) only once the first kernel was assembled, which is after
the traversal of all sizes. -/

def incr : List Node :=
  [ ⟨.plain, [0, 0, 0, 0], 2, 1, false⟩,           -- 1: A
    ⟨.plain, [0, 0, 0, 1], 1, 1, false⟩,           -- 2: pointer of A
    ⟨.plain, [0, 0, 0, 0], 4, 1, false⟩,           -- 3: i
    ⟨.plain, [0, 0, 0, 0], 4, 1, false⟩,           -- 4: m
    ⟨.plain, [2, 3, 4, 0], 4, 1, false⟩,           -- 5: x = scatter_inc
    ⟨.plain, [0, 0, 0, 1], 1, 1, false⟩,           -- 6: write pointer of A
    ⟨.plain, [5, 0, 0, 6], 4, 1, false⟩,           -- 7: side effect of 5
    ⟨.plain, [0, 0, 0, 0], 4, 8, false⟩,           -- 8: c
    ⟨.plain, [5, 8, 0, 0], 4, 8, false⟩ ]          -- 9: y

/-- **C59, failure.** The increment 5 is part of both kernels. -/
theorem C59_two_kernels :
    ∃ out, plan (insSort Bucket.key) (insSort SV.key) (insSort Task.key) (ofList incr)
        (fun _ => 2) 30 (collect (fun i => if i = 9 then 8 else 1) (fun _ => false)
          (fun _ => false) ⟨[9], [7]⟩) Gen.St.init = .ok ([⟨8, 0, 6⟩, ⟨1, 6, 11⟩], out) ∧
      5 ∈ (Group.entries out ⟨8, 0, 6⟩).map SV.index ∧
      5 ∈ (Group.entries out ⟨1, 6, 11⟩).map SV.index := by
  refine ⟨[⟨8, 1, 2⟩, ⟨8, 4, 3⟩, ⟨8, 4, 4⟩, ⟨8, 4, 5⟩, ⟨8, 4, 8⟩, ⟨8, 4, 9⟩,
    ⟨1, 1, 2⟩, ⟨1, 4, 3⟩, ⟨1, 4, 4⟩, ⟨1, 4, 5⟩, ⟨1, 4, 7⟩], ?_, ?_, ?_⟩ <;> decide +kernel

end Verif.Eval
