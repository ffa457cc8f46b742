import Verif.Eval.Group

/-!
# From queued work to kernels: `jitc_eval_impl` (C19, C20, C49)

Model of the scheduling part of `jitc_eval_impl` (src/eval.cpp:1034-1137) and the
theorems about the instruction sequence of each kernel.
-/

namespace Verif.Eval

open Gen (Visit Seen see)

/-- `EvalTask` (src/eval.cpp:54-58). -/
structure Task where
  size : Nat
  index : Nat
  se : Bool
  deriving DecidableEq, Repr

/-- The queues of a thread: `ts->scheduled`, `ts->side_effects`. -/
structure Queues where
  scheduled : List Nat
  sideEffects : List Nat

/-- Collection of the tasks (src/eval.cpp:1044-1071). `skip` tells that a scheduled
variable has expired or is evaluated, `elided` that `jitc_elide_scatter` holds for
a side effect. -/
def collect (sizeOf : Nat → Nat) (skip elided : Nat → Bool) (q : Queues) : List Task :=
  ((q.scheduled.filter fun i => !skip i).map fun i => ⟨sizeOf i, i, false⟩) ++
  ((q.sideEffects.filter fun i => !elided i).map fun i => ⟨sizeOf i, i, true⟩)

/-- Sort key of a task (src/eval.cpp:1077-1081): with `less` of `Sort.lean`, larger
sizes come first, and `side_effect = false` before `true`. -/
def Task.key (t : Task) : Nat × Nat := (t.size, if t.se then 1 else 0)

/-- The loop over sizes (src/eval.cpp:1083-1106). -/
def runTasks (g : Nat → Option Node) (refs : Nat → Nat) (fuel : Nat) :
    List Task → TS → Except Err TS
  | [], s => .ok s
  | t :: ts, s =>
    match travGroup g refs t.size fuel
      (t.index :: (ts.takeWhile fun u => u.size = t.size).map Task.index) s with
    | .error e => .error e
    | .ok s' => runTasks g refs fuel (ts.dropWhile fun u => u.size = t.size) s'
  termination_by l => l.length
  decreasing_by
    have := (List.dropWhile_sublist (l := ts) (fun u : Task => decide (u.size = t.size))).length_le
    simp only [List.length_cons]
    omega

/-- `ScheduledGroup` (src/eval.h:31-38). -/
structure Group where
  size : Nat
  start : Nat
  stop : Nat
  deriving DecidableEq, Repr

/-- The loop that looks for changes of the size (src/eval.cpp:1122-1131).
`prev` is the entry before `l`, which starts at position `i`. -/
def partLoop (prev : SV) (curSize cur : Nat) : List SV → Nat → List Group
  | [], i => [⟨curSize, cur, i⟩]
  | x :: l, i =>
    if prev.size ≠ x.size then ⟨curSize, cur, i⟩ :: partLoop x x.size i l (i + 1)
    else partLoop x curSize cur l (i + 1)

/-- Partition into groups of matching size (src/eval.cpp:1115-1132). -/
def partition : List SV → List Group
  | [] => []
  | x :: l =>
    if x.size = ((x :: l).getLast (by simp)).size then [⟨x.size, 0, (x :: l).length⟩]
    else partLoop x x.size 0 l 1

/-- The entries of a group: what `jitc_assemble` iterates over (src/eval.cpp:411). -/
def Group.entries (out : List SV) (k : Group) : List SV :=
  (out.drop k.start).take (k.stop - k.start)

/-- The scheduling part of `jitc_eval_impl`: the sorted schedule and its kernels.
`taskSort` and `stableSort` are `std::stable_sort` on tasks and on the schedule,
`stdSort` is `std::sort` on buckets. -/
def plan (stdSort : List Bucket → List Bucket) (stableSort : List SV → List SV)
    (taskSort : List Task → List Task) (g : Nat → Option Node) (refs : Nat → Nat)
    (fuel : Nat) (tasks : List Task) (gen : Gen.St) : Except Err (List Group × List SV) :=
  match runTasks g refs fuel (taskSort tasks) ⟨gen, [], []⟩ with
  | .error e => .error e
  | .ok s =>
    match scheduleSort stdSort stableSort s.sched with
    | none => .error .fail
    | some out => .ok (partition out, out)

/-! ## Tasks of one size -/

/-- Explicitly scheduled variables of a size, then side effects of that size, each
in the order in which they were queued. -/
def tasksOf (sizeOf : Nat → Nat) (skip elided : Nat → Bool) (q : Queues) (z : Nat) :
    List Nat :=
  q.scheduled.filter (fun i => !skip i && decide (sizeOf i = z)) ++
  q.sideEffects.filter (fun i => !elided i && decide (sizeOf i = z))

theorem not_less_key {a b : Task} (h : less b.key a.key = false) :
    a.size > b.size ∨ (a.size = b.size ∧ (a.se = true → b.se = true)) := by
  unfold less Task.key at h
  dsimp only at h
  split_ifs at h with h1 h2 h3 h4
  all_goals simp_all
  all_goals omega

/-- What the sorted tasks look like: sizes never increase, and within a size the
roots precede the side effects. -/
def TaskLe (a b : Task) : Prop :=
  a.size > b.size ∨ (a.size = b.size ∧ (a.se = true → b.se = true))

theorem filter_se_split {l : List Task} {z : Nat} (h : l.Pairwise TaskLe) :
    l.filter (fun t => decide (t.size = z)) =
      l.filter (fun t => decide (t.key = (z, 0))) ++ l.filter (fun t => decide (t.key = (z, 1))) := by
  induction l with
  | nil => rfl
  | cons t l ih =>
    obtain ⟨h1, h2⟩ := List.pairwise_cons.1 h
    have := ih h2
    by_cases hz : t.size = z
    · by_cases hse : t.se = true
      · have hnone : l.filter (fun t => decide (t.key = (z, 0))) = [] := by
          rw [List.filter_eq_nil_iff]
          intro u hu hk
          have hk' := of_decide_eq_true hk
          unfold Task.key at hk'
          rcases h1 u hu with h3 | ⟨h3, h4⟩
          · have : u.size = z := (Prod.mk.inj hk').1
            omega
          · have := h4 hse
            rw [this] at hk'
            simp at hk'
        rw [List.filter_cons, if_pos (by simpa using hz), List.filter_cons,
          if_neg (by simp [Task.key, hse]), List.filter_cons,
          if_pos (by simp [Task.key, hse, hz]), this, hnone]
        rfl
      · rw [List.filter_cons, if_pos (by simpa using hz), List.filter_cons,
          if_pos (by simp [Task.key, hse, hz]), List.filter_cons,
          if_neg (by simp [Task.key, hse]), this]
        rfl
    · rw [List.filter_cons, if_neg (by simpa using hz), List.filter_cons,
          if_neg (by simp [Task.key, hz]), List.filter_cons,
          if_neg (by simp [Task.key, hz]), this]

/-- **C49, task order.** After the sort, the tasks of one size are exactly the
scheduled variables of that size followed by the side effects of that size, both in
the order in which the program queued them. -/
theorem C49_task_order (taskSort : List Task → List Task) (hts : StableSortOk Task.key taskSort)
    (sizeOf : Nat → Nat) (skip elided : Nat → Bool) (q : Queues) (z : Nat) :
    ((taskSort (collect sizeOf skip elided q)).filter fun t => decide (t.size = z)).map Task.index =
      tasksOf sizeOf skip elided q z := by
  have hsorted : (taskSort (collect sizeOf skip elided q)).Pairwise TaskLe :=
    (hts.sorted _).imp fun h => not_less_key h
  rw [filter_se_split hsorted, hts.stable, hts.stable, List.map_append]
  unfold tasksOf collect
  congr 1
  · rw [List.filter_append]
    have h2 : ((q.sideEffects.filter fun i => !elided i).map
        (fun i => (⟨sizeOf i, i, true⟩ : Task))).filter (fun t => decide (t.key = (z, 0))) = [] := by
      rw [List.filter_eq_nil_iff]
      intro t ht hk
      obtain ⟨i, _, rfl⟩ := List.mem_map.1 ht
      simp [Task.key] at hk
    rw [h2, List.append_nil, List.filter_map, List.map_map, List.filter_filter]
    have : (Task.index ∘ fun i => (⟨sizeOf i, i, false⟩ : Task)) = id := rfl
    rw [this, List.map_id]
    apply List.filter_congr
    intro i _
    simp [Task.key, Bool.and_comm]
  · rw [List.filter_append]
    have h2 : ((q.scheduled.filter fun i => !skip i).map
        (fun i => (⟨sizeOf i, i, false⟩ : Task))).filter (fun t => decide (t.key = (z, 1))) = [] := by
      rw [List.filter_eq_nil_iff]
      intro t ht hk
      obtain ⟨i, _, rfl⟩ := List.mem_map.1 ht
      simp [Task.key] at hk
    rw [h2, List.nil_append, List.filter_map, List.map_map, List.filter_filter]
    have : (Task.index ∘ fun i => (⟨sizeOf i, i, true⟩ : Task)) = id := rfl
    rw [this, List.map_id]
    apply List.filter_congr
    intro i _
    simp [Task.key, Bool.and_comm]

/-! ## The traversals of all sizes -/

variable {g : Nat → Option Node} {refs : Nat → Nat}

/-- The schedule consists of one `GroupOk` block per size. -/
def AllGroups (g : Nat → Option Node) (refs : Nat → Nat) (tasks : List Task) (S : List SV) : Prop :=
  ∀ z, GroupOk g refs z ((tasks.filter fun t => decide (t.size = z)).map Task.index)
    (S.filter fun x => decide (x.size = z))

theorem groupOk_nil {z : Nat} : GroupOk g refs z [] [] := by
  refine ⟨by simp, by simp, ?_, by simp, ?_, ?_⟩
  rotate_left 2
  · intro p q _ a _ _ b _ pre x post he
    simp at he
  · intro i nd j _ _
    left
    intro pre x post he
    simp at he
  · intro _ i hi
    exfalso
    have : ∀ i d, ¬ Reach g (Dead g refs) [] i d := by
      intro i d h
      induction h with
      | root h => simp at h
      | edge _ _ _ _ ih => exact ih
    exact this i 0 hi

theorem filter_takeWhile_size {ts : List Task} {z : Nat} (h : ts.Pairwise fun a b => b.size ≤ a.size)
    (hz : ∀ t ∈ ts, t.size ≤ z) :
    ts.takeWhile (fun u => decide (u.size = z)) = ts.filter (fun u => decide (u.size = z)) ∧
    ∀ w, w ≠ z → (ts.dropWhile (fun u => decide (u.size = z))).filter (fun u => decide (u.size = w)) =
      ts.filter (fun u => decide (u.size = w)) := by
  induction ts with
  | nil => simp
  | cons t ts ih =>
    obtain ⟨h1, h2⟩ := List.pairwise_cons.1 h
    by_cases ht : t.size = z
    · obtain ⟨a, b⟩ := ih h2 (fun u hu => hz u (by simp [hu]))
      constructor
      · rw [List.takeWhile_cons, if_pos (by simpa using ht), List.filter_cons,
          if_pos (by simpa using ht), a]
      · intro w hw
        rw [List.dropWhile_cons, if_pos (by simpa using ht), List.filter_cons,
          if_neg (by simp; omega), b w hw]
    · have hlt : ∀ u ∈ t :: ts, u.size ≠ z := by
        intro u hu
        have := hz t (by simp)
        rcases List.mem_cons.1 hu with rfl | hu
        · exact ht
        · have := h1 u hu
          omega
      constructor
      · rw [List.takeWhile_cons, if_neg (by simpa using ht)]
        symm
        rw [List.filter_eq_nil_iff]
        intro u hu hc
        exact hlt u hu (of_decide_eq_true hc)
      · intro w _
        rw [List.dropWhile_cons, if_neg (by simpa using ht)]

theorem dropWhile_sublist {ts : List Task} {p : Task → Bool} : (ts.dropWhile p).Sublist ts :=
  List.dropWhile_sublist p

theorem dropWhile_size_lt {ts : List Task} {z : Nat} (h : ts.Pairwise fun a b => b.size ≤ a.size)
    (hz : ∀ t ∈ ts, t.size ≤ z) :
    ∀ t ∈ ts.dropWhile (fun u => decide (u.size = z)), t.size < z := by
  induction ts with
  | nil => simp
  | cons t ts ih =>
    obtain ⟨h1, h2⟩ := List.pairwise_cons.1 h
    by_cases ht : t.size = z
    · rw [List.dropWhile_cons, if_pos (by simpa using ht)]
      exact ih h2 (fun u hu => hz u (by simp [hu]))
    · rw [List.dropWhile_cons, if_neg (by simpa using ht)]
      intro u hu
      have := hz t (by simp)
      rcases List.mem_cons.1 hu with rfl | hu
      · omega
      · have := h1 u hu
        omega

theorem runTasks_spec {rank : Nat → Nat} (hac : Acyclic g rank) {fuel : Nat} :
    ∀ (n : Nat) (ts : List Task), ts.length ≤ n → (ts.Pairwise fun a b => b.size ≤ a.size) →
    ∀ (s s' : TS), Idle s → runTasks g refs fuel ts s = .ok s' →
    ∃ S, s'.sched = s.sched ++ S ∧ AllGroups g refs ts S ∧
      ∀ x ∈ S, x.size ∈ ts.map Task.size := by
  intro n
  induction n with
  | zero =>
    intro ts hl _ s s' _ h
    have : ts = [] := List.length_eq_zero_iff.1 (by omega)
    subst this
    simp only [runTasks, Except.ok.injEq] at h
    subst h
    exact ⟨[], by simp, fun z => groupOk_nil, by simp⟩
  | succ n ih =>
    intro ts hl hp s s' hs h
    cases ts with
    | nil =>
      simp only [runTasks, Except.ok.injEq] at h
      subst h
      exact ⟨[], by simp, fun z => groupOk_nil, by simp⟩
    | cons t ts =>
      obtain ⟨hp1, hp2⟩ := List.pairwise_cons.1 hp
      rw [runTasks] at h
      obtain ⟨htw, hdw⟩ := filter_takeWhile_size (z := t.size) hp2 hp1
      rw [htw] at h
      cases hg : travGroup g refs t.size fuel
        (t.index :: (ts.filter fun u => decide (u.size = t.size)).map Task.index) s with
      | error e => rw [hg] at h; simp at h
      | ok s1 =>
        rw [hg] at h
        dsimp only at h
        obtain ⟨hidle, S1, hS1, hG1⟩ := travGroup_spec hac hs hg
        have hlen := (List.dropWhile_sublist (l := ts) (fun u : Task => decide (u.size = t.size))).length_le
        simp only [List.length_cons] at hl
        obtain ⟨S2, hS2, hG2, hsz⟩ := ih _ (by omega) (hp2.sublist (List.dropWhile_sublist _))
          s1 s' hidle h
        have hlt := dropWhile_size_lt (z := t.size) hp2 hp1
        have hS1z : ∀ x ∈ S1, x.size = t.size := fun x hx => (hG1.entries x hx).1
        have hS2z : ∀ x ∈ S2, x.size < t.size := by
          intro x hx
          obtain ⟨u, hu, he⟩ := List.mem_map.1 (hsz x hx)
          rw [← he]
          exact hlt u hu
        refine ⟨S1 ++ S2, by rw [hS2, hS1, List.append_assoc], ?_, ?_⟩
        · intro z
          by_cases hz : z = t.size
          · subst hz
            have e1 : (S1 ++ S2).filter (fun x => decide (x.size = t.size)) = S1 := by
              rw [List.filter_append]
              have : S2.filter (fun x => decide (x.size = t.size)) = [] := by
                rw [List.filter_eq_nil_iff]
                intro x hx hc
                have := hS2z x hx
                have := of_decide_eq_true hc
                omega
              rw [this, List.append_nil, List.filter_eq_self]
              intro x hx
              simpa using hS1z x hx
            rw [e1, List.filter_cons, if_pos (by simp)]
            exact hG1
          · have e1 : (S1 ++ S2).filter (fun x => decide (x.size = z)) =
                S2.filter (fun x => decide (x.size = z)) := by
              rw [List.filter_append]
              have : S1.filter (fun x => decide (x.size = z)) = [] := by
                rw [List.filter_eq_nil_iff]
                intro x hx hc
                have := hS1z x hx
                have := of_decide_eq_true hc
                omega
              rw [this, List.nil_append]
            have e2 : (t :: ts).filter (fun u => decide (u.size = z)) =
                (ts.dropWhile (fun u => decide (u.size = t.size))).filter
                  (fun u => decide (u.size = z)) := by
              rw [hdw z hz, List.filter_cons, if_neg (by simp; omega)]
            rw [e1, e2]
            exact hG2 z
        · intro x hx
          rcases List.mem_append.1 hx with hx | hx
          · rw [hS1z x hx]; simp
          · obtain ⟨u, hu, he⟩ := List.mem_map.1 (hsz x hx)
            rw [← he]
            exact List.mem_map_of_mem (List.mem_cons_of_mem _
              ((List.dropWhile_sublist _).subset hu))

/-! ## Sorting keeps what matters -/

/-- Moving a kernel's entries into scope order keeps `j` before `i` if the scope of
`j` does not exceed that of `i`. -/
theorem before_sorted {S L : List SV} {z : Nat} (hz : ∀ x ∈ S, x.size = z)
    (hnd : (S.map SV.index).Nodup) (hL : SortedSchedule S L) {i j : Nat}
    (hb : Before j i S) (hscope : ∀ x ∈ S, ∀ y ∈ S, x.index = i → y.index = j → y.scope ≤ x.scope) :
    Before j i L := by
  intro pre x post he hxi
  have hxS : x ∈ S := hL.perm.mem_iff.1 (by rw [he]; simp)
  obtain ⟨preS, postS, hS⟩ := List.append_of_mem hxS
  have hj := hb preS x postS hS hxi
  obtain ⟨y, hy, hyj⟩ := List.mem_map.1 hj
  have hyS : y ∈ S := by rw [hS]; exact List.mem_append_left _ hy
  have hyL : y ∈ L := hL.perm.mem_iff.2 hyS
  have hndS : S.Nodup := List.Nodup.of_map _ hnd
  have hndL : L.Nodup := hL.perm.nodup_iff.2 hndS
  rw [hS] at hndS
  have hyx : y ≠ x := by
    intro hc
    subst hc
    have := List.nodup_append.1 hndS
    exact this.2.2 y hy y (by simp) rfl
  rw [he] at hyL
  rcases List.mem_append.1 hyL with h | h
  · exact List.mem_map.2 ⟨y, h, hyj⟩
  rcases List.mem_cons.1 h with h | h
  · exact absurd h hyx
  -- `y` after `x`: the scopes agree, so the stable order decides
  exfalso
  have hsort := hL.sorted
  rw [he] at hsort
  have hxy : InOrder x y := (List.pairwise_cons.1 (List.pairwise_append.1 hsort).2.1).1 y h
  have hzx := hz x hxS
  have hzy := hz y hyS
  have hsc := hscope x hxS y hyS hxi hyj
  have hsceq : x.scope = y.scope := by
    rcases hxy with h1 | ⟨_, h2⟩
    · omega
    · omega
  have hst := hL.stable z x.scope
  rw [he, hS, List.filter_append, List.filter_append, List.filter_cons, List.filter_cons,
    if_pos (by simp [hzx]), if_pos (by simp [hzx])] at hst
  have hdec := List.append_eq_append_iff.1 hst
  rw [he] at hndL
  obtain ⟨_, hndx, hdis⟩ := List.nodup_append.1 hndL
  obtain ⟨_, hndxS, hdisS⟩ := List.nodup_append.1 hndS
  have hyf : y ∈ preS.filter (fun v => decide (v.size = z ∧ v.scope = x.scope)) :=
    List.mem_filter.2 ⟨hy, by simp [hzy, hsceq]⟩
  have hypre : y ∉ pre := fun hc => hdis y hc y (by simp [h]) rfl
  rcases hdec with ⟨w, hw1, hw2⟩ | ⟨w, hw1, hw2⟩
  · -- filtered preS = filtered pre ++ w
    rw [hw1] at hyf
    rcases List.mem_append.1 hyf with hc | hc
    · exact hypre (List.mem_filter.1 hc).1
    · cases w with
      | nil => simp at hc
      | cons w0 w =>
        simp only [List.cons_append, List.cons.injEq] at hw2
        obtain ⟨rfl, _⟩ := hw2
        have : x ∈ preS.filter (fun v => decide (v.size = z ∧ v.scope = x.scope)) := by
          rw [hw1]; simp
        exact hdisS x (List.mem_filter.1 this).1 x (by simp) rfl
  · have : y ∈ pre.filter (fun v => decide (v.size = z ∧ v.scope = x.scope)) := by
      rw [hw1]
      exact List.mem_append_left _ hyf
    exact hypre (List.mem_filter.1 this).1

/-- Entries of one size, sorted. -/
theorem sorted_filter {S L : List SV} (h : SortedSchedule S L) (z : Nat) :
    SortedSchedule (S.filter fun x => decide (x.size = z))
      (L.filter fun x => decide (x.size = z)) := by
  refine ⟨h.perm.filter _, h.sorted.filter _, ?_⟩
  intro s c
  rw [List.filter_filter, List.filter_filter]
  by_cases hs : s = z
  · subst hs
    have : ∀ (l : List SV), l.filter (fun a => decide (a.size = s ∧ a.scope = c) && decide (a.size = s)) =
        l.filter (fun a => decide (a.size = s ∧ a.scope = c)) := by
      intro l
      apply List.filter_congr
      intro x _
      by_cases h1 : x.size = s <;> simp [h1]
    rw [this, this, h.stable]
  · have : ∀ (l : List SV), l.filter (fun a => decide (a.size = s ∧ a.scope = c) && decide (a.size = z)) = [] := by
      intro l
      rw [List.filter_eq_nil_iff]
      intro x _ hc
      simp at hc
      omega
    rw [this, this]

/-! ## Kernels -/

theorem partLoop_spec {prev : SV} {curSize cur : Nat} {pre cur0 l : List SV} {i : Nat}
    (hcur : cur = pre.length) (hi : i = pre.length + cur0.length) (hne : cur0.getLast? = some prev)
    (hall : ∀ x ∈ cur0, x.size = curSize)
    (hsort : (pre ++ cur0 ++ l).Pairwise fun a b => b.size ≤ a.size)
    (hpre : ∀ x ∈ pre, curSize < x.size) :
    (∀ k ∈ partLoop prev curSize cur l i,
      k.entries (pre ++ cur0 ++ l) = (pre ++ cur0 ++ l).filter (fun x => decide (x.size = k.size)) ∧
      k.entries (pre ++ cur0 ++ l) ≠ []) ∧
    ((partLoop prev curSize cur l i).map Group.size).Pairwise (· > ·) ∧
    (∀ k ∈ partLoop prev curSize cur l i, k.size ≤ curSize) ∧
    (∀ x ∈ cur0 ++ l, x.size ∈ (partLoop prev curSize cur l i).map Group.size) := by
  induction l generalizing prev curSize cur pre cur0 i with
  | nil =>
    have hc0 : cur0 ≠ [] := by intro hc; subst hc; simp at hne
    have he : (Group.mk curSize cur i).entries (pre ++ cur0 ++ []) = cur0 := by
      unfold Group.entries
      simp only [List.append_nil]
      rw [hcur, List.drop_left, hi, Nat.add_sub_cancel_left, List.take_length]
    have hf : (pre ++ cur0 ++ []).filter (fun x => decide (x.size = curSize)) = cur0 := by
      rw [List.append_nil, List.filter_append]
      have h1 : pre.filter (fun x => decide (x.size = curSize)) = [] := by
        rw [List.filter_eq_nil_iff]
        intro x hx hc
        have := hpre x hx
        have := of_decide_eq_true hc
        omega
      rw [h1, List.nil_append, List.filter_eq_self]
      intro x hx
      simpa using hall x hx
    refine ⟨?_, by simp [partLoop], by simp [partLoop], ?_⟩
    · intro k hk
      simp only [partLoop, List.mem_singleton] at hk
      subst hk
      rw [he, hf]
      exact ⟨rfl, hc0⟩
    · intro x hx
      rw [List.append_nil] at hx
      simp [partLoop, hall x hx]
  | cons x l ih =>
    have hc0 : cur0 ≠ [] := by intro hc; subst hc; simp at hne
    have hprev : prev.size = curSize := hall prev (List.mem_of_getLast? hne)
    unfold partLoop
    split_ifs with hs
    · -- the size changes
      have hx1 : x.size ≤ prev.size := by
        rw [List.append_assoc] at hsort
        have := (List.pairwise_append.1 (List.pairwise_append.1 hsort).2.1).2.2
        exact this prev (List.mem_of_getLast? hne) x (by simp)
      have hlt : x.size < curSize := by omega
      have hlx : ∀ y ∈ l, y.size ≤ x.size := by
        have := (List.pairwise_append.1 hsort).2.1
        exact (List.pairwise_cons.1 this).1
      have hassoc : pre ++ cur0 ++ x :: l = (pre ++ cur0) ++ [x] ++ l := by simp
      have key := ih (prev := x) (curSize := x.size) (cur := i) (pre := pre ++ cur0)
        (cur0 := [x]) (i := i + 1) (by rw [hi, List.length_append])
        (by rw [hi, List.length_append, List.length_singleton]) (by simp) (by simp)
        (by rw [← hassoc]; exact hsort) (by
          intro y hy
          rcases List.mem_append.1 hy with hy | hy
          · have := hpre y hy
            omega
          · have := hall y hy
            omega)
      rw [← hassoc] at key
      obtain ⟨k1, k2, k3, k4⟩ := key
      have he : (Group.mk curSize cur i).entries (pre ++ cur0 ++ x :: l) = cur0 := by
        unfold Group.entries
        simp only
        rw [hcur, List.append_assoc, List.drop_left, hi, Nat.add_sub_cancel_left, List.take_left]
      have hf : (pre ++ cur0 ++ x :: l).filter (fun x => decide (x.size = curSize)) = cur0 := by
        rw [List.filter_append, List.filter_append]
        have h1 : pre.filter (fun x => decide (x.size = curSize)) = [] := by
          rw [List.filter_eq_nil_iff]
          intro x hx hc
          have := hpre x hx
          have := of_decide_eq_true hc
          omega
        have h2 : (x :: l).filter (fun x => decide (x.size = curSize)) = [] := by
          rw [List.filter_eq_nil_iff]
          intro y hy hc
          have := of_decide_eq_true hc
          rcases List.mem_cons.1 hy with rfl | hy
          · omega
          · have := hlx y hy
            omega
        rw [h1, h2, List.nil_append, List.append_nil, List.filter_eq_self]
        intro x hx
        simpa using hall x hx
      refine ⟨?_, ?_, ?_, ?_⟩
      · intro k hk
        rcases List.mem_cons.1 hk with rfl | hk
        · rw [he, hf]
          exact ⟨rfl, hc0⟩
        · exact k1 k hk
      · rw [List.map_cons, List.pairwise_cons]
        refine ⟨?_, k2⟩
        intro w hw
        obtain ⟨k, hk, rfl⟩ := List.mem_map.1 hw
        have := k3 k hk
        simp only
        omega
      · intro k hk
        rcases List.mem_cons.1 hk with rfl | hk
        · exact le_refl _
        · have := k3 k hk
          omega
      · intro y hy
        rw [List.map_cons, List.mem_cons]
        rcases List.mem_append.1 hy with hy | hy
        · exact Or.inl (hall y hy)
        · exact Or.inr (k4 y (by simpa using hy))
    · have hxs : x.size = curSize := by omega
      have hassoc : pre ++ cur0 ++ x :: l = pre ++ (cur0 ++ [x]) ++ l := by simp
      have key := ih (prev := x) (curSize := curSize) (cur := cur) (pre := pre)
        (cur0 := cur0 ++ [x]) (i := i + 1) hcur
        (by rw [hi, List.length_append, List.length_singleton]; omega) (by simp)
        (by
          intro y hy
          rcases List.mem_append.1 hy with hy | hy
          · exact hall y hy
          · rw [List.mem_singleton.1 hy]; exact hxs)
        (by rw [← hassoc]; exact hsort) hpre
      rw [← hassoc] at key
      obtain ⟨k1, k2, k3, k4⟩ := key
      refine ⟨k1, k2, k3, ?_⟩
      intro y hy
      exact k4 y (by simpa [List.append_assoc] using hy)

/-- The kernels partition a sorted schedule by size, in decreasing order. -/
theorem partition_spec {out : List SV} (hsort : out.Pairwise InOrder) :
    (∀ k ∈ partition out,
      k.entries out = out.filter (fun x => decide (x.size = k.size)) ∧ k.entries out ≠ []) ∧
    ((partition out).map Group.size).Pairwise (· > ·) ∧
    (∀ x ∈ out, x.size ∈ (partition out).map Group.size) := by
  have hsz : out.Pairwise fun a b => b.size ≤ a.size :=
    hsort.imp (by intro a b h; rcases h with h | ⟨h, _⟩ <;> omega)
  cases out with
  | nil => simp [partition]
  | cons x l =>
    simp only [partition]
    split_ifs with hs
    · have hall : ∀ y ∈ x :: l, y.size = x.size := by
        intro y hy
        have h1 : y.size ≤ x.size := by
          rcases List.mem_cons.1 hy with rfl | hy
          · exact le_refl _
          · exact (List.pairwise_cons.1 hsz).1 y hy
        have h2 : ((x :: l).getLast (by simp)).size ≤ y.size := by
          have hdec := List.dropLast_append_getLast (l := x :: l) (by simp)
          rw [← hdec] at hy hsz
          rcases List.mem_append.1 hy with hy | hy
          · exact (List.pairwise_append.1 hsz).2.2 y hy _ (by simp)
          · rw [List.mem_singleton.1 hy]
        omega
      have he : (Group.mk x.size 0 (x :: l).length).entries (x :: l) = x :: l := by
        unfold Group.entries
        simp
      have hf : (x :: l).filter (fun y => decide (y.size = x.size)) = x :: l := by
        rw [List.filter_eq_self]
        intro y hy
        simpa using hall y hy
      refine ⟨?_, by simp, ?_⟩
      · intro k hk
        rw [List.mem_singleton] at hk
        subst hk
        rw [he]
        exact ⟨hf.symm, by simp⟩
      · intro y hy
        simp [hall y hy]
    · have key := partLoop_spec (prev := x) (curSize := x.size) (cur := 0) (pre := []) (cur0 := [x])
        (l := l) (i := 1) rfl rfl (by simp) (by simp) (by simpa using hsz) (by simp)
      simp only [List.nil_append, List.singleton_append] at key
      exact ⟨key.1, key.2.1, key.2.2.2⟩

end Verif.Eval
