import Verif.LocalArr.Evaluate

/-
Local arrays (C43): the theorems, and example runs.
-/

namespace Verif.LocalArr

/-- **C43 (part).**  Whatever calls and evaluations came before, an evaluated variable holds what the
call that returned it means: arrays are values, and no write changes an array that was obtained
earlier.  Missing: arrays in loops, conditionals and selections, calls that initialise an array in
more than one way or access it after it was written, writes to an array that is evaluated after the
write was recorded (`Plain`), and masked reads of initialised arrays (`ReadOK`). -/
theorem C43_local_arrays_partial {s : State} {ms : Meanings} (h : Reach s ms) (k : Nat) (x : SVal)
    (hx : ms.at k = some x) (h0 : s.idx k ≠ 0) (he : (s.vars (s.idx k)).kind = .evaluated) :
    Holds (s.vars (s.idx k)).data x := by
  obtain ⟨sv, H⟩ := reach_inv h
  have hm := (H.cons _ _ (H.hm k x h0 hx)).1
  simpa only [Meant, he] using hm

/-- **C43 (part).**  An evaluation computes what the variables mean: each variable that is evaluated
holds the meaning of its call afterwards. -/
theorem C43_evaluation_partial {s s' : State} {ms : Meanings} (h : Reach s ms)
    (m0 : Nat → Nat → Nat) (roots : List Nat) (groups : List Group)
    (hg : ∀ g ∈ groups, GroupOK s ms g) (he : eval s m0 roots groups = .ok s') (k : Nat)
    (hk : k ∈ roots) (g : Group) (hgm : g ∈ groups) (hs : s.idx k ∈ g.sched)
    (hz : (s.vars (s.idx k)).size = g.size) (x : SVal) (hx : ms.at k = some x)
    (h0 : s.idx k ≠ 0) :
    s'.idx k = s.idx k ∧ (s'.vars (s'.idx k)).kind = .evaluated ∧
      Holds (s'.vars (s'.idx k)).data x := by
  obtain ⟨h1, h2⟩ := eval_evaluates he hk hgm hs hz
  have hr := Reach.eval m0 roots groups h hg he
  have h3 : (s'.vars (s'.idx k)).kind = .evaluated := by rw [h1]; exact h2
  exact ⟨h1, h3, C43_local_arrays_partial hr k x hx (by rw [h1]; exact h0) h3⟩

/-- **C43 (part).**  No kernel accesses local memory out of bounds. -/
theorem C43_in_bounds_partial {s : State} {ms : Meanings} (h : Reach s ms)
    (m0 : Nat → Nat → Nat) (roots : List Nat) (groups : List Group)
    (hg : ∀ g ∈ groups, GroupOK s ms g) : eval s m0 roots groups ≠ .ub := by
  obtain ⟨sv, H⟩ := reach_inv h
  exact eval_not_ub H m0 roots groups hg

/-- **C43 (part).**  An evaluation succeeds if the sizes of the variables of each kernel are
compatible.  (They need not be: `C43_masked_read_size`.) -/
theorem C43_evaluation_succeeds_partial {s : State} {ms : Meanings} (h : Reach s ms)
    (m0 : Nat → Nat → Nat) (roots : List Nat) (groups : List Group)
    (hg : ∀ g ∈ groups, GroupOK s ms g)
    (hz : ∀ g ∈ groups, ∀ v ∈ g.sched, (s.vars v).size = 1 ∨ (s.vars v).size = g.size) :
    ∃ s', eval s m0 roots groups = .ok s' := by
  have h1 := C43_in_bounds_partial h m0 roots groups hg
  have h2 := launches_not_abort (out := fun v => v ∈ roots.map s.idx) m0 groups s.astate
    (fun _ => none) hz
  unfold eval at *
  revert h1 h2
  generalize launches s.vars m0 (fun v => v ∈ roots.map s.idx) s.astate (fun _ => none) groups = r
  intro h1 h2
  cases r with
  | ok x => exact ⟨_, rfl⟩
  | abort => exact absurd rfl h2
  | ub => exact absurd rfl h1

/-! ### Checking the hypotheses on examples -/

/-- All ways to split a list at an element. -/
def splits {α : Type} : List α → List (List α × α × List α)
  | [] => []
  | x :: l => ([], x, l) :: (splits l).map fun p => (x :: p.1, p.2)

theorem mem_splits {α : Type} : ∀ (l l1 : List α) (x : α) (l2 : List α), l = l1 ++ x :: l2 →
    (l1, x, l2) ∈ splits l
  | [], l1, x, l2, h => by simp at h
  | y :: l, [], x, l2, h => by
    simp only [List.nil_append, List.cons.injEq] at h
    obtain ⟨rfl, rfl⟩ := h
    simp [splits]
  | y :: l, z :: l1, x, l2, h => by
    simp only [List.cons_append, List.cons.injEq] at h
    obtain ⟨rfl, h⟩ := h
    simp only [splits, List.mem_cons, List.mem_map]
    exact .inr ⟨_, mem_splits l l1 x l2 h, rfl⟩

/-- The conditions on a kernel, as programs. -/
def checkSched (s : State) (l : List Nat) : Bool :=
  decide l.Nodup &&
  (splits l).all (fun p => (deps (s.vars p.2.1)).all fun d => d ∈ p.1) &&
  (splits l).all (fun p => !isDecl (s.vars p.2.1) || p.1.all fun u => isDecl (s.vars u))

def checkPlain (s : State) (l : List Nat) : Bool :=
  l.all (fun b => (s.vars b).kind != .init || ((s.vars (s.vars b).dep0).kind == .array &&
    l.all fun u => !(s.vars u).kind.accesses || (s.vars u).dep0 != (s.vars b).dep0 || u == b)) &&
  (splits l).all (fun p => (s.vars p.2.1).kind != .write ||
    (s.vars (s.vars p.2.1).dep0).kind != .init ||
    p.2.2.all fun u => !(s.vars u).kind.accesses || (s.vars u).dep0 != (s.vars p.2.1).dep0) &&
  l.all (fun w => (s.vars w).kind != .write || (s.vars (s.vars w).dep0).kind != .evaluated ||
    (s.vars (s.vars w).store).dep0 == (s.vars w).dep0)

def checkMeaningful (s : State) (ms : Meanings) (l : List Nat) : Bool :=
  l.all (fun v => (s.vars v).kind == .array ||
    (List.range s.handles.length).any fun k => s.idx k == v && v != 0 && (ms.at k).isSome)

theorem sched_of_check {s : State} {l : List Nat} (h : checkSched s l = true) : Sched s.vars l := by
  simp only [checkSched, Bool.and_eq_true, decide_eq_true_eq, List.all_eq_true, Bool.or_eq_true,
    Bool.not_eq_true'] at h
  obtain ⟨⟨h1, h2⟩, h3⟩ := h
  refine ⟨h1, ?_, ?_⟩
  · intro l1 v l2 he d hd
    exact h2 _ (mem_splits _ _ _ _ he) d hd
  · intro l1 v l2 he hv u hu
    rcases h3 _ (mem_splits _ _ _ _ he) with hh | hh
    · simp only at hh; rw [hh] at hv; cases hv
    · exact hh u hu

theorem plain_of_check {s : State} {l : List Nat} (h : checkPlain s l = true) : Plain s.vars l := by
  simp only [checkPlain, Bool.and_eq_true, List.all_eq_true, Bool.or_eq_true,
    Bool.not_eq_true', bne_iff_ne, beq_iff_eq] at h
  obtain ⟨⟨h4, h5⟩, h6⟩ := h
  refine ⟨?_, ?_, ?_⟩
  · intro b hb hk
    rcases h4 b hb with hh | ⟨hh, h8⟩
    · exact absurd hk hh
    · refine ⟨hh, fun u hu ha he => ?_⟩
      rcases h8 u hu with (h9 | h9) | h9
      · rw [h9] at ha; cases ha
      · exact absurd he h9
      · exact h9
  · intro l1 w l2 he hk hi u hu ha
    rcases h5 _ (mem_splits _ _ _ _ he) with (hh | hh) | hh
    · exact absurd hk hh
    · exact absurd hi hh
    · rcases hh u hu with h9 | h9
      · rw [h9] at ha; cases ha
      · exact h9
  · intro w hw hk hi
    rcases h6 w hw with (hh | hh) | hh
    · exact absurd hk hh
    · exact absurd hi hh
    · exact hh

theorem meaningful_of_check {s : State} {ms : Meanings} {l : List Nat}
    (h : checkMeaningful s ms l = true) : Meaningful s ms l := by
  simp only [checkMeaningful, Bool.and_eq_true, List.all_eq_true, Bool.or_eq_true,
    bne_iff_ne, beq_iff_eq, List.any_eq_true, List.mem_range] at h
  intro v hv
  rcases h v hv with hh | ⟨k, _, ⟨h8, h9⟩, h10⟩
  · exact .inl hh
  · exact .inr ⟨k, h8, h9, by rw [← Option.isSome_iff_ne_none]; exact h10⟩

def checkGroup (s : State) (ms : Meanings) (l : List Nat) : Bool :=
  checkSched s l && checkPlain s l && checkMeaningful s ms l

theorem groupOK_of_check {s : State} {ms : Meanings} {g : Group}
    (h : checkGroup s ms g.sched = true) : GroupOK s ms g := by
  simp only [checkGroup, Bool.and_eq_true] at h
  exact ⟨sched_of_check h.1.1, plain_of_check h.1.2, meaningful_of_check h.2⟩

/-- A run: calls. -/
def runOps : List Op → State × Meanings → State × Meanings
  | [], p => p
  | op :: l, p => runOps l (call p.1 op, p.2 ++ [meaning p.2.at op])

/-- Reads look at their masks. -/
def checkOp (s : State) : Op → Bool
  | .read a _ m false => ((s.vars (s.idx a)).kind != .init && (s.vars (s.idx a)).kind != .array) ||
      (s.vars (s.idx m)).kind == .literal
  | _ => true

theorem readOK_of_check {s : State} {ms : Meanings} {op : Op} (h : checkOp s op = true) :
    ReadOK s ms op := by
  cases op with
  | read a o m b =>
    cases b with
    | true => trivial
    | false =>
      simp only [checkOp, Bool.or_eq_true, Bool.and_eq_true, bne_iff_ne, beq_iff_eq] at h
      intro hh
      rcases h with ⟨h1, h2⟩ | h
      · rcases hh with hh | hh
        · exact absurd hh h1
        · exact absurd hh h2
      · exact .inl h
  | _ => trivial

def checkOps : List Op → State × Meanings → Bool
  | [], _ => true
  | op :: l, p => checkOp p.1 op && checkOps l (call p.1 op, p.2 ++ [meaning p.2.at op])

theorem reach_runOps : ∀ (l : List Op) (p : State × Meanings), checkOps l p = true →
    Reach p.1 p.2 → Reach (runOps l p).1 (runOps l p).2
  | [], _, _, h => h
  | op :: l, p, hc, h => by
    simp only [checkOps, Bool.and_eq_true] at hc
    exact reach_runOps l _ hc.2 (.call op h (readOK_of_check hc.1))

/-- The state after an evaluation. -/
def evalGet (s : State) (roots : List Nat) (groups : List Group) : State :=
  match eval s (fun r i => 1000 * r + i) roots groups with
  | .ok s' => s'
  | _ => {}

def evalIsOk (s : State) (roots : List Nat) (groups : List Group) : Bool :=
  match eval s (fun r i => 1000 * r + i) roots groups with
  | .ok _ => true
  | _ => false

theorem evalGet_eq {s : State} {roots : List Nat} {groups : List Group}
    (h : evalIsOk s roots groups = true) :
    eval s (fun r i => 1000 * r + i) roots groups = .ok (evalGet s roots groups) := by
  unfold evalIsOk at h
  unfold evalGet
  split at h
  · rename_i s' hs; rw [hs]
  · cases h

/-- `a` has a 7 at position 2; `b` is `a` with a 5 there; the sum of both elements is computed after
`b` was written. -/
def demo1 : List Op :=
  [.input 7 4, .create 4 10, .literal 2 1, .literal 1 1, .write 1 2 0 3, .literal 5 1,
   .write 4 2 5 3, .read 4 2 3 false, .read 6 2 3 false,
   .compute (fun l => l.foldl (· + ·) 0) 1 [7, 8]]

def st1 : State × Meanings := runOps demo1 ({}, [])

theorem st1_reach : Reach st1.1 st1.2 := reach_runOps _ _ (by decide +kernel) .start

example : st1.1.handles = [1, 2, 3, 4, 5, 7, 8, 10, 11, 12] := by decide +kernel

def group1 : Group := ⟨4, [2, 6, 9, 1, 3, 4, 5, 7, 8, 10, 11, 12]⟩

theorem group1_ok : ∀ g ∈ [group1], GroupOK st1.1 st1.2 g := by
  intro g hg
  simp only [List.mem_singleton] at hg
  subst hg
  exact groupOK_of_check (by decide +kernel)

/-- The evaluation of `b` and of the sum. -/
def st2 : State := evalGet st1.1 [6, 9] [group1]

theorem st2_reach : Reach st2 st1.2 :=
  .eval _ _ _ st1_reach group1_ok (evalGet_eq (by decide +kernel))

example : ∀ g ∈ [group1], ∀ v ∈ g.sched, (st1.1.vars v).size = 1 ∨ (st1.1.vars v).size = g.size := by
  decide +kernel

/-- The results: 12 and the array with a 5 at position 2. -/
example : (st2.vars (st2.idx 9)).kind = .evaluated ∧ (st2.vars (st2.idx 9)).data 0 = 12 ∧
    (st2.vars (st2.idx 6)).kind = .evaluated ∧ (st2.vars (st2.idx 6)).data 2 = 5 := by
  decide +kernel

/-- After the evaluation, `c` is `b` with a 9 at position 0, and `d` is an array full of threes with a
1 at a position that is only known at runtime. -/
def demo2 : List Op :=
  [.literal 9 1, .literal 0 1, .write 6 11 10 3, .read 12 2 3 false, .read 6 2 3 false,
   .create 4 8, .literal 3 4, .init 15 16, .write 16 0 3 3, .write 17 0 3 3, .read 19 0 3 true,
   .compute (fun l => l.foldl (· + ·) 0) 1 [13, 14, 20]]

def st3 : State × Meanings := runOps demo2 (st2, st1.2)

theorem st3_reach : Reach st3.1 st3.2 := reach_runOps _ _ (by decide +kernel) st2_reach

example : st3.1.handles = [1, 2, 3, 4, 5, 7, 8, 10, 11, 12, 13, 14, 15, 17, 18, 19, 20, 21, 0, 22,
    24, 25] := by decide +kernel

def group2 : Group := ⟨4, [8, 16, 19, 23, 1, 3, 4, 13, 14, 15, 17, 18, 20, 21, 22, 24, 25]⟩

theorem group2_ok : ∀ g ∈ [group2], GroupOK st3.1 st3.2 g := by
  intro g hg
  simp only [List.mem_singleton] at hg
  subst hg
  exact groupOK_of_check (by decide +kernel)

def st4 : State := evalGet st3.1 [12, 19, 21] [group2]

theorem st4_reach : Reach st4 st3.2 :=
  .eval _ _ _ st3_reach group2_ok (evalGet_eq (by decide +kernel))

example : (st4.vars (st4.idx 21)).kind = .evaluated ∧ (st4.vars (st4.idx 21)).data 0 = 5 + 5 + 1 ∧
    (st4.vars (st4.idx 12)).data 0 = 9 ∧ (st4.vars (st4.idx 12)).data 2 = 5 ∧
    (st4.vars (st4.idx 6)).data 2 = 5 ∧
    (List.range 8).map (st4.vars (st4.idx 19)).data = [3, 3, 3, 3, 3, 3, 3, 1] := by
  decide +kernel

end Verif.LocalArr
