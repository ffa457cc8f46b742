import Verif.LocalArr.Props

/-
Local arrays (C43): programs for which the property fails.
-/

namespace Verif.LocalArr

/-- A kernel whose schedule is one that `jitc_eval_impl()` can make, and whose variables all have a
meaning. -/
def Fair (s : State) (ms : Meanings) (g : Group) : Prop :=
  Sched s.vars g.sched ∧ Meaningful s ms g.sched ∧
    ∀ v ∈ g.sched, (s.vars v).size = 1 ∨ (s.vars v).size = g.size

def checkFair (s : State) (ms : Meanings) (g : Group) : Bool :=
  checkSched s g.sched && checkMeaningful s ms g.sched &&
    g.sched.all fun v => (s.vars v).size == 1 || (s.vars v).size == g.size

theorem fair_of_check {s : State} {ms : Meanings} {g : Group} (h : checkFair s ms g = true) :
    Fair s ms g := by
  simp only [checkFair, Bool.and_eq_true, List.all_eq_true, Bool.or_eq_true, beq_iff_eq] at h
  exact ⟨sched_of_check h.1.1, meaningful_of_check h.1.2, h.2⟩

/-- Evaluating the variables `roots` of a reachable state gives variable `k` data that its call does
not mean. -/
def Wrong (s : State) (ms : Meanings) (roots : List Nat) (g : Group) (k : Nat) : Prop :=
  Reach s ms ∧ Fair s ms g ∧ k ∈ roots ∧ ∃ s' x,
    eval s (fun r i => 1000 * r + i) roots [g] = .ok s' ∧ (s'.vars (s'.idx k)).kind = .evaluated ∧
    ms.at k = some x ∧ ¬ Holds (s'.vars (s'.idx k)).data x

/-- Element `i` is determined, and differs. -/
def differs (d : Nat → Nat) : Option SVal → Nat → Bool
  | some (.arr len c), i => i < len && match c i with
    | some y => d i != y
    | none => false
  | some (.scalar (some y)), _ => d 0 != y
  | _, _ => false

theorem not_holds_of_differs {d : Nat → Nat} {o : Option SVal} {i : Nat}
    (h : differs d o i = true) : ∃ x, o = some x ∧ ¬ Holds d x := by
  unfold differs at h
  split at h
  · rename_i len c
    simp only [Bool.and_eq_true, decide_eq_true_eq] at h
    obtain ⟨h1, h2⟩ := h
    split at h2
    · rename_i y hy
      refine ⟨_, rfl, fun hh => ?_⟩
      simp only [bne_iff_ne] at h2
      exact h2 (hh i h1 y hy)
    · cases h2
  · rename_i y
    refine ⟨_, rfl, fun hh => ?_⟩
    simp only [bne_iff_ne] at h
    exact h (hh y rfl)
  · cases h

theorem wrong_of_check {s : State} {ms : Meanings} {roots : List Nat} {g : Group} {k i : Nat}
    (hr : Reach s ms) (h1 : checkFair s ms g = true) (hk : k ∈ roots)
    (h2 : evalIsOk s roots [g] = true)
    (h3 : (((evalGet s roots [g]).vars ((evalGet s roots [g]).idx k)).kind == .evaluated) = true)
    (h4 : differs ((evalGet s roots [g]).vars ((evalGet s roots [g]).idx k)).data (ms.at k) i = true) :
    Wrong s ms roots g k := by
  obtain ⟨x, hx, hn⟩ := not_holds_of_differs h4
  exact ⟨hr, fair_of_check h1, hk, _, x, evalGet_eq h2, by simpa using h3, hx, hn⟩

/-! ### Two writes to an initialised array -/

/-- `b` is an array of threes, `c` is `b` with a 10 at position 0, `d` is `b` with a 20 at position
1. -/
def forkOps : List Op :=
  [.create 1 4, .literal 3 1, .init 0 1, .literal 0 1, .literal 1 1, .literal 10 1, .literal 20 1,
   .write 2 3 5 4, .write 2 4 6 4]

def forkSt : State × Meanings := runOps forkOps ({}, [])

example : forkSt.1.handles = [1, 2, 3, 4, 5, 6, 7, 8, 10] := by decide +kernel

/-- **Finding.**  `jitc_process_array_op()` passes the conflict on to the storage of the target only
if the target is a write (array.cpp:433-437).  Two writes to an initialised array therefore share its
memory, and the "copy" copies the memory to itself: `d` has the 10 that was only written to `c`. -/
theorem C43_init_fork : ∃ s ms roots g k, Wrong s ms roots g k :=
  ⟨forkSt.1, forkSt.2, [7, 8], ⟨1, [1, 9, 11, 2, 3, 4, 5, 6, 7, 8, 10]⟩, 8,
    wrong_of_check (i := 0) (reach_runOps _ _ (by decide +kernel) .start) (by decide +kernel)
      (by simp) (by decide +kernel) (by decide +kernel) (by decide +kernel)⟩

/-! ### Reading an initialised array after it was written -/

/-- `b` is an array of threes, `c` is `b` with a 10 at position 0, and `e` is `c` with the element
at position 0 of `b`, read in a symbolic scope, at position 1. -/
def readOps : List Op :=
  [.create 1 4, .literal 3 1, .init 0 1, .literal 0 1, .literal 1 1, .literal 10 1,
   .write 2 3 5 4, .read 2 3 4 true, .write 6 4 7 4]

def readSt : State × Meanings := runOps readOps ({}, [])

example : readSt.1.handles = [1, 2, 3, 4, 5, 6, 7, 9, 10] := by decide +kernel

/-- **Finding.**  The same for a read (in a symbolic scope) that follows the write: it sees the value
written. -/
theorem C43_init_read : ∃ s ms roots g k, Wrong s ms roots g k ∧
    ∀ u ∈ g.sched, (s.vars u).kind = .write →
      ∀ w ∈ g.sched, (s.vars w).kind = .write → (s.vars w).dep0 = (s.vars u).dep0 → w = u :=
  ⟨readSt.1, readSt.2, [8], ⟨1, [1, 8, 11, 2, 3, 4, 5, 6, 7, 9, 10]⟩, 8,
    wrong_of_check (i := 1) (reach_runOps _ _ (by decide +kernel) .start) (by decide +kernel)
      (by simp) (by decide +kernel) (by decide +kernel) (by decide +kernel), by decide +kernel⟩

/-! ### Two initialisations of an array -/

/-- `b` and `c` are the array `a` filled with threes and fives; `d` is `c` with a 7 at position 0, and
`e` is `b` with the element at position 1 of `d` (a five) at position 0. -/
def initOps : List Op :=
  [.create 1 4, .literal 3 1, .literal 5 1, .init 0 1, .init 0 2, .literal 0 1, .literal 1 1,
   .literal 7 1, .write 4 5 7 6, .read 8 6 6 false, .write 3 5 9 6]

def initSt : State × Meanings := runOps initOps ({}, [])

example : initSt.1.handles = [1, 2, 3, 4, 5, 6, 7, 8, 9, 11, 12] := by decide +kernel

/-- **Finding.**  An initialisation overwrites the memory of its target (llvm_array.cpp:51-83), so that
an array can only be initialised once: `e` should be full of threes except for position 0. -/
theorem C43_double_init : ∃ s ms roots g k, Wrong s ms roots g k :=
  ⟨initSt.1, initSt.2, [10], ⟨1, [1, 10, 13, 2, 4, 3, 5, 6, 7, 8, 9, 11, 12]⟩, 10,
    wrong_of_check (i := 2) (reach_runOps _ _ (by decide +kernel) .start) (by decide +kernel)
      (by simp) (by decide +kernel) (by decide +kernel) (by decide +kernel)⟩

/-! ### Writes to an array that is evaluated later -/

/-- `x` is an array with a 3 at position 2, `c` and `d` are `x` with a 10 and a 20 at position 0. -/
def staleOps : List Op :=
  [.create 1 4, .literal 0 1, .literal 1 1, .literal 2 1, .literal 3 1, .write 0 3 4 2,
   .literal 10 1, .literal 20 1, .write 5 1 6 2, .write 5 1 7 2]

def staleSt1 : State × Meanings := runOps staleOps ({}, [])

example : staleSt1.1.handles = [1, 2, 3, 4, 5, 6, 8, 9, 10, 12] := by decide +kernel

def staleGroup : Group := ⟨1, [1, 7, 3, 4, 5, 6]⟩

def staleSt2 : State := evalGet staleSt1.1 [5] [staleGroup]

/-- `x` was evaluated. -/
theorem stale_reach : Reach staleSt2 staleSt1.2 :=
  .eval _ _ _ (reach_runOps _ _ (by decide +kernel) .start)
    (fun g hg => by
      simp only [List.mem_singleton] at hg
      subst hg
      exact groupOK_of_check (by decide +kernel)) (evalGet_eq (by decide +kernel))

/-- `e` is `c` with the element at position 0 of `d` at position 1. -/
def staleSt3 : State × Meanings :=
  runOps [.read 9 1 2 false, .write 8 2 10 2] (staleSt2, staleSt1.2)

example : staleSt3.1.handles = [1, 2, 3, 4, 5, 6, 8, 9, 10, 12, 14, 15] := by decide +kernel

/-- **Finding.**  The storage of a write refers to the storage that its target had when the write was
recorded (array.cpp:352-379).  Once the target was evaluated, two writes to it share that storage,
since the conflict is only noted at the target: `e` has a 20 at position 0 instead of a 10. -/
theorem C43_stale_storage : ∃ s ms roots g k, Wrong s ms roots g k :=
  ⟨staleSt3.1, staleSt3.2, [11], ⟨1, [1, 6, 7, 11, 13, 16, 2, 3, 8, 9, 10, 12, 14, 15]⟩, 11,
    wrong_of_check (i := 0) (reach_runOps _ _ (by decide +kernel) stale_reach) (by decide +kernel)
      (by simp) (by decide +kernel) (by decide +kernel) (by decide +kernel)⟩

/-! ### Masked reads -/

/-- `b` is an array of threes.  It is read with a mask that is zero. -/
def maskOps : List Op :=
  [.create 1 4, .literal 3 1, .init 0 1, .literal 0 1, .input 0 1]

def maskSt : State × Meanings := runOps maskOps ({}, [])

/-- **Finding.**  A masked read returns zero, but not if the array was only initialised: then the
initial value is returned, whatever the mask is (array.cpp:160-162). -/
theorem C43_init_masked_read : ∃ (s : State) (ms : Meanings) (op : Op), Reach s ms ∧
    meaning ms.at op = some (.scalar (some 0)) ∧
    ((call s op).vars ((call s op).idx s.handles.length)).kind = .literal ∧
    ((call s op).vars ((call s op).idx s.handles.length)).literal = 3 :=
  ⟨maskSt.1, maskSt.2, .read 2 3 4 false, reach_runOps _ _ (by decide +kernel) .start, rfl,
    by decide +kernel, by decide +kernel⟩

/-- `a` is an array with a 3 at position 0.  It is read with a mask of size 4. -/
def sizeOps : List Op :=
  [.create 1 4, .literal 3 1, .literal 0 1, .literal 1 1, .write 0 2 1 3, .input 1 4,
   .compute (fun l => l.getD 0 0) 1 [5], .read 4 2 6 false]

def sizeSt : State × Meanings := runOps sizeOps ({}, [])

example : sizeSt.1.handles = [1, 2, 3, 4, 5, 7, 8, 9] := by decide +kernel

/-- **Finding.**  The size of a read does not take that of the mask into account (array.cpp:184),
although the check before it does (array.cpp:140).  Evaluating the result aborts the process:
"schedule contains variable with incompatible size" (eval.cpp:421-425). -/
theorem C43_masked_read_size : ∃ (s : State) (ms : Meanings) (k : Nat) (g : Group), Reach s ms ∧
    GroupOK s ms g ∧ (ms.at k).isSome = true ∧ g.size = (s.vars (s.idx k)).size ∧
    ∀ m0, eval s m0 [k] [g] = .abort :=
  ⟨sizeSt.1, sizeSt.2, 7, ⟨1, [1, 6, 2, 3, 4, 5, 7, 8, 9]⟩,
    reach_runOps _ _ (by decide +kernel) .start, groupOK_of_check (by decide +kernel),
    by decide +kernel, by decide +kernel, fun m0 => by
      have : ((⟨1, [1, 6, 2, 3, 4, 5, 7, 8, 9]⟩ : Group).sched.any fun v =>
        decide ((sizeSt.1.vars v).size ≠ 1 ∧ (sizeSt.1.vars v).size ≠ 1)) = true := by decide +kernel
      unfold eval launches launch
      rw [if_pos this]⟩

end Verif.LocalArr
