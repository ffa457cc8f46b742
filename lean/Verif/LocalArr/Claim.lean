import Verif.LocalArr.Model

/-
Local arrays (C43): which schedules are considered, and which programs the main theorem is about.
-/

namespace Verif.LocalArr

/-- A schedule as `jitc_eval_impl()` makes it (eval.cpp:168-290 and 850-925): no variable occurs
twice, operands come before the variables that use them, and local memory (whose scope
`SCOPE_ARRAY` is the smallest one) comes first. -/
structure Sched (T : Nat → Var) (l : List Nat) : Prop where
  nodup : l.Nodup
  closed : ∀ l1 v l2, l = l1 ++ v :: l2 → ∀ d ∈ deps (T v), d ∈ l1
  first : ∀ l1 v l2, l = l1 ++ v :: l2 → isDecl (T v) = true → ∀ u ∈ l1, isDecl (T u) = true

/-- The programs for which copies are elided correctly:
* an array that is initialised was created by `jit_array_create()`, and is not accessed otherwise in
  the same kernel;
* no access to an initialised array follows a write to it in the kernel;
* an array that a kernel writes to was not evaluated after the write had been recorded.

`C43_init_fork` and its siblings show what happens otherwise. -/
structure Plain (T : Nat → Var) (l : List Nat) : Prop where
  init : ∀ b ∈ l, (T b).kind = .init → (T (T b).dep0).kind = .array ∧
    ∀ u ∈ l, (T u).kind.accesses = true → (T u).dep0 = (T b).dep0 → u = b
  fork : ∀ l1 w l2, l = l1 ++ w :: l2 → (T w).kind = .write → (T (T w).dep0).kind = .init →
    ∀ u ∈ l2, (T u).kind.accesses = true → (T u).dep0 ≠ (T w).dep0
  stale : ∀ w ∈ l, (T w).kind = .write → (T (T w).dep0).kind = .evaluated →
    (T (T w).store).dep0 = (T w).dep0

/-- What the calls so far mean, by position. -/
abbrev Meanings := List (Option SVal)

def Meanings.at (ms : Meanings) (k : Nat) : Option SVal := ms.getD k none

/-- Outside of symbolic scopes, the mask of a read from an array that was only initialised or created
is set: such a read returns the initial value or an undefined value without looking at the mask
(array.cpp:159-167), see `C43_init_masked_read`. -/
def ReadOK (s : State) (ms : Meanings) : Op → Prop
  | .read a _ m false => (s.vars (s.idx a)).kind = .init ∨ (s.vars (s.idx a)).kind = .array →
      (s.vars (s.idx m)).kind = .literal ∨ ms.at m ≠ some (.scalar (some 0))
  | _ => True

/-- The variables of a kernel have a meaning: offsets are within bounds, and masks and offsets do not
depend on elements that were never written. -/
def Meaningful (s : State) (ms : Meanings) (l : List Nat) : Prop :=
  ∀ v ∈ l, (s.vars v).kind = .array ∨ ∃ k, s.idx k = v ∧ v ≠ 0 ∧ ms.at k ≠ none

/-- A kernel of the kind the main theorem is about. -/
def GroupOK (s : State) (ms : Meanings) (g : Group) : Prop :=
  Sched s.vars g.sched ∧ Plain s.vars g.sched ∧ Meaningful s ms g.sched

/-- The states that calls and evaluations lead to, with the meanings of the calls. -/
inductive Reach : State → Meanings → Prop where
  | start : Reach {} []
  | call {s : State} {ms : Meanings} (op : Op) : Reach s ms → ReadOK s ms op →
      Reach (call s op) (ms ++ [meaning ms.at op])
  | eval {s s' : State} {ms : Meanings} (m0 : Nat → Nat → Nat) (roots : List Nat)
      (groups : List Group) : Reach s ms → (∀ g ∈ groups, GroupOK s ms g) →
      eval s m0 roots groups = .ok s' → Reach s' ms

end Verif.LocalArr
