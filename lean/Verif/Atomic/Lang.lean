import Verif.Atomic.Spec

/-!
# Threads with atomic accesses

Programs of atomic loads and atomic read-modify-write instructions, and their interleavings.  The
instructions have the order `monotonic` (relaxed): a load may return an old value of the location.
Read-modify-write instructions always see the latest value.
-/
namespace Verif.Atomic

/-- The instructions that a thread executes.  `ub` stands for undefined behaviour and for loops that
do not end. -/
inductive Act (V A : Type) where
  | pure (a : A)
  | load (l : Nat) (k : V → Act V A)
  | rmw (l : Nat) (f : V → V) (k : V → Act V A)
  | ub

namespace Act

variable {V A B : Type}

def bind : Act V A → (A → Act V B) → Act V B
  | .pure a, f => f a
  | .load l k, f => .load l fun v => bind (k v) f
  | .rmw l g k, f => .rmw l g fun v => bind (k v) f
  | .ub, _ => .ub

/-- One program after another, with the results of all -/
def seq : List (Act V A) → Act V (List A)
  | [] => .pure []
  | p :: ps => p.bind fun a => (seq ps).bind fun as => .pure (a :: as)

end Act

variable {V A : Type}

/-- Values of all locations, earlier values of all locations, and the threads -/
structure St (V A : Type) where
  mem : Nat → V
  old : Nat → List V
  thr : List (Act V A)

/-- One instruction of one thread -/
inductive Step : St V A → St V A → Prop
  | load (s : St V A) (i l : Nat) (k : V → Act V A) (v : V) : s.thr[i]? = some (.load l k) →
      (v = s.mem l ∨ v ∈ s.old l) → Step s { s with thr := s.thr.set i (k v) }
  | rmw (s : St V A) (i l : Nat) (f : V → V) (k : V → Act V A) : s.thr[i]? = some (.rmw l f k) →
      Step s { mem := fun x => if x = l then f (s.mem l) else s.mem x,
               old := fun x => if x = l then s.mem l :: s.old l else s.old x,
               thr := s.thr.set i (k (s.mem l)) }

inductive Steps : St V A → St V A → Prop
  | refl (s : St V A) : Steps s s
  | tail {s t u : St V A} : Steps s t → Step t u → Steps s u

/-- Threads are started with the contents `mem` of the memory. -/
def start (mem : Nat → V) (thr : List (Act V A)) : St V A := { mem := mem, old := fun _ => [], thr := thr }

/-- An execution that ends with the memory `mem'` and the results `outs` -/
def Ends (mem : Nat → V) (thr : List (Act V A)) (mem' : Nat → V) (outs : List A) : Prop :=
  ∃ old, Steps (start mem thr) { mem := mem', old := old, thr := outs.map .pure }

/-- No execution has undefined behaviour or an endless loop. -/
def Safe (mem : Nat → V) (thr : List (Act V A)) : Prop :=
  ∀ s, Steps (start mem thr) s → .ub ∉ s.thr

end Verif.Atomic
