import Verif.Registry.Model
/-!
# Specification of the registry

The abstract state says, for every pointer, whether it is unregistered, registered but
cleared, or live under some `(variant, domain)` with some ID; plus, per domain, whether it
was ever used and the largest ID handed out since the last clear.
-/
namespace Verif.Registry

/-- What the specification knows about a pointer. -/
inductive Status where
  | absent
  | cleared
  | live (k : Key) (id : Nat)
deriving DecidableEq

structure Spec where
  st : Nat → Status
  known : Key → Bool
  high : Key → Nat

def Spec.init : Spec := ⟨fun _ => .absent, fun _ => false, fun _ => 0⟩

/-- ID `id` of domain `k` is taken. -/
def Spec.used (s : Spec) (k : Key) (id : Nat) : Prop := ∃ p, s.st p = .live k id

/-- `id` is the smallest positive ID of `k` that is not taken. -/
def Spec.lowestFree (s : Spec) (k : Key) (id : Nat) : Prop :=
  0 < id ∧ ¬ s.used k id ∧ ∀ j, 0 < j → j < id → s.used k j

/-- The specification of the state-changing calls, as a relation. -/
inductive SpecStep : Spec → Op → Res Nat → Spec → Prop where
  | put_new (s : Spec) (k p id) : s.st p = .absent → s.lowestFree k id →
      SpecStep s (.put k p) (.ok id)
        ⟨upd s.st p (.live k id), upd s.known k true, upd s.high k (max (s.high k) id)⟩
  | put_dup (s : Spec) (k p) : s.st p ≠ .absent → SpecStep s (.put k p) .raise s
  | remove_absent (s : Spec) (p) : s.st p = .absent → SpecStep s (.remove p) .abort s
  | remove_ok (s : Spec) (p) : s.st p ≠ .absent →
      SpecStep s (.remove p) (.ok 0) ⟨upd s.st p .absent, s.known, s.high⟩
  | clear (s : Spec) : SpecStep s .clear (.ok 0)
      ⟨fun p => match s.st p with | .absent => .absent | _ => .cleared, s.known, fun _ => 0⟩

/-- Specification of a history. -/
inductive SpecRun : Spec → List Op → List (Res Nat) → Spec → Prop where
  | nil (s) : SpecRun s [] [] s
  | cons {s o r s' os rs s''} : SpecStep s o r s' → SpecRun s' os rs s'' →
      SpecRun s (o :: os) (r :: rs) s''

/-- Specification of the queries in an abstract state. -/
structure Queries (s : Spec) (r : Registry) : Prop where
  id_null : r.id 0 = .ok 0
  id_live : ∀ p k i, p ≠ 0 → s.st p = .live k i → r.id p = .ok i
  id_cleared : ∀ p, p ≠ 0 → s.st p = .cleared → r.id p = .ok 0
  id_absent : ∀ p, p ≠ 0 → s.st p = .absent → r.id p = .raise
  ptr_zero : ∀ k, r.ptr k 0 = .ok 0
  ptr_live : ∀ p k i, s.st p = .live k i → r.ptr k i = .ok p
  ptr_unused : ∀ k i, 0 < i → ¬ s.used k i →
    r.ptr k i = if s.known k = true ∧ s.high k < i then .raise else .ok 0
  /-- the ID bound is the largest live ID (0 if there is none) -/
  bound : ∀ k, ∃ b, r.idBound k = .ok b ∧ (∀ j, s.used k j → j ≤ b) ∧ (b ≠ 0 → s.used k b)
  /-- `peek` returns the instance with the largest ID, or null -/
  peek : ∀ k, ∃ p, r.peek k = .ok p ∧
    ((p = 0 ∧ ∀ j, ¬ s.used k j) ∨ (∃ b, s.st p = .live k b ∧ ∀ j, s.used k j → j ≤ b))
  /-- `get_pointers` fills in exactly the live instances of the domain at `id - 1` -/
  getPointers : ∀ k, ∃ l, r.getPointers k = .ok l ∧
    ∀ i p, (i, p) ∈ l ↔ s.st p = .live k (i + 1)

end Verif.Registry
