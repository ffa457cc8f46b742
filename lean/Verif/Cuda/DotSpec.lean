import Verif.Cuda.Dot
import Mathlib.Algebra.BigOperators.Group.Multiset.Basic
import Mathlib.Algebra.Ring.Defs

/-!
# Specification of dot products
-/
namespace Verif.Cuda

variable {T V : Type}

/-- `v` is obtained from the pairs `s` with fused multiplications and additions, and additions of intermediate results, in any order -/
inductive DotT (D : DotOps T V) : Multiset (T × T) → T → Prop
  | zero : DotT D 0 D.zero
  | fma (a b : T) {s : Multiset (T × T)} {v : T} : DotT D s v → DotT D ({(a, b)} + s) (D.fma a b v)
  | add {s t : Multiset (T × T)} {a b : T} : DotT D s a → DotT D t b → DotT D (s + t) (D.add a b)

/-- Intermediate results may be converted to the type used by reductions, and combined further. -/
inductive DotV (D : DotOps T V) : Multiset (T × T) → V → Prop
  | nil : DotV D 0 D.R.init
  | one {s : Multiset (T × T)} {a : T} : DotT D s a → DotV D s (D.R.toV a)
  | node {s t : Multiset (T × T)} {a b : V} : DotV D s a → DotV D t b → DotV D (s + t) (D.R.red a b)
  | round {s : Multiset (T × T)} {v : V} : DotV D s v → DotV D s (D.R.toV (D.R.ofV v))

/-- `r` is the dot product of the pairs `s`, up to the order and the precision of intermediate results. -/
def IsDot (D : DotOps T V) (s : Multiset (T × T)) (r : T) : Prop := DotT D s r ∨ ∃ v, DotV D s v ∧ r = D.R.ofV v

/-- In exact arithmetic this is the dot product. -/
theorem IsDot.exact [CommSemiring T] {D : DotOps T V} (hf : ∀ a b c, D.fma a b c = a * b + c) (ha : ∀ a b, D.add a b = a + b) (hz : D.zero = 0)
    (hr : ∀ a b, D.R.ofV (D.R.red a b) = D.R.ofV a + D.R.ofV b) (hi : D.R.ofV D.R.init = 0) (ht : ∀ a, D.R.ofV (D.R.toV a) = a) {s : Multiset (T × T)} {r : T} (h : IsDot D s r) :
    r = (s.map fun p => p.1 * p.2).sum := by
  have h1 : ∀ {s : Multiset (T × T)} {v : T}, DotT D s v → v = (s.map fun p => p.1 * p.2).sum := by
    intro s v h
    induction h with
    | zero => simpa using hz
    | fma a b _ ih => rw [hf, ih]; simp
    | add _ _ h1 h2 => rw [ha, h1, h2]; simp
  rcases h with h | ⟨v, h, rfl⟩
  · exact h1 h
  · induction h with
    | nil => simpa using hi
    | one h => rw [ht]; exact h1 h
    | node _ _ h1 h2 => rw [hr, h1, h2]; simp
    | round _ h => rw [ht]; exact h

end Verif.Cuda
