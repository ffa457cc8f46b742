import Verif.Cuda.Comb
import Mathlib.Data.Multiset.ZeroCons

/-!
# Specification of block reductions
-/
namespace Verif.Cuda

variable {T V : Type}

/-- `v` is obtained by combining the values `s` with `op`, in any order and with any bracketing; `init` may be inserted anywhere, and intermediate results may be rounded to the type of the elements. -/
inductive Rounded (op : V → V → V) (init : V) (toV : T → V) (ofV : V → T) : Multiset V → V → Prop
  | nil : Rounded op init toV ofV 0 init
  | one (x : V) : Rounded op init toV ofV {x} x
  | node {s t : Multiset V} {a b : V} : Rounded op init toV ofV s a → Rounded op init toV ofV t b → Rounded op init toV ofV (s + t) (op a b)
  | round {s : Multiset V} {v : V} : Rounded op init toV ofV s v → Rounded op init toV ofV s (toV (ofV v))

/-- The elements of block `b` -/
def blockOf (size bs b : Nat) : Finset Nat := (Finset.range size).filter fun j => j / bs = b

/-- `y'` holds the reductions of the blocks of `x`; the last block may be shorter.  Memory behind the results is left alone. -/
def IsReduce (op : V → V → V) (init : V) (toV : T → V) (ofV : V → T) (size bs : Nat) (x y y' : Nat → T) : Prop :=
  (∀ b, b * bs < size → ∃ v, Rounded op init toV ofV ((blockOf size bs b).val.map fun j => toV (x j)) v ∧ y' b = ofV v) ∧ ∀ b, size ≤ b * bs → y' b = y b

/-- Without loss of precision there is only one result for associative and commutative operations. -/
theorem Rounded.eq_fold {op : V → V → V} [hc : Std.Commutative op] [ha : Std.Associative op] {init : V} {toV : T → V} {ofV : V → T} (hi : ∀ x, op init x = x) (hr : ∀ v, toV (ofV v) = v)
    {s : Multiset V} {v : V} (h : Rounded op init toV ofV s v) : v = s.fold op init := by
  have : Comb op init s v := by
    induction h with
    | nil => exact .nil
    | one x => exact .one x
    | node _ _ h1 h2 => exact .node h1 h2
    | @round s v _ h => rw [hr]; exact h
  exact this.eq_fold hi

end Verif.Cuda
