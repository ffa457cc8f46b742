import Verif.Cuda.Comb

/-!
# Specification of block prefix reductions
-/
namespace Verif.Cuda

/-- The elements that contribute to element `e`: those of the same block that precede it (in reverse mode: follow it), and `e` itself unless exclusive -/
def scanned (size bs : Nat) (excl rev : Bool) (e : Nat) : Finset Nat :=
  (Finset.range size).filter fun j => j / bs = e / bs ∧ (if rev then e ≤ j else j ≤ e) ∧ (excl = true → j ≠ e)

/-- `y'` is a prefix reduction of `x` in blocks of `bs` elements; memory behind the result is left alone.  Contributions may be combined in any order and with
any bracketing. -/
def IsPrefix {T V : Type} (red : V → V → V) (init : V) (toV : T → V) (ofV : V → T) (size bs : Nat) (excl rev : Bool) (x y y' : Nat → T) : Prop :=
  (∀ e, e < size → ∃ v, Comb red init ((scanned size bs excl rev e).val.map fun j => toV (x j)) v ∧ y' e = ofV v) ∧ ∀ e, size ≤ e → y' e = y e

end Verif.Cuda
