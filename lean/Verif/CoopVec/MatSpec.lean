import Verif.CoopVec.MatVec
import Mathlib.Algebra.BigOperators.Group.Finset.Basic
import Mathlib.Algebra.Ring.Defs

/-! # What a matrix-vector product is -/
namespace Verif.CoopVec
open Verif.CoopMat (Descr)

/-- The matrix stored in memory for a pointer and a descriptor: entry (`r`, `c`) is found `stride` elements per row
behind the offset. -/
def Stored {α : Type} (mem : Int → Option α) (p : Int) (d : Descr) (A : Nat → Nat → α) : Prop :=
  ∀ r c : Nat, r < d.rows → c < d.cols → mem (p + (d.offset + r * d.stride + c : Nat)) = some (A r c)

/-- A matrix or its transpose -/
def orient {α : Type} (transpose : Bool) (A : Nat → Nat → α) (i j : Nat) : α := if transpose then A j i else A i j

/-- Component `i` of `A x + b`, accumulated from the first to the last column -/
def dotFma {α : Type} (o : Ops α) (A : Nat → Nat → α) (x : Nat → α) (b : Nat → α) (n i : Nat) : α :=
  (List.range n).foldl (fun y j => o.fma (A i j) (x j) y) (b i)

end Verif.CoopVec
