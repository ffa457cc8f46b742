import Verif.CoopVec.Accum
import Verif.Atomic.Reduce
import Mathlib.Algebra.BigOperators.Group.List.Basic

/-! # What it means to accumulate cooperative vectors -/
namespace Verif.CoopVec
open Verif.Atomic (Red Target)

/-- Exact addition -/
def sumRed (V : Type) [AddCommMonoid V] [DecidableEq V] : Red V :=
  { op := fun a b => a + b, id := 0, skip := none, ne := fun a b => decide (a ≠ b) }

/-- What a kernel adds: the sum of `f p` for all its packets -/
def kernelSum {V P : Type} [AddCommMonoid V] (threads : List (List P)) (f : P → V) : V :=
  (threads.map fun ps => (ps.map f).sum).sum

/-- Additions of a floating point kernel: entry and value -/
abbrev Update (V : Type) := Nat × V

/-- Entry `j` after these updates, one after another -/
def applyAt {V : Type} (add : V → V → V) (us : List (Update V)) (j : Nat) (v : V) : V :=
  ((us.filter fun u => u.1 = j).map Prod.snd).foldl add v

end Verif.CoopVec
