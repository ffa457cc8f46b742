import Mathlib.Data.List.Basic
import Mathlib.Data.List.Perm.Basic

/-!
# What atomic updates of an array mean

The lanes of a kernel are run one after another, in some order.  Nothing here refers to the model.
-/
namespace Verif.Atomic

/-- One lane of an operation: entry number and its effect on this entry: new value and result -/
structure LaneOp (Lane V R : Type) where
  lane : Lane
  entry : Nat
  act : V → V × R

/-- An array after one of its entries was changed -/
def setEntry {V : Type} (a : Nat → V) (j : Nat) (v : V) : Nat → V := fun x => if x = j then v else a x

/-- Running lanes one after another: the array afterwards, and what each lane returns -/
def seqRun {Lane V R : Type} : List (LaneOp Lane V R) → (Nat → V) → (Nat → V) × List (Lane × R)
  | [], a => (a, [])
  | o :: os, a =>
    let x := o.act (a o.entry)
    let y := seqRun os (setEntry a o.entry x.1)
    (y.1, (o.lane, x.2) :: y.2)

/-- The lanes `ops` turn the array `a` into `a'` and return `ret`, as if they had been run one after
another in some order. -/
def Serial {Lane V R : Type} (ops : List (LaneOp Lane V R)) (a a' : Nat → V) (ret : Lane → Option R) : Prop :=
  ∃ order rs, order.Perm ops ∧ seqRun order a = (a', rs) ∧ ∀ o ∈ ops, ∃ r, ret o.lane = some r ∧ (o.lane, r) ∈ rs

/-- `jit_var_scatter` with a reduction: combine with a value -/
def opReduce {V : Type} (op : V → V → V) (x : V) : V → V × Unit := fun v => (op v x, ())

/-- `jit_var_scatter_inc`: increase by one, return the previous value -/
def opInc : BitVec 32 → BitVec 32 × BitVec 32 := fun v => (v + 1, v)

/-- `jit_var_scatter_exch`: replace, return the previous value -/
def opExch {V : Type} (x : V) : V → V × V := fun v => (x, v)

/-- `jit_var_scatter_cas`: replace if the value is `c`; return the previous value, and whether it was
replaced -/
def opCas {V : Type} [DecidableEq V] (c x : V) : V → V × (V × Bool) :=
  fun v => (if v = c then x else v, (v, decide (v = c)))

/-- Reductions that scatters to arrays of integers support -/
inductive IntOp
  | add
  | min
  | max
  | and
  | or

/-- What a reduction computes -/
def IntOp.eval {n : Nat} (signed : Bool) : IntOp → BitVec n → BitVec n → BitVec n
  | .add, a, b => a + b
  | .min, a, b => if signed then (if a.toInt ≤ b.toInt then a else b) else if a.toNat ≤ b.toNat then a else b
  | .max, a, b => if signed then (if a.toInt ≤ b.toInt then b else a) else if a.toNat ≤ b.toNat then b else a
  | .and, a, b => a &&& b
  | .or, a, b => a ||| b

end Verif.Atomic
