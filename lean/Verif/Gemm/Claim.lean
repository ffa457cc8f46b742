import Verif.Gemm.Model
/-!
# What a matrix product is supposed to do
-/
namespace Verif.Gemm
open Verif.Par

variable {V : Type}

/-- The constants are positive. -/
structure Cfg.OK (c : Cfg) : Prop where
  mr : 0 < c.MR
  nr : 0 < c.NR
  kc : 0 < c.KC
  nc : 0 < c.NC0
  cores : 0 < c.cores

/-- Which accesses are allowed: reads of the entries of the operands, and accesses to the result and
to temporary memory of the given sizes. -/
def Allowed (p : Problem) (packed scratch : Nat) (write : Bool) (l : Loc) : Prop :=
  match l.1 with
  | .a => write = false ∧ p.InA l.2
  | .b => write = false ∧ p.InB l.2
  | .c => l.2 < p.size
  | .packed => l.2 < packed
  | .scratch => l.2 < scratch
  | .null => False

/-- The contents of a buffer -/
def arr (m : Loc → V) (b : Buf) : Nat → V := fun x => m (b, x)

/-- What a call achieves: it is executed without invalid accesses, the result is the product, the
operands and everything else in the array of the result are unchanged. -/
def Achieves (p : Problem) (e : Elem V) (plan : Plan V) (m : Loc → V) : Prop :=
  ∃ phases packed scratch, plan = .ok phases packed scratch ∧
    Safe (Allowed p packed scratch) phases m ∧
    ∀ m', Ends phases m m' →
      p.IsProduct e (arr m .a) (arr m .b) (arr m' .c) ∧
      arr m' .a = arr m .a ∧ arr m' .b = arr m .b ∧ ∀ x, p.size ≤ x → arr m' .c x = arr m .c x

end Verif.Gemm
