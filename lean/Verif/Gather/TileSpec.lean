import Verif.Gather.GatherSpec
/-!
# Specification of tiling, repetition and reversal
-/
namespace Verif.Gather
open Verif.Var Verif.Ops

/-- Admissible arguments: an expression of literals, counters, masks, gathers, arithmetic and arrays in
memory.  If it is not in memory yet, then no side effects are pending.  The mask at the top of the stack,
if any, is a variable. -/
structure MapArgs (s : Store) (u : Nat → Nat) (stack : List Nat) (src : Nat) : Prop where
  osrc : Operand s u src
  stype : (s.vars src).type.isInt = true ∨ (s.vars src).type.isFloat = true ∨ (s.vars src).type = .bool
  typed : Typed s src
  usrc : Uniform s src
  hsrc : Shaped s src
  quiet : (s.vars src).kind ≠ .evaluated → s.sideEffects = []
  ssize : (s.vars src).size < 2 ^ 32
  otop : ∀ t, stack.head? = some t → Operand s (holders u stack) t ∧ (s.vars t).type = .bool ∧ Uniform s t ∧
    Shaped s t

/-- The size including the mask at the top of the stack (larger only if an array masks a result with
one entry). -/
def mapMax (s : Store) (stack : List Nat) (n : Nat) : Nat :=
  max n (match stack with
    | [] => 0
    | t :: _ => if n = 1 then (s.vars t).size else 0)

/-- The call turned `s` into `s'` and returned `r`, an array with `n` entries that has the type of the
source; entry `l` is entry `f l` of the source, unless lane `l` is disabled by the mask stack, and these
entries exist.  Other variables are kept. -/
structure Maps (s : Store) (u : Nat → Nat) (stack : List Nat) (src n : Nat) (f : Nat → Nat) (s' : Store)
    (r : Nat) : Prop where
  live : Live s' r
  type : (s'.vars r).type = (s.vars src).type
  size : (s'.vars r).size = n ∨ (n = 1 ∧ (s'.vars r).size = mapMax s stack n)
  range : ∀ l < n, f l < (s.vars src).size
  value : ∀ l < n, (∀ t, Top s stack n t → Val s t l 1#64) → ∀ z, Val s src (f l) z → ∀ x, Val s' r l x ↔ x = z
  operand : ∀ v, Operand s' v r ↔ 0 < v r
  held : ∀ k, 0 < holders u stack k → Live s' k
  keeps : Keeps (mapMax s stack n) (holders u stack) s s'

end Verif.Gather
