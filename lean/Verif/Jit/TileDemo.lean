import Verif.Jit.GatherDemo
import Verif.Gather.TileProps
import Verif.Gather.Bounds
/-!
# Example runs of tiling, repetition and reversal
-/
namespace Verif.Jit
open Verif.Var Verif.Ops Verif.Gather

variable {s s' : Store} {u : Nat → Nat} {st : List Nat}

/-- `MapArgs`, decidable, for an empty mask stack. -/
def MArgs (s : Store) (u : Nat → Nat) (src : Nat) : Prop :=
  Operand s u src ∧ ((s.vars src).type.isInt = true ∨ (s.vars src).type.isFloat = true ∨ (s.vars src).type = .bool) ∧
  TypedIn s (parts s src) ∧ Fits s (parts s src) src ∧ ((s.vars src).kind ≠ .evaluated → s.sideEffects = [])
instance (s : Store) (u : Nat → Nat) (src : Nat) : Decidable (MArgs s u src) := by unfold MArgs; infer_instance

theorem MArgs.ok {src : Nat} (h : MArgs s u src) : MapArgs s u [] src := by
  obtain ⟨a1, a2, a3, a4, a5⟩ := h
  exact ⟨a1, a2, a3.ok a4.1, a4.ok.1, a4.ok.2, a5, a4.2.2.2, fun t ht => by cases ht⟩

/-- Tiling in the examples. -/
def refTile (src k : Nat) : M Nat := varTile refEval (varEval refEnv) refAlloc (fun _ => false) [] 20 src k
/-- Repetition in the examples. -/
def refRepeat (src k mx : Nat) : M Nat := varRepeat refEval (varEval refEnv) refAlloc (fun _ => false) [] 20 src k mx
/-- Reversal in the examples. -/
def refReverse (src : Nat) : M Nat := varReverse refEval (varEval refEnv) refAlloc (fun _ => false) [] 20 src

/-- The value of an entry in the resulting state. -/
def entry (l : Nat) (x : BitVec 64) : Nat → Store → Bool := fun r s' => interp s' 40 r l == some x

/-- The array 0..9 in memory, three times: entry 27 is 7. -/
example : ∃ s u st, Hist s u st ∧ WritesOK s ∧ (st = [] ∧ MArgs s u 1 ∧ s.symbolicScope = false ∧
    got (refTile 1 3 s) (fun r s' => (s'.vars r).size == 30 && entry 27 7#64 r s' && entry 9 9#64 r s') = true) :=
  greach gdemo (fun s u st => st = [] ∧ MArgs s u 1 ∧ s.symbolicScope = false ∧
    got (refTile 1 3 s) (fun r s' => (s'.vars r).size == 30 && entry 27 7#64 r s' && entry 9 9#64 r s') = true)
    (by decide +kernel)

/-- The expression `counter + 5` is rebuilt. -/
example : ∃ s u st, Hist s u st ∧ WritesOK s ∧ (st = [] ∧ MArgs s u 5 ∧ s.symbolicScope = false ∧
    got (refTile 5 3 s) (fun r s' => (s'.vars r).size == 12 && (s'.vars r).kind == .add && entry 10 7#64 r s') = true) :=
  greach gdemo (fun s u st => st = [] ∧ MArgs s u 5 ∧ s.symbolicScope = false ∧
    got (refTile 5 3 s) (fun r s' => (s'.vars r).size == 12 && (s'.vars r).kind == .add && entry 10 7#64 r s') = true)
    (by decide +kernel)

/-- The expression `index + 5`, which depends on memory, is evaluated. -/
example : ∃ s u st, Hist s u st ∧ WritesOK s ∧ (st = [] ∧ MArgs s u 7 ∧ s.symbolicScope = false ∧ (s.vars 7).kind = .add ∧
    got (refRepeat 7 3 0 s) (fun r s' => (s'.vars r).size == 12 && (s'.vars 7).kind == .evaluated && entry 10 8#64 r s') = true) :=
  greach gdemo (fun s u st => st = [] ∧ MArgs s u 7 ∧ s.symbolicScope = false ∧ (s.vars 7).kind = .add ∧
    got (refRepeat 7 3 0 s) (fun r s' => (s'.vars r).size == 12 && (s'.vars 7).kind == .evaluated && entry 10 8#64 r s') = true)
    (by decide +kernel)

/-- Repetition with a maximal size. -/
example : ∃ s u st, Hist s u st ∧ WritesOK s ∧ (st = [] ∧ MArgs s u 1 ∧ s.symbolicScope = false ∧
    got (refRepeat 1 3 17 s) (fun r s' => (s'.vars r).size == 17 && entry 16 5#64 r s' && entry 2 0#64 r s') = true) :=
  greach gdemo (fun s u st => st = [] ∧ MArgs s u 1 ∧ s.symbolicScope = false ∧
    got (refRepeat 1 3 17 s) (fun r s' => (s'.vars r).size == 17 && entry 16 5#64 r s' && entry 2 0#64 r s') = true)
    (by decide +kernel)

/-- Reversal. -/
example : ∃ s u st, Hist s u st ∧ WritesOK s ∧ (st = [] ∧ MArgs s u 1 ∧ s.symbolicScope = false ∧
    got (refReverse 1 s) (fun r s' => (s'.vars r).size == 10 && entry 0 9#64 r s' && entry 7 2#64 r s') = true) :=
  greach gdemo (fun s u st => st = [] ∧ MArgs s u 1 ∧ s.symbolicScope = false ∧
    got (refReverse 1 s) (fun r s' => (s'.vars r).size == 10 && entry 0 9#64 r s' && entry 7 2#64 r s') = true)
    (by decide +kernel)

/-- Tiling zero times raises. -/
example : ∃ s u st, Hist s u st ∧ WritesOK s ∧ (st = [] ∧ Operand s u 1 ∧
    (match refTile 1 0 s with | .raise _ => true | _ => false) = true) :=
  greach gdemo (fun s u st => st = [] ∧ Operand s u 1 ∧ (match refTile 1 0 s with | .raise _ => true | _ => false) = true)
    (by decide +kernel)

/-- Reading one entry: position 9 exists, position 10 does not. -/
example : ∃ s u st, Hist s u st ∧ WritesOK s ∧ (st = [] ∧ Args s u 1 3 2 ∧ Args s u 1 4 2 ∧
    ((s.vars 1).kind = .evaluated ∧ (s.vars 1).size = 10 ∧ (s.vars 3).kind = .literal ∧ (s.vars 3).size = 1 ∧
      (s.vars 2).kind = .literal ∧ (s.vars 2).size = 1 ∧ (s.vars 2).literal = 1#64) ∧
    got (refGather [] 1 3 2 s) (entry 0 9#64) = true ∧
    (match refGather [] 1 4 2 s with | .raise _ => true | _ => false) = true) :=
  greach [.call (.memMap 1 .u32 64#64 10 false), .call (.literal 1 .bool 1#64 1), .call (.literal 1 .u32 9#64 1),
    .call (.literal 1 .u32 10#64 1)] (fun s u st => st = [] ∧ Args s u 1 3 2 ∧ Args s u 1 4 2 ∧
    ((s.vars 1).kind = .evaluated ∧ (s.vars 1).size = 10 ∧ (s.vars 3).kind = .literal ∧ (s.vars 3).size = 1 ∧
      (s.vars 2).kind = .literal ∧ (s.vars 2).size = 1 ∧ (s.vars 2).literal = 1#64) ∧
    got (refGather [] 1 3 2 s) (entry 0 9#64) = true ∧
    (match refGather [] 1 4 2 s with | .raise _ => true | _ => false) = true)
    (by decide +kernel)

end Verif.Jit
