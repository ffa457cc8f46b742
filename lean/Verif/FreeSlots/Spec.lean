import Verif.FreeSlots.Model
/-!
# Specification of the slot recycler

A set of natural numbers, represented by a strictly increasing list: `push` inserts,
`pop` removes the minimum.  A history is legal if it never pushes an index that is
already free (or not a 32-bit number) and never pops from the empty set.
-/
namespace Verif.FreeSlots

def sinsert (i : Nat) : List Nat → List Nat
  | [] => [i]
  | a :: l => if i < a then i :: a :: l else a :: sinsert i l

/-- One step of the abstract set; `none` marks an illegal call. -/
def specStep (S : List Nat) : Op → Option (Out × List Nat)
  | .push i => if i < 2 ^ 32 ∧ i ∉ S then some (.unit, sinsert i S) else none
  | .pop => match S with
    | [] => none
    | m :: S' => some (.idx m, S')
  | .isEmpty => some (.bool S.isEmpty, S)

def specRun (S : List Nat) : List Op → Option (List Out)
  | [] => some []
  | o :: os => match specStep S o with
    | none => none
    | some (r, S') => (specRun S' os).map (r :: ·)

end Verif.FreeSlots
