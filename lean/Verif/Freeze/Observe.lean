import Verif.Freeze.Model

/-!
# Frozen functions: what the caller provides and observes

The connection between the arrays of a direct execution (`Spec`) and the variables that
are passed to, and returned by, a replay (`Model`).
-/

namespace Verif.Freeze

/-- The inputs `ins` are the arrays that exist in `m`: distinct arrays that consist of
bytes. -/
def Inputs (m : Mem) (ins : List Arr) : Prop :=
  (ins.map (·.arr)).Nodup ∧ (∀ x, (m.buf x).isSome → x ∈ ins.map (·.arr)) ∧
  ∀ i ∈ ins, ∃ cs, m.buf i.arr = some { cells := cs, len := cs.length, vt := some i.vt } ∧
    refsOf cs = [] ∧ i.size * typeSize i.vt = cs.length ∧ 0 < i.size ∧ i.size < 2 ^ 32 ∧
    0 < typeSize i.vt ∧ cs.length < 2 ^ 32

/-- The variables `vs` that are passed to the replay have the contents of the inputs, and
are stored at different addresses. -/
def Provides (m : Mem) (ins : List Arr) (vs : List InVar)
    (heap : Nat → Option (List (Cell Nat))) (next : Nat) : Prop :=
  (vs.map (·.data)).Nodup ∧
  List.Forall₂ (fun i v => v.vt = i.vt ∧ v.size = i.size ∧ heap v.data = m.get i.arr ∧
    v.data < next) ins vs

/-- What a user sees of a variable in the memory of the replay. -/
def viewVar (st : RState) (vt data size : Nat) : Option (Nat × List (Option Nat)) :=
  (load st data (size * typeSize vt)).map fun cs => (vt, dataOf cs)

/-- What a user sees of a result of a replay. -/
def view (st : RState) (vs : List InVar) : OutVar → Option (Nat × List (Option Nat))
  | .same i => (vs[i]?).bind fun v => viewVar st v.vt v.data v.size
  | .new vt data size => viewVar st vt data size

end Verif.Freeze
