/-!
# Packets: specification (C69, C70)
-/
namespace Verif.Packet

variable {V : Type}

/-- Element `i` of the packet that a lane reads: the array consists of groups of `n` entries, and `index`
is the number of a group. -/
def gathered (zero : V) (n : Nat) (src : Nat → V) (index : Nat → Nat) (mask : Nat → Bool) (i lane : Nat) : V :=
  if mask lane then src (n * index lane + i) else zero

/-- A packet scatter by one group of lanes: number of the group, elements (`val i lane`) and masks of the lanes -/
structure Op (V : Type) where
  index : Nat → Nat
  val : Nat → Nat → V
  mask : Nat → Bool

/-- The values that the lanes of an operation supply for entry `j`, in the order of the lanes -/
def supplied (n w : Nat) (o : Op V) (j : Nat) : List V :=
  (List.range w).filterMap fun lane =>
    if o.mask lane = true ∧ n * o.index lane ≤ j ∧ j < n * o.index lane + n then some (o.val (j - n * o.index lane) lane) else none

/-- The new value of an entry: the values are combined with the current one (`some op`), or replace it (`none`). -/
def newValue (op : Option (V → V → V)) (x y : V) : V :=
  match op with
  | some f => f x y
  | none => y

/-- The value of an entry after the given values have been supplied -/
def result (op : Option (V → V → V)) (x : V) (vs : List V) : V := vs.foldl (newValue op) x

end Verif.Packet
