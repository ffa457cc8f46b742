/-
Local arrays (C43): specification.

A local array behaves like a value: creating, initialising and writing it yield new arrays, and no
later call changes an array that was obtained earlier.  The meaning of every call is computed when
the call is made, from the meanings of its operands, in one thread of the program.
-/

namespace Verif.LocalArr

/-- What a variable means in one thread: a number, or an array of numbers.  `none` stands for a
number that is not determined, since it was read from an element that was never written. -/
inductive SVal where
  | scalar (x : Option Nat)
  | arr (len : Nat) (c : Nat → Option Nat)

/-- The calls.  Operands are given by the position of the call that returned them. -/
inductive Op where
  /-- `jit_var_literal` -/
  | literal (x size : Nat)
  /-- an evaluated variable which holds `x` in the thread considered -/
  | input (x size : Nat)
  /-- any operation which combines its operands in each thread -/
  | compute (f : List Nat → Nat) (size : Nat) (args : List Nat)
  /-- `jit_array_create` -/
  | create (size len : Nat)
  /-- `jit_array_init` -/
  | init (target value : Nat)
  /-- `jit_array_write` -/
  | write (target offset value mask : Nat)
  /-- `jit_array_read`, in a symbolic scope or not -/
  | read (source offset mask : Nat) (symbolic : Bool)

/-- A new array: no element is determined. -/
def createVal (len : Nat) : SVal := .arr len fun _ => none

/-- All elements are set to the given number. -/
def initVal : SVal → SVal → Option SVal
  | .arr len _, .scalar x => some (.arr len fun i => if i < len then x else none)
  | _, _ => none

/-- One element is replaced if the mask is set.  The mask must be determined, and, if it is set, so
must be the offset, which has to lie within the array. -/
def writeVal : SVal → SVal → SVal → SVal → Option SVal
  | .arr len c, _, .scalar _, .scalar (some 0) => some (.arr len c)
  | .arr len c, .scalar (some o), .scalar x, .scalar (some _) =>
    if o < len then some (.arr len fun i => if i = o then x else c i) else none
  | _, _, _, _ => none

/-- The element at the offset if the mask is set, and zero if it is not. -/
def readVal : SVal → SVal → SVal → Option SVal
  | .arr _ _, _, .scalar (some 0) => some (.scalar (some 0))
  | .arr len c, .scalar (some o), .scalar (some _) =>
    if o < len then some (.scalar (c o)) else none
  | _, _, _ => none

/-- The numbers of a list of operands. -/
def scalars : List SVal → Option (List (Option Nat))
  | [] => some []
  | .scalar x :: l => (scalars l).map (x :: ·)
  | .arr _ _ :: _ => none

/-- Numbers are combined if all of them are determined. -/
def determined : List (Option Nat) → Option (List Nat)
  | [] => some []
  | some x :: l => (determined l).map (x :: ·)
  | none :: _ => none

/-- An operation on numbers. -/
def computeVal (f : List Nat → Nat) (args : List SVal) : Option SVal :=
  (scalars args).map fun l => .scalar ((determined l).map f)

/-- The meanings of several operands. -/
def operands (m : Nat → Option SVal) : List Nat → Option (List SVal)
  | [] => some []
  | k :: l => (m k).bind fun x => (operands m l).map (x :: ·)

/-- The meaning of a call, given those of the earlier calls; `none` if the call has no meaning. -/
def meaning (m : Nat → Option SVal) : Op → Option SVal
  | .literal x _ => some (.scalar (some x))
  | .input x _ => some (.scalar (some x))
  | .compute f _ args => (operands m args).bind (computeVal f)
  | .create _ len => some (createVal len)
  | .init t v => (m t).bind fun t => (m v).bind fun v => initVal t v
  | .write t o v k => (m t).bind fun t => (m o).bind fun o => (m v).bind fun v => (m k).bind fun k =>
      writeVal t o v k
  | .read s o k _ => (m s).bind fun s => (m o).bind fun o => (m k).bind fun k => readVal s o k

/-- `data` agrees with a meaning: it has the number in its first word, or the elements of the
array. -/
def Holds (data : Nat → Nat) : SVal → Prop
  | .scalar x => ∀ y, x = some y → data 0 = y
  | .arr len c => ∀ i, i < len → ∀ y, c i = some y → data i = y

end Verif.LocalArr
