/-
Scatter operations (C48): specification.

Arrays behave like values.  A program holds references to arrays; a reference is named by the number
of the call that created it.  A scatter replaces the array of one reference, and has no effect on
those that other references stand for.
-/

namespace Verif.Scatter

/-- The contents of an array. -/
abbrev Arr := List UInt32

/-- The entry of an array that belongs to a lane; an array of size 1 is the same for all lanes. -/
def entry (a : Arr) (lane : Nat) : UInt32 := a.getD (if a.length = 1 then 0 else lane) 0

/-- How a value is combined with an entry (`ReduceOp`). -/
inductive ROp where
  | identity
  | add
  | other (f : UInt32 → UInt32 → UInt32)

def ROp.apply : ROp → UInt32 → UInt32 → UInt32
  | .identity, _, x => x
  | .add, old, x => old + x
  | .other f, old, x => f old x

/-- Write one value. -/
def put (op : ROp) (a : Arr) (pos : Nat) (x : UInt32) : Arr := a.set pos (op.apply (a.getD pos 0) x)

/-- A scatter: the given lanes write, one after the other. -/
def scat (op : ROp) (lanes : List Nat) (a val idx msk : Arr) : Arr :=
  lanes.foldl (fun a l => if entry msk l ≠ 0 then put op a (entry idx l).toNat (entry val l) else a) a

/-- The calls of a program. -/
inductive Cmd where
  /-- a constant array of the given size -/
  | lit (c : UInt32) (size : Nat)
  /-- an array with the given contents -/
  | input (a : Arr)
  /-- any operation on the entries of arrays -/
  | op (f : List UInt32 → UInt32) (args : List Nat)
  | gather (src idx msk : Nat)
  /-- `free`: the caller states that the scatter does not conflict with earlier ones
  (`ReduceMode::Permute`, `ReduceMode::NoConflicts`) -/
  | scatter (target val idx msk : Nat) (op : ROp) (free : Bool)
  /-- write a single entry -/
  | write (target pos : Nat) (x : UInt32)
  /-- another reference to the same array -/
  | dup (h : Nat)
  | drop (h : Nat)
  | eval (l : List Nat)
  | read (h pos : Nat)
  /-- the first entries of an array -/
  | shrink (h size : Nat)
  | stash (h : Nat)
  | unstash (h : Nat)

/-- The arrays of the references; `none` if the reference was dropped, or if the call did not create
one. -/
abbrev Refs := List (Option Arr)

def get (r : Refs) (h : Nat) : Option Arr := (r[h]?).join

def getAll (r : Refs) : List Nat → Option (List Arr)
  | [] => some []
  | h :: l => (get r h).bind fun a => (getAll r l).map (a :: ·)

/-- Sizes must agree, except that arrays of size 1 go with any size.  The common size. -/
def common (sizes : List Nat) : Option Nat :=
  let n := sizes.foldl max 0
  if n ≠ 0 ∧ sizes.all fun k => k == n || k == 1 then some n else none

/-- The effect of a call: the arrays of the references, the array of the new reference, and the value
that is returned.  `none`: the call is not valid.  `lanes n` is the order in which the lanes of a
scatter of size `n` write. -/
def step (lanes : Nat → List Nat) (r : Refs) : Cmd → Option (Refs × Option Arr × Option UInt32)
  | .lit c n => if n = 0 then none else some (r, some (List.replicate n c), none)
  | .input a => if a = [] then none else some (r, some a, none)
  | .op f args => (getAll r args).bind fun as => (common (as.map List.length)).map fun n =>
      (r, some ((List.range n).map fun l => f (as.map (entry · l))), none)
  | .gather src idx msk => (get r src).bind fun a => (get r idx).bind fun i => (get r msk).bind fun m =>
      (common [i.length, m.length]).map fun n =>
        (r, some ((List.range n).map fun l => if entry m l ≠ 0 then entry a (entry i l).toNat else 0), none)
  | .scatter t val idx msk op _ => (get r t).bind fun a => (get r val).bind fun v =>
      (get r idx).bind fun i => (get r msk).bind fun m =>
        (common [v.length, i.length, m.length]).map fun n =>
          (r.set t (some (scat op (lanes n) a v i m)), none, none)
  | .write t pos x => (get r t).bind fun a =>
      if pos < a.length then some (r.set t (some (a.set pos x)), none, none) else none
  | .dup h => (get r h).map fun a => (r, some a, none)
  | .drop h => (get r h).map fun _ => (r.set h none, none, none)
  | .eval _ => some (r, none, none)
  | .read h pos => (get r h).bind fun a =>
      if a.length = 1 ∨ pos < a.length then some (r, none, some (entry a pos)) else none
  | .shrink h n => (get r h).bind fun a =>
      if n = 0 ∨ a.length < n then none else some (r, some (a.take n), none)
  | .stash h => (get r h).map fun _ => (r, none, none)
  | .unstash h => (get r h).map fun _ => (r, none, none)

/-- What a call returns. -/
inductive Out where
  | ok (v : Option UInt32)
  | raise
  /-- values are lost -/
  | lost

/-- A scatter that is given its own target as value or as mask. -/
def Cmd.readsTarget : Cmd → Prop
  | .scatter t val _ msk _ _ => val = t ∨ msk = t
  | _ => False

/-- An access that is not masked uses an index beyond the end of the array. -/
def Beyond (a i m : Arr) : Prop := ∃ l, entry m l ≠ 0 ∧ a.length ≤ (entry i l).toNat

/-- Gathers and scatters with such accesses; the behavior of the library is undefined. -/
def OutOfBounds (r : Refs) : Cmd → Prop
  | .gather src idx msk => ∃ a i m, get r src = some a ∧ get r idx = some i ∧ get r msk = some m ∧
      a.length ≠ 1 ∧ Beyond a i m
  | .scatter t _ idx msk _ _ => ∃ a i m, get r t = some a ∧ get r idx = some i ∧ get r msk = some m ∧ Beyond a i m
  | _ => False

/-- What a call must do: the arrays of the references afterwards, given what it returns.  Calls that are
not valid raise an exception and have no effect; the only other calls that may do so are scatters that
are given their own target as value or mask. -/
def Effect (lanes : Nat → List Nat) (r : Refs) (c : Cmd) (r' : Refs) : Out → Prop
  | .ok v => ∃ r1 new, step lanes r c = some (r1, new, v) ∧ r' = r1 ++ [new]
  | .raise => (step lanes r c = none ∨ c.readsTarget) ∧ r' = r ++ [none]
  | .lost => False

/-- The results of a program are those of arrays that behave like values, up to the first access that
is out of bounds. -/
def Follows (lanes : Nat → Nat → List Nat) : Refs → List Cmd → List Out → Prop
  | _, [], os => os = []
  | _, _ :: _, [] => False
  | r, c :: cs, o :: os =>
    OutOfBounds r c ∨ ∃ r', Effect (lanes r.length) r c r' o ∧ Follows lanes r' cs os

/-- No call of a program accesses an array beyond its end. -/
def InBounds (lanes : Nat → Nat → List Nat) : Refs → List Cmd → Prop
  | _, [] => True
  | r, c :: cs => ¬ OutOfBounds r c ∧ ∀ r' o, Effect (lanes r.length) r c r' o → InBounds lanes r' cs

/-- The order of reductions does not matter. -/
def ROp.Comm (o : ROp) : Prop := ∀ a x y, o.apply (o.apply a x) y = o.apply (o.apply a y) x

/-- Restrictions on calls.  `pend` lists what kind of scatter was last made into the array of each
reference since the last evaluation.

A reduction must not follow a scatter of another kind without an evaluation in between, and a scatter
that is declared to be free of conflicts must follow an evaluation.  With LLVM, the operands of a
reduction that follows another one must have no pending scatters; otherwise, the mask must not be the
target.  Shrunk arrays and stashed reference counts are excluded. -/
def Allowed (llvm : Bool) (pend : List (Option ROp)) : Cmd → Prop
  | .scatter t val idx msk op free =>
    ((op = .identity ∧ free = false) ∨ pend[t]?.join = none ∨
      (pend[t]?.join = some op ∧ op ≠ .identity ∧ op.Comm ∧
        (llvm = true → ∀ h ∈ [val, idx, msk], pend[h]?.join = none))) ∧ (llvm = true ∨ msk ≠ t)
  | .shrink _ _ => False
  | .stash _ => False
  | .unstash _ => False
  | _ => True

def after (pend : List (Option ROp)) : Cmd → List (Option ROp)
  | .scatter t _ _ _ op _ => pend.set t (some op) ++ [none]
  | .eval _ => pend.map (fun _ => none) ++ [none]
  | .dup h => pend ++ [pend[h]?.join]
  | _ => pend ++ [none]

/-- Restrictions on programs. -/
def Ordered (llvm : Bool) : List (Option ROp) → List Cmd → Prop
  | _, [] => True
  | pend, c :: cs => Allowed llvm pend c ∧ Ordered llvm (after pend c) cs

end Verif.Scatter
