import Verif.Nano.Vector

/-!
# Specification of vectors

Vectors are lists.  The specification of programs says which operations are permitted and what they do to the lists.  It knows nothing about memory.
-/
namespace Verif.Nano

variable {T : Type}

/-- The contents of the vectors that exist -/
abbrev Lists (T : Type) := Nat → Option (List T)

def Lists.upd (s : Lists T) (x : Nat) (l : Option (List T)) : Lists T := fun y => if y = x then l else s y

/-- What an operation means for lists; `none`: the program is not permitted to perform it (object exists already, does not exist, or has no such element).  A vector
that was moved from is empty. -/
def Lists.step (s : Lists T) : Op T → Option (Lists T)
  | .make x => if s x = none then some (s.upd x (some [])) else none
  | .makeFill x n a => if s x = none then some (s.upd x (some (List.replicate n a))) else none
  | .makeRange x l => if s x = none then some (s.upd x (some l)) else none
  | .makeCopy x y => if s x = none then (s y).map fun l => s.upd x (some l) else none
  | .makeMove x y => if s x = none then (s y).map fun l => (s.upd x (some l)).upd y (some []) else none
  | .drop x => (s x).map fun _ => s.upd x none
  | .assignCopy x y => (s x).bind fun _ => (s y).map fun l => s.upd x (some l)
  | .assignMove x y => (s x).bind fun _ => (s y).map fun l => (s.upd x (some l)).upd y (some [])
  | .push x a => (s x).map fun l => s.upd x (some (l ++ [a]))
  | .pushElem x y i => (s x).bind fun l => (s y).bind fun k => k[i]?.map fun a => s.upd x (some (l ++ [a]))
  | .pop x => (s x).bind fun l => if l = [] then none else some (s.upd x (some l.dropLast))
  | .set x i a => (s x).bind fun l => if i < l.length then some (s.upd x (some (l.set i a))) else none
  | .resize x n a => (s x).map fun l => s.upd x (some (l.take n ++ List.replicate (n - l.length) a))
  | .reserve x _ => (s x).map fun _ => s
  | .clear x => (s x).map fun _ => s.upd x (some [])
  | .swap x y => (s x).bind fun l => (s y).map fun k => (s.upd x (some k)).upd y (some l)

def Lists.run (s : Lists T) : List (Op T) → Option (Lists T)
  | [] => some s
  | o :: os => (s.step o).bind fun s => s.run os

/-- The program never appends an element of a vector to the same vector by reference. -/
def Op.NoAlias : Op T → Prop
  | .pushElem x y _ => x ≠ y
  | _ => True

/-- The vectors contain the lists: sizes and elements agree, and capacities are sufficient. -/
def Shows (w : World T) (s : Lists T) : Prop :=
  ∀ x, match w.obj x, s x with
    | some v, some l => v.size = l.length ∧ v.size ≤ v.cap ∧ ∀ i, i < l.length → w.heap.read v.data i = l[i]?
    | none, none => True
    | _, _ => False

/-- Every live block of memory belongs to exactly one vector, which knows its size. -/
def NoLeak (w : World T) : Prop :=
  ∀ p b, w.heap.block p = some b → ∃ x v, w.obj x = some v ∧ v.data = some p ∧ v.cap = b.cap ∧ ∀ y u, w.obj y = some u → u.data = some p → y = x

/-- The state at the start of the program -/
def World.init : World T := ⟨⟨fun _ => none, 0⟩, fun _ => none⟩

end Verif.Nano
