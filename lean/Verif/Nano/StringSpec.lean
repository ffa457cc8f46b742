import Verif.Nano.String
import Verif.Nano.VectorSpec

/-!
# Specification of strings: lists of characters
-/
namespace Verif.Nano.Str

/-- The text of an argument.  As in C, the text of `c_str()` ends at the first zero. -/
def Arg.chars (s : Lists Ch) : Arg → Option (List Ch)
  | .text l _ => some l
  | .str y => s y
  | .cstr y => (s y).map fun l => l.takeWhile (fun c => c ≠ 0)

/-- The text of several arguments -/
def chars (s : Lists Ch) : List Arg → Option (List Ch)
  | [] => some []
  | a :: as => (a.chars s).bind fun l => (chars s as).map fun r => l ++ r

/-- What an operation means for lists of characters; `none`: not permitted -/
def specStep (s : Lists Ch) : Op → Option (Lists Ch)
  | .make x => if s x = none then some (s.upd x (some [])) else none
  | .makeBuf x l => if s x = none then some (s.upd x (some l)) else none
  | .makeFrom x a => if s x = none then (a.chars s).map fun l => s.upd x (some l) else none
  | .makeMove x y => if s x = none then (s y).map fun l => (s.upd x (some l)).upd y (some []) else none
  | .drop x => (s x).map fun _ => s.upd x none
  | .assign x a => (s x).bind fun _ => (a.chars s).map fun l => s.upd x (some l)
  | .assignMove x y => (s x).bind fun _ => (s y).map fun l => (s.upd x (some l)).upd y (some [])
  | .put x as => (s x).bind fun l => (chars s as).map fun r => s.upd x (some (l ++ r))
  | .indent x n => (s x).map fun l => s.upd x (some (l ++ List.replicate n 32))
  | .resize x n c => (s x).map fun l => s.upd x (some (l.take n ++ List.replicate (n - l.length) c))
  | .reserve x _ => (s x).map fun _ => s
  | .clear x => (s x).map fun _ => s.upd x (some [])
  | .swap x y => (s x).bind fun l => (s y).map fun k => (s.upd x (some k)).upd y (some l)

def specRun (s : Lists Ch) : List Op → Option (Lists Ch)
  | [] => some s
  | o :: os => (specStep s o).bind fun s => specRun s os

/-- The program does not assign a string to itself, and does not pass the `c_str()` of a string to the same string. -/
def Op.NoAlias : Op → Prop
  | .assign x (.str y) => x ≠ y
  | .assign x (.cstr y) => x ≠ y
  | .put x as => ∀ y, Arg.cstr y ∈ as → x ≠ y
  | _ => True

/-- The strings contain the characters of the lists, and `c_str()` is terminated by zero (strings without memory have a terminator of their own). -/
def Shows (w : World Ch) (s : Lists Ch) : Prop :=
  ∀ x, match w.obj x, s x with
    | some v, some l => v.size = l.length ∧ v.size ≤ v.cap ∧ (∀ i, i < l.length → w.heap.read v.data i = l[i]?) ∧ (v.data = none ∨ w.heap.read v.data l.length = some 0)
    | none, none => True
    | _, _ => False

/-- Every live block of memory belongs to exactly one string. -/
def NoLeak (w : World Ch) : Prop :=
  ∀ p b, w.heap.block p = some b → ∃ x v, w.obj x = some v ∧ v.data = some p ∧ ∀ y u, w.obj y = some u → u.data = some p → y = x

end Verif.Nano.Str
