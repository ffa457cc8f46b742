import Verif.CoopVec.Elem

/-! # What element-wise operations mean

The program of a user, and the value of each component in each lane. -/
namespace Verif.CoopVec

/-- Programs.  The flags `sole` say whether other references to the operands exist. -/
inductive Src (V : Type)
  | lit (size len : Nat) (v : V)
  | pack (cs : List (Scalar V))
  | load (mem : Int → Option V) (p : Int) (offset len : Nat)
  | bin (sole : Bool) (op : BinOp) (a b : Src V)
  | fma (sole sole' : Bool) (a b c : Src V)

/-- The calls of a program -/
def Src.build {V : Type} [DecidableEq V] (o : Arith V) : Src V → Option (CV V)
  | .lit n k v => mkLit n k v
  | .pack cs => mkPack cs
  | .load mem p off k => some (mkLoad mem p off k)
  | .bin s op a b => (a.build o).bind fun x => (b.build o).bind fun y => mkBin o s op x y
  | .fma s s' a b c => (a.build o).bind fun x => (b.build o).bind fun y => (c.build o).bind fun z => mkFma o s s' x y z

/-- A binary operation on two numbers -/
def BinOp.apply {V : Type} (o : Arith V) (op : BinOp) (x y : V) : V :=
  match op with
  | .add => o.add x y
  | .mul => o.mul x y
  | .sub => o.sub x y
  | .min => o.min x y
  | .max => o.max x y
  | .step => if o.lt x y then o.zero else o.one

/-- What a program means: component `i` of lane `l`; `none` if it does not exist -/
def Src.mean {V : Type} (o : Arith V) (i l : Nat) : Src V → Option V
  | .lit _ _ v => some v
  | .pack cs => cs[i]?.bind fun s => s.read l
  | .load mem p off _ => mem (p + (off + i : Nat))
  | .bin _ op a b => (a.mean o i l).bind fun x => (b.mean o i l).bind fun y => some (op.apply o x y)
  | .fma _ _ a b c => (a.mean o i l).bind fun x => (b.mean o i l).bind fun y => (c.mean o i l).bind fun z => some (o.fma x y z)

/-- Length of the result -/
def Src.len {V : Type} : Src V → Nat
  | .lit _ k _ => k
  | .pack cs => cs.length
  | .load _ _ _ k => k
  | .bin _ _ a _ => a.len
  | .fma _ _ a _ _ => a.len

/-- Size of the result: the largest one -/
def Src.size {V : Type} : Src V → Nat
  | .lit n _ _ => n
  | .pack cs => cs.foldl (fun n s => max n s.size) 0
  | .load _ _ _ _ => 1
  | .bin _ _ a b => max a.size b.size
  | .fma _ _ a b c => max (max a.size b.size) c.size

/-- A notion of equality that the operations respect, and for which the simplifications are right.  For integers this is equality; for floats:
equality up to the sign of zero and the kind of NaN -/
structure Laws {V : Type} (o : Arith V) (E : V → V → Prop) : Prop where
  equiv : Equivalence E
  op : ∀ op x x' y y', E x x' → E y y' → E (BinOp.apply o op x y) (BinOp.apply o op x' y')
  fma : ∀ x x' y y' z z', E x x' → E y y' → E z z' → E (o.fma x y z) (o.fma x' y' z')
  addZero : ∀ z x, o.zeroLit z = true → E (o.add z x) x ∧ E (o.add x z) x
  mulOne : ∀ z x, o.oneLit z = true → E (o.mul z x) x ∧ E (o.mul x z) x
  fmaOne : ∀ z x y, o.oneLit z = true → E (o.fma z x y) (o.add x y) ∧ E (o.fma x z y) (o.add x y)
  fin : ∀ x x', E x x' → o.finite x = o.finite x'
  fmaZero : ∀ z x y, o.zeroLit z = true → E (o.fma x y z) (o.mul x y)

/-- The conditions under which code for a component of a lane is defined: operands with different sizes are not shared, minima and maxima have
finite arguments, loads and packed variables are accessed within their bounds. -/
def Src.Defined {V : Type} (o : Arith V) (i l : Nat) : Src V → Prop
  | .lit _ _ _ => True
  | .pack cs => ∀ s ∈ cs, s.lit = none → s.size = 1 ∨ l < s.size
  | .load mem p off _ => (mem (p + (off + i : Nat))).isSome = true
  | .bin sole op a b => (sole = true ∨ a.size = b.size) ∧ a.Defined o i l ∧ b.Defined o i l
      ∧ ((op = .min ∨ op = .max) → ∀ x y, a.mean o i l = some x → b.mean o i l = some y → o.finite x = true ∧ o.finite y = true)
  | .fma sole sole' a b c => ((sole = true ∧ sole' = true) ∨ (a.size = b.size ∧ a.size = c.size))
      ∧ a.Defined o i l ∧ b.Defined o i l ∧ c.Defined o i l

end Verif.CoopVec
