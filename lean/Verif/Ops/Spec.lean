import Verif.Ops.Model
import Verif.Var.Spec
/-!
# Specification: the values computed by kernels

`Val s i l x` states that thread `l` of a kernel that uses variable `i` computes the bits `x` for
it (values are zero-extended to 64 bits).  The meaning of each node is that of the LLVM
instruction emitted for it by `jitc_llvm_render()` (src/llvm_eval.cpp:513-948); `none` stands
for undefined behaviour or poison, and for operations outside of the model (floating point
arithmetic).
-/
namespace Verif.Ops
open Verif.Var

/-- Keep the bits of a value of type `t`. -/
def norm (t : VType) (x : BitVec 64) : BitVec 64 := (x.setWidth t.bits).setWidth 64

/-- Semantics of unary nodes with result type `t` and operand type `t0`. -/
def sem1 (k : Kind) (t t0 : VType) (x : BitVec 64) : Option (BitVec 64) :=
  let a := x.setWidth t0.bits
  match k with
  -- sub 0, x (src/llvm_eval.cpp:536-541)
  | .neg => if t = t0 ∧ t0.isInt then some ((-a).setWidth 64) else none
  -- xor x, ones (src/llvm_eval.cpp:543-560)
  | .not => if t = t0 ∧ (t0.isInt ∨ t0.isFloat ∨ t0 = .bool) then some ((~~~ a).setWidth 64) else none
  -- llvm.abs(x, 0) (src/llvm_eval.cpp:645-652)
  | .abs => if t = t0 ∧ t0.isInt then
      some ((if t0.isSint ∧ a.toInt < 0 then -a else a).setWidth 64) else none
  -- llvm.ctpop, llvm.ctlz, llvm.cttz, llvm.bitreverse (src/llvm_eval.cpp:875-893)
  | .popc => if t = t0 ∧ t0.isInt then
      some (BitVec.ofNat 64 ((List.range t0.bits).countP (fun i => a.getLsbD i))) else none
  | .clz => if t = t0 ∧ t0.isInt then
      some (BitVec.ofNat 64 (if a = 0 then t0.bits else t0.bits - 1 - Nat.log2 a.toNat)) else none
  | .ctz => if t = t0 ∧ t0.isInt then
      some (BitVec.ofNat 64 (if a = 0 then t0.bits
        else ((List.range t0.bits).find? (fun i => a.getLsbD i)).getD 0)) else none
  | .brev => if t = t0 ∧ t0.isInt then some ((a.reverse).setWidth 64) else none
  -- icmp ne, select, trunc, zext, sext (src/llvm_eval.cpp:959-1001)
  | .cast =>
    if t = .bool ∧ t0.isInt then some (ofBool (a != 0))
    else if t0 = .bool ∧ t.isInt then some (ofBool (a != 0))
    else if t.isInt ∧ t0.isInt then
      some ((if t0.isSint then a.signExtend t.bits else a.setWidth t.bits).setWidth 64)
    else none
  -- bitcast (src/llvm_eval.cpp:1004-1006)
  | .bitcast => if t.bits = t0.bits then some (a.setWidth 64) else none
  | _ => none

/-- Semantics of comparisons (src/llvm_eval.cpp:815-866): `fi` on integers, `ff` on floating point
numbers. -/
def semCmp (t t0 t1 : VType) (fi : Int → Int → Bool) (ff : BitVec 64 → BitVec 64 → Bool)
    (x y : BitVec 64) : Option (BitVec 64) :=
  if t = .bool ∧ t0 = t1 then
    if t0.isInt ∨ t0 = .bool then some (ofBool (fi (cInt t0 x) (cInt t0 y)))
    else if t0.isFloat then some (ofBool (ff x y))
    else none
  else none

/-- Semantics of binary nodes. -/
def sem2 (k : Kind) (t t0 t1 : VType) (x y : BitVec 64) : Option (BitVec 64) :=
  let a := x.setWidth t0.bits
  let b := y.setWidth t0.bits
  let int (r : Option (BitVec t0.bits)) : Option (BitVec 64) :=
    if t = t0 ∧ t0 = t1 ∧ t0.isInt then r.map (·.setWidth 64) else none
  let bitwise (r : BitVec t0.bits) : Option (BitVec 64) :=
    if t = t0 ∧ t0 = t1 ∧ (t0.isInt ∨ t0.isFloat ∨ t0 = .bool) then some (r.setWidth 64) else none
  match k with
  -- add, sub, mul (src/llvm_eval.cpp:654-670)
  | .add => int (some (a + b))
  | .sub => int (some (a - b))
  | .mul => int (some (a * b))
  -- udiv, sdiv: division by zero and overflow are undefined (src/llvm_eval.cpp:672-680)
  | .div => int (if b = 0 then none
      else if t0.isSint then (if a = BitVec.intMin _ ∧ b = -1 then none else some (a.sdiv b))
      else some (a.udiv b))
  -- urem, srem (src/llvm_eval.cpp:682-686)
  | .mod => int (if b = 0 then none
      else if t0.isSint then (if a = BitVec.intMin _ ∧ b = -1 then none else some (a.srem b))
      else some (a.umod b))
  -- extend, mul, lshr, trunc (src/llvm_eval.cpp:688-704)
  | .mulHi => int (some (if t0.isSint then
        (((a.signExtend (2 * t0.bits)) * (b.signExtend (2 * t0.bits))) >>> t0.bits).setWidth _
      else
        (((a.setWidth (2 * t0.bits)) * (b.setWidth (2 * t0.bits))) >>> t0.bits).setWidth _))
  -- extend, mul (src/llvm_eval.cpp:706-714)
  | .mulWide => if wideType t0 = some t ∧ t0 = t1 then
      some ((if t0.isSint then a.signExtend t.bits * b.signExtend t.bits
        else a.setWidth t.bits * b.setWidth t.bits).setWidth 64) else none
  -- umin, smin, umax, smax (src/llvm_eval.cpp:730-753)
  | .min => int (some (if cInt t0 x ≤ cInt t0 y then a else b))
  | .max => int (some (if cInt t0 x ≥ cInt t0 y then a else b))
  | .eq => semCmp t t0 t1 (· == ·) (fEq t0) x y
  -- `fcmp one`: false if an operand is a NaN
  | .neq => semCmp t t0 t1 (· != ·) (fun x y => fLt t0 x y || fLt t0 y x) x y
  | .lt => semCmp t t0 t1 (fun a b => decide (a < b)) (fLt t0) x y
  | .le => semCmp t t0 t1 (fun a b => decide (a ≤ b)) (fLe t0) x y
  | .gt => semCmp t t0 t1 (fun a b => decide (a > b)) (fun x y => fLt t0 y x) x y
  | .ge => semCmp t t0 t1 (fun a b => decide (a ≥ b)) (fun x y => fLe t0 y x) x y
  -- and, or, xor; a mask as second operand selects or sign-extends (src/llvm_eval.cpp:895-944)
  | .and => if t0 = t1 then bitwise (a &&& b)
      else if t = t0 ∧ t1 = .bool ∧ (t0.isInt ∨ t0.isFloat) then
        some (if y.getLsbD 0 then a.setWidth 64 else 0#64)
      else none
  | .or => if t0 = t1 then bitwise (a ||| b)
      else if t = t0 ∧ t1 = .bool ∧ (t0.isInt ∨ t0.isFloat) then
        some ((a ||| (if y.getLsbD 0 then BitVec.allOnes _ else 0#_)).setWidth 64)
      else none
  | .xor => bitwise (a ^^^ b)
  -- shl, lshr, ashr: poison if the amount is not less than the width (src/llvm_eval.cpp:946-954)
  | .shl => int (if b.toNat < t0.bits then some (a <<< b.toNat) else none)
  | .shr => int (if b.toNat < t0.bits then
      some (if t0.isSint then a.sshiftRight b.toNat else a >>> b.toNat) else none)
  | _ => none

/-- Semantics of ternary nodes. -/
def sem3 (k : Kind) (t t0 t1 t2 : VType) (x y z : BitVec 64) : Option (BitVec 64) :=
  match k with
  -- mul, add (src/llvm_eval.cpp:716-728)
  | .fma => if t = t0 ∧ t0 = t1 ∧ t0 = t2 ∧ t0.isInt then
      some ((x.setWidth t0.bits * y.setWidth t0.bits + z.setWidth t0.bits).setWidth 64) else none
  -- select (src/llvm_eval.cpp:868-870)
  | .select => if t0 = .bool ∧ t = t1 ∧ t1 = t2 then
      some (if x.getLsbD 0 then norm t1 y else norm t1 z) else none
  | _ => none

/-- The value of variable `i` in thread `l`.  Evaluated variables are read from memory, where
variables of size 1 are broadcast; a counter is the thread index.  The default mask compares the
thread index with the size of the launch (src/llvm_eval.cpp:1100-1106), hence it is set in every
thread; SIMD lanes beyond the last thread are not modelled.  A gather reads entry `x` of the array
at the address given by its first operand if its mask is set, and is zero otherwise
(src/llvm_eval.cpp:1007-1027). -/
inductive Val (s : Store) : Nat → Nat → BitVec 64 → Prop
  | literal {i l : Nat} : (s.vars i).kind = .literal → Val s i l (norm (s.vars i).type (s.vars i).literal)
  | evaluated {i l : Nat} : (s.vars i).kind = .evaluated →
      Val s i l (norm (s.vars i).type
        (s.mem (s.vars i).literal (if (s.vars i).size = 1 then 0 else l)))
  | counter {i l : Nat} : (s.vars i).kind = .counter → Val s i l (norm (s.vars i).type (BitVec.ofNat 64 l))
  | defaultMask {i l : Nat} : (s.vars i).kind = .defaultMask → Val s i l (norm (s.vars i).type 1#64)
  | gatherOff {i l : Nat} {m : BitVec 64} : (s.vars i).kind = .gather → (s.vars i).writePtr = false →
      (s.vars i).d2 ≠ 0 → Val s (s.vars i).d2 l m → m.getLsbD 0 = false → Val s i l 0#64
  | gatherOn {i l : Nat} {x m : BitVec 64} : (s.vars i).kind = .gather → (s.vars i).writePtr = false →
      (s.vars i).d0 ≠ 0 → (s.vars i).d1 ≠ 0 → (s.vars i).d2 ≠ 0 →
      (s.vars (s.vars i).d0).kind = .literal → Val s (s.vars i).d1 l x → Val s (s.vars i).d2 l m →
      m.getLsbD 0 = true →
      Val s i l (norm (s.vars i).type (s.mem (s.vars (s.vars i).d0).literal x.toNat))
  | node1 {i l : Nat} {x z : BitVec 64} : (s.vars i).writePtr = false → (s.vars i).d0 ≠ 0 →
      Val s (s.vars i).d0 l x →
      sem1 (s.vars i).kind (s.vars i).type (s.vars (s.vars i).d0).type x = some z → Val s i l z
  | node2 {i l : Nat} {x y z : BitVec 64} : (s.vars i).writePtr = false → (s.vars i).d0 ≠ 0 →
      (s.vars i).d1 ≠ 0 → Val s (s.vars i).d0 l x → Val s (s.vars i).d1 l y →
      sem2 (s.vars i).kind (s.vars i).type (s.vars (s.vars i).d0).type
        (s.vars (s.vars i).d1).type x y = some z → Val s i l z
  | node3 {i l : Nat} {x y w z : BitVec 64} : (s.vars i).writePtr = false → (s.vars i).d0 ≠ 0 →
      (s.vars i).d1 ≠ 0 → (s.vars i).d2 ≠ 0 → Val s (s.vars i).d0 l x → Val s (s.vars i).d1 l y →
      Val s (s.vars i).d2 l w →
      sem3 (s.vars i).kind (s.vars i).type (s.vars (s.vars i).d0).type
        (s.vars (s.vars i).d1).type (s.vars (s.vars i).d2).type x y w = some z → Val s i l z

/-- The operations. -/
inductive Op1 where
  | neg | not | abs | popc | clz | ctz | brev
  | cast (target : VType) (reinterpret : Bool)
deriving Repr, DecidableEq
@[inherit_doc Op1] inductive Op2 where
  | add | sub | mul | div | mod | mulHi | mulWide | min | max | eq | neq | lt | le | gt | ge
  | and | or | xor | shl | shr
deriving Repr, DecidableEq
@[inherit_doc Op1] inductive Op3 where
  | fma | select
deriving Repr, DecidableEq

/-- The API functions `jit_var_<op>()`. -/
def Op1.run (ev : M Unit) : Op1 → Nat → M Nat
  | .neg => varNeg ev | .not => varNot ev | .abs => varAbs ev | .popc => varPopc ev
  | .clz => varClz ev | .ctz => varCtz ev | .brev => varBrev ev
  | .cast t r => fun a => varCast ev a t r
@[inherit_doc Op1.run] def Op2.run (ev : M Unit) : Op2 → Nat → Nat → M Nat
  | .add => varAdd ev | .sub => varSub ev | .mul => varMul ev | .div => varDiv ev
  | .mod => varMod ev | .mulHi => varMulHi ev | .mulWide => varMulWide ev | .min => varMin ev
  | .max => varMax ev | .eq => varEq ev | .neq => varNeq ev | .lt => varLt ev | .le => varLe ev
  | .gt => varGt ev | .ge => varGe ev | .and => varAnd ev | .or => varOr ev | .xor => varXor ev
  | .shl => varShl ev | .shr => varShr ev
@[inherit_doc Op1.run] def Op3.run (ev : M Unit) : Op3 → Nat → Nat → Nat → M Nat
  | .fma => varFma ev | .select => varSelect ev

/-- The node that represents the operation when nothing is simplified. -/
def Op1.kind : Op1 → Kind
  | .neg => .neg | .not => .not | .abs => .abs | .popc => .popc | .clz => .clz | .ctz => .ctz
  | .brev => .brev | .cast _ r => if r then .bitcast else .cast
@[inherit_doc Op1.kind] def Op2.kind : Op2 → Kind
  | .add => .add | .sub => .sub | .mul => .mul | .div => .div | .mod => .mod | .mulHi => .mulHi
  | .mulWide => .mulWide | .min => .min | .max => .max | .eq => .eq | .neq => .neq | .lt => .lt
  | .le => .le | .gt => .gt | .ge => .ge | .and => .and | .or => .or | .xor => .xor
  | .shl => .shl | .shr => .shr
@[inherit_doc Op1.kind] def Op3.kind : Op3 → Kind
  | .fma => .fma | .select => .select

/-- Type of the result. -/
def Op1.resultType : Op1 → VType → VType
  | .cast t _ => fun _ => t
  | _ => id
@[inherit_doc Op1.resultType] def Op2.resultType : Op2 → VType → VType
  | .eq | .neq | .lt | .le | .gt | .ge => fun _ => .bool
  | .mulWide => fun t => (wideType t).getD t
  | _ => id
@[inherit_doc Op1.resultType] def Op3.resultType : Op3 → VType → VType → VType
  | .fma => fun t _ => t
  | .select => fun _ t => t

/-- A literal stores no bits besides those of its type. -/
def LitOK (v : Var) : Prop := v.kind = .literal → norm v.type v.literal = v.literal

/-- An operand: the caller holds a reference, it is not empty, no write to it is pending, and it
is well-formed. -/
structure Operand (s : Store) (u : Nat → Nat) (a : Nat) : Prop where
  held : 0 < u a
  sized : 0 < (s.vars a).size
  clean : (s.vars a).isDirty = false
  lit : LitOK (s.vars a)

/-- Writes are only ever pending on evaluated variables. -/
def WritesOK (s : Store) : Prop :=
  ∀ i, Live s i → (s.vars i).isDirty = true → (s.vars i).kind = .evaluated

/-- Operand types of the operations that the properties are about: integers; booleans and floating
point numbers where the operation only moves, masks or compares them.  (`neq` of floating point
numbers is treated separately.) -/
def Op1.accepts : Op1 → VType → Prop
  | .not => fun t => t.isInt = true ∨ t.isFloat = true ∨ t = .bool
  | .cast t' true => fun t => t ≠ .void ∧ t.bits = t'.bits
  | .cast t' false => fun t => (t.isInt = true ∨ t = .bool) ∧ (t'.isInt = true ∨ t' = .bool)
  | _ => fun t => t.isInt = true
@[inherit_doc Op1.accepts] def Op2.accepts : Op2 → VType → VType → Prop
  | .eq | .lt | .le | .gt | .ge | .xor => fun t t1 =>
      t1 = t ∧ (t.isInt = true ∨ t.isFloat = true ∨ t = .bool)
  | .neq => fun t t1 => t1 = t ∧ (t.isInt = true ∨ t = .bool)
  | .and | .or => fun t t1 => (t1 = t ∨ t1 = .bool) ∧ (t.isInt = true ∨ t.isFloat = true ∨ t = .bool)
  | .mulWide => fun t t1 => t1 = t ∧ (t = .i32 ∨ t = .u32)
  | _ => fun t t1 => t1 = t ∧ t.isInt = true
@[inherit_doc Op1.accepts] def Op3.accepts : Op3 → VType → VType → VType → Prop
  | .fma => fun t t1 t2 => t1 = t ∧ t2 = t ∧ t.isInt = true
  | .select => fun t t1 t2 => t = .bool ∧ t2 = t1 ∧ t1 ≠ .void

/-- The call turned `s` into `s'` and returned a variable `r` of type `t` with `n` entries that
has exactly the value `z` in thread `l` whenever `V l z`; the variables to which the caller (who
held the references `u`) has access keep their type and their values. -/
structure Computes (s : Store) (u : Nat → Nat) (s' : Store) (r : Nat) (t : VType) (n : Nat)
    (V : Nat → BitVec 64 → Prop) : Prop where
  live : Live s' r
  type : (s'.vars r).type = t
  size : (s'.vars r).size = n
  value : ∀ l z, V l z → ∀ x, Val s' r l x ↔ x = z
  operand : ∀ l, Operand s' l r ↔ 0 < l r
  held : ∀ i, 0 < u i → Live s' i ∧ (s'.vars i).type = (s.vars i).type ∧
    ∀ l x, Val s i l x → Val s' i l x

/-- A call of an operation. -/
inductive OpCall where
  | op1 (op : Op1) (a0 : Nat)
  | op2 (op : Op2) (a0 a1 : Nat)
  | op3 (op : Op3) (a0 a1 a2 : Nat)

def OpCall.exec (ev : M Unit) : OpCall → M Nat
  | .op1 op a0 => op.run ev a0
  | .op2 op a0 a1 => op.run ev a0 a1
  | .op3 op a0 a1 a2 => op.run ev a0 a1 a2

/-- Admissible operands. -/
def OpCall.Valid (s : Store) (u : Nat → Nat) : OpCall → Prop
  | .op1 op a0 => Operand s u a0 ∧ op.accepts (s.vars a0).type
  | .op2 op a0 a1 => Operand s u a0 ∧ Operand s u a1 ∧ op.accepts (s.vars a0).type (s.vars a1).type
  | .op3 op a0 a1 a2 => Operand s u a0 ∧ Operand s u a1 ∧ Operand s u a2 ∧
      op.accepts (s.vars a0).type (s.vars a1).type (s.vars a2).type

/-- States reached by any sequence of operations and of the calls of `Verif.Var.Call`. -/
inductive OReachable (ev : M Unit) : Store → (Nat → Nat) → Prop
  | init {s : Store} {u : Nat → Nat} : Reachable ev s u → OReachable ev s u
  | call {s s' : Store} {u u' : Nat → Nat} : OReachable ev s u → Step ev s u s' u' →
      OReachable ev s' u'
  | op {s s' : Store} {u : Nat → Nat} {c : OpCall} {r : Nat} : OReachable ev s u → WritesOK s →
      c.Valid s u → c.exec ev s = .ok r s' → OReachable ev s' (fun k => u k + if k = r then 1 else 0)

end Verif.Ops
