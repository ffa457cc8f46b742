import Verif.Var.Model
/-!
# Model of the arithmetic operations (`src/op.cpp`)

Every function checks its operands, tries to simplify the expression, and otherwise creates a
node.  Type and backend checks are compiled out of release builds and are not modelled.  Logging is
omitted.  Arithmetic on floating point literals is not modelled (`FoldRes.unmodelled`); comparisons
and bit-level operations on them are.
-/
namespace Verif.Ops
open Verif.Var

/-! ## Types -/

/-- `jitc_is_uint()` (src/internal.h:1439-1444). -/
def _root_.Verif.Var.VType.isUint : VType → Bool
  | .u8 | .u16 | .u32 | .u64 => true
  | _ => false

/-- `jitc_is_sint()` (src/internal.h:1432-1437). -/
def _root_.Verif.Var.VType.isSint : VType → Bool
  | .i8 | .i16 | .i32 | .i64 => true
  | _ => false

/-- `jitc_is_int()` (src/internal.h:1446-1448). -/
def _root_.Verif.Var.VType.isInt (t : VType) : Bool := t.isSint || t.isUint

/-- `jitc_is_float()` (src/internal.h:1410-1414). -/
def _root_.Verif.Var.VType.isFloat : VType → Bool
  | .f16 | .f32 | .f64 => true
  | _ => false

/-- Number of bits of a value of the given type; a Boolean is an `i1` in generated code. -/
def _root_.Verif.Var.VType.bits : VType → Nat
  | .void => 0 | .bool => 1 | .i8 => 8 | .u8 => 8 | .i16 => 16 | .u16 => 16 | .i32 => 32
  | .u32 => 32 | .i64 => 64 | .u64 => 64 | .pointer => 64 | .f16 => 16 | .f32 => 32 | .f64 => 64

/-- The literal one (src/internal.h:1488-1501). -/
def oneBits : VType → BitVec 64
  | .f16 => 0x3c00#64
  | .f32 => 0x3f800000#64
  | .f64 => 0x3ff0000000000000#64
  | _ => 1#64

/-- `type_min[]` (src/var.cpp:154-158). -/
def typeMin : VType → BitVec 64
  | .i8 => 0x80#64 | .i16 => 0x8000#64 | .i32 => 0x80000000#64 | .i64 => 0x8000000000000000#64
  | .f16 => 0xfc00#64 | .f32 => 0xff800000#64 | .f64 => 0xfff0000000000000#64
  | _ => 0#64

/-- `type_max[]` (src/var.cpp:161-165). -/
def typeMax : VType → BitVec 64
  | .void => 0#64 | .bool => 1#64
  | .i8 => 0x7f#64 | .u8 => 0xff#64 | .i16 => 0x7fff#64 | .u16 => 0xffff#64
  | .i32 => 0x7fffffff#64 | .u32 => 0xffffffff#64 | .i64 => 0x7fffffffffffffff#64
  | .u64 => 0xffffffffffffffff#64 | .pointer => 0xffffffffffffffff#64
  | .f16 => 0x7c00#64 | .f32 => 0x7f800000#64 | .f64 => 0x7ff0000000000000#64

/-- `jitc_is_zero()` (src/internal.h:1475). -/
def isZero (v : Var) : Bool := v.isLiteral && v.literal == 0#64

/-- `jitc_is_any_zero()` (src/internal.h:1476-1486), without cooperative vectors. -/
def isAnyZero (v : Var) : Bool := v.isLiteral &&
  (match v.type with
   | .f16 => v.literal == 0x8000#64 || v.literal == 0#64
   | .f32 => v.literal == 0x80000000#64 || v.literal == 0#64
   | .f64 => v.literal == 0x8000000000000000#64 || v.literal == 0#64
   | _ => v.literal == 0#64)

/-- `jitc_is_one()` (src/internal.h:1488-1501), without cooperative vectors. -/
def isOne (v : Var) : Bool := v.isLiteral && v.literal == oneBits v.type

/-- `jitc_is_max()`, `jitc_is_min()` (src/var.cpp:167-173). -/
def isMax (v : Var) : Bool := v.isLiteral && v.literal == typeMax v.type
@[inherit_doc isMax] def isMin (v : Var) : Bool := v.isLiteral && v.literal == typeMin v.type

/-- `jitc_is_pow2()` (src/op.cpp:364-366). -/
def isPow2 (x : BitVec 64) : Bool := x != 0#64 && (x &&& (x - 1#64)) == 0#64

/-! ## Operand checks -/

/-- `struct OpInfo` (src/op.cpp:33-51). -/
structure OpInfo where
  backend : Nat := 0
  type : VType := .void
  size : Nat := 0
  simplify : Bool := false
  literal : Bool := true
  symbolic : Bool := false
deriving Repr, DecidableEq

/-- The loop of `jitc_var_check_impl()` over the operands (src/op.cpp:95-181). -/
def checkLoop : List Nat → OpInfo → M OpInfo
  | [], i => pure i
  | d :: l, i =>
    if d = 0 then checkLoop l i
    else do
      let v ← getVar d
      if v.consumed then raise
      else checkLoop l (
        { backend := v.backend
          type := if i.type = .void then v.type else i.type
          size := max i.size v.size
          simplify := i.simplify || v.isLiteral
          literal := i.literal && v.isLiteral
          symbolic := i.symbolic || v.symbolic } : OpInfo)

/-- `dep[0] == dep[1]` for binary operations (src/op.cpp:185-186). -/
def sameDeps : List Nat → Bool
  | [a, b] => a == b
  | _ => false

/-- `jitc_var_check()` (src/op.cpp:77-239). -/
def varCheck (deps : List Nat) : M OpInfo := do
  let i ← checkLoop deps {}
  let s ← getStore
  if i.size > 0 then
    if deps.any (fun d =>
        let vs := if d = 0 then 0 else (s.vars d).size
        vs ≠ i.size && vs ≠ 1) then raise
    else pure { i with simplify := (i.simplify || sameDeps deps) && s.constProp }
  else pure i

/-! ## Constant folding -/

/-- Result of evaluating an operation on literals at compile time: a value, undefined behaviour
of the C++ expression, `jitc_fail()`, or floating point arithmetic. -/
inductive FoldRes where
  | val (x : BitVec 64)
  | ub
  | fail
  | unmodelled
deriving Repr, DecidableEq

/-- `jitc_eval_literal()` (src/op.cpp:270-298): store the folded value as a literal. -/
def evalLiteral (info : OpInfo) : FoldRes → M Nat
  | .val x => varLiteral info.backend info.type x info.size
  | .ub => stop .ub
  | .fail => abort
  | .unmodelled => stop .unmodelled

/-- The number that `i2v<T>()` (src/op.cpp:248-253) reads from a 64-bit container, for integers. -/
def cInt (t : VType) (x : BitVec 64) : Int :=
  if t.isSint then (x.setWidth t.bits).toInt else (x.setWidth t.bits).toNat

/-- `i2v<bool>()`: reading a byte other than 0 and 1 as a `bool` is undefined. -/
def cBool (x : BitVec 64) : Option Bool :=
  if x.setWidth 8 = 0#8 then some false else if x.setWidth 8 = 1#8 then some true else none

/-- Integral promotion (C++17 [conv.prom]): width and signedness of the type in which `T op T` is
computed. -/
def promBits (t : VType) : Nat := if t.bits < 32 then 32 else t.bits
@[inherit_doc promBits] def promSigned (t : VType) : Bool := t.isSint || decide (t.bits < 32)

/-- The result of an arithmetic operation in the promoted type: overflow is undefined
if this type is signed. -/
def cArith (t : VType) (r : Int) : FoldRes :=
  if promSigned t = true ∧ (r < -2 ^ (promBits t - 1) ∨ r ≥ 2 ^ (promBits t - 1)) then .ub
  else .val (BitVec.ofInt 64 r)

def ofBool (b : Bool) : BitVec 64 := if b then 1#64 else 0#64

/-- Lift a function on Booleans. -/
def foldBool2 (f : Bool → Bool → Bool) (x y : BitVec 64) : FoldRes :=
  match cBool x, cBool y with
  | some a, some b => .val (ofBool (f a b))
  | _, _ => .ub

/-- Lift an arithmetic operation that is not defined on Booleans. -/
def foldInt2 (t : VType) (f : Int → Int → Int) (x y : BitVec 64) : FoldRes :=
  if t.isInt then cArith t (f (cInt t x) (cInt t y))
  else if t.isFloat then .unmodelled
  else if t = .bool then
    match cBool x, cBool y with
    | some a, some b => cArith .bool (f (if a then 1 else 0) (if b then 1 else 0))
    | _, _ => .ub
  else .fail

/-! ### IEEE 754 comparisons -/

/-- Number of mantissa bits. -/
def mantBits : VType → Nat
  | .f16 => 10 | .f32 => 23 | _ => 52

/-- Magnitude bits and sign bit of a floating point number. -/
def fMag (t : VType) (x : BitVec 64) : Nat := x.toNat % 2 ^ (t.bits - 1)
@[inherit_doc fMag] def fNeg (t : VType) (x : BitVec 64) : Bool := x.toNat / 2 ^ (t.bits - 1) % 2 == 1

/-- The exponent is maximal and the mantissa is not zero. -/
def fNan (t : VType) (x : BitVec 64) : Bool :=
  fMag t x > (2 ^ (t.bits - 1 - mantBits t) - 1) * 2 ^ mantBits t

/-- Position of a number in the order of the floating point numbers (both zeros at 0). -/
def fKey (t : VType) (x : BitVec 64) : Int := if fNeg t x then -(fMag t x : Int) else fMag t x

/-- The C++ comparison operators and the ordered comparisons of LLVM. -/
def fEq (t : VType) (x y : BitVec 64) : Bool := !fNan t x && !fNan t y && fKey t x == fKey t y
@[inherit_doc fEq] def fLt (t : VType) (x y : BitVec 64) : Bool :=
  !fNan t x && !fNan t y && decide (fKey t x < fKey t y)
@[inherit_doc fEq] def fLe (t : VType) (x y : BitVec 64) : Bool :=
  !fNan t x && !fNan t y && decide (fKey t x ≤ fKey t y)

/-- Fold a comparison; `fi` on integers, `ff` on floating point numbers. -/
def foldCmp (t : VType) (fi : Int → Int → Bool) (ff : BitVec 64 → BitVec 64 → Bool)
    (x y : BitVec 64) : FoldRes :=
  if t.isInt then .val (ofBool (fi (cInt t x) (cInt t y)))
  else if t.isFloat then .val (ofBool (ff x y))
  else if t = .bool then
    match cBool x, cBool y with
    | some a, some b => .val (ofBool (fi (if a then 1 else 0) (if b then 1 else 0)))
    | _, _ => .ub
  else .fail

/-- Fold a bitwise operation (`eval_and`, `eval_or`, `eval_xor`, src/op.cpp:1448-1558). -/
def foldBits (t : VType) (fb : Bool → Bool → Bool) (f : BitVec 64 → BitVec 64 → BitVec 64)
    (x y : BitVec 64) : FoldRes :=
  if t = .bool then foldBool2 fb x y
  else if t.isInt || t.isFloat then .val (f x y)
  else .fail

/-- `eval_div()` (src/op.cpp:595-609); division truncates towards zero. -/
def evalDiv (t : VType) (x y : BitVec 64) : FoldRes :=
  if t.isInt then
    if cInt t y = 0 then .val (BitVec.allOnes 64)
    else if t.isSint ∧ cInt t x = -2 ^ (t.bits - 1) ∧ cInt t y = -1 then
      .val (BitVec.ofInt 64 (-2 ^ (t.bits - 1)))
    else .val (BitVec.ofInt 64 ((cInt t x).tdiv (cInt t y)))
  else if t.isFloat then .unmodelled else .fail

/-- `eval_mod()` (src/op.cpp:649-663). -/
def evalMod (t : VType) (x y : BitVec 64) : FoldRes :=
  if t.isInt then
    if cInt t y = 0 then .val (BitVec.allOnes 64)
    else if t.isSint ∧ cInt t x = -2 ^ (t.bits - 1) ∧ cInt t y = -1 then .val 0#64
    else .val (BitVec.ofInt 64 ((cInt t x).tmod (cInt t y)))
  else .fail

/-- `eval_mul_hi()` (src/op.cpp:691-712): the double-width product shifted right. -/
def evalMulHi (t : VType) (x y : BitVec 64) : FoldRes :=
  if t.isInt ∧ (t.bits = 32 ∨ t.bits = 64) then
    .val (BitVec.ofInt 64 ((cInt t x * cInt t y) >>> t.bits))
  else .fail

/-- `eval_shl()` (src/op.cpp:1562-1566): shift of the unsigned counterpart, whose promotion
has `promBits` bits. -/
def evalShl (t : VType) (x y : BitVec 64) : FoldRes :=
  if t.isInt then
    if (y.setWidth t.bits).toNat ≥ promBits t then .ub
    else .val (x <<< (y.setWidth t.bits).toNat)
  else .fail

/-- `eval_shr()` (src/op.cpp:1592-1593). -/
def evalShr (t : VType) (x y : BitVec 64) : FoldRes :=
  if t.isInt then
    if cInt t y < 0 ∨ cInt t y ≥ promBits t then .ub
    else .val (BitVec.ofInt 64 (cInt t x >>> (cInt t y).toNat))
  else .fail

/-- `eval_neg()` (src/op.cpp:396-402); the unsigned version converts to the signed type first. -/
def evalNeg (t : VType) (x : BitVec 64) : FoldRes :=
  if t.isInt then
    (if promBits t = t.bits ∧ (x.setWidth t.bits).toInt = -2 ^ (t.bits - 1) then .ub
     else .val (BitVec.ofInt 64 (-(x.setWidth t.bits).toInt)))
  else if t.isFloat then .unmodelled else .fail

/-- `eval_not()` (src/op.cpp:425-430). -/
def evalNot (t : VType) (x : BitVec 64) : FoldRes :=
  if t = .bool then
    match cBool x with
    | some b => .val (ofBool (!b))
    | none => .ub
  else if t.isInt || t.isFloat then .val (~~~ x)
  else .fail

/-- `eval_abs()` (src/op.cpp:479-483); `std::abs()` of the smallest `int`/`long` is undefined. -/
def evalAbs (t : VType) (x : BitVec 64) : FoldRes :=
  if t.isSint then
    (if promBits t = t.bits ∧ cInt t x = -2 ^ (t.bits - 1) then .ub
     else .val (BitVec.ofInt 64 (cInt t x).natAbs))
  else if t.isUint then .val x
  else if t.isFloat then .unmodelled
  else if t = .bool then .val x
  else .fail

/-- The loop of `eval_popc()` (src/op.cpp:1328-1332). -/
def popcLoop : Nat → Nat → Nat → Nat
  | 0, _, r => r
  | n + 1, v, r => if v = 0 then r else popcLoop n (v / 2) (r + v % 2)

/-- The loop of `eval_clz()` (src/op.cpp:1363-1366). -/
def clzLoop : Nat → Nat → Nat → Nat
  | 0, _, r => r
  | n + 1, v, r => if v = 0 then r else clzLoop n (v / 2) (r - 1)

/-- The loop of `eval_ctz()` (src/op.cpp:1428-1431) on `w` bits. -/
def ctzLoop (w : Nat) : Nat → Nat → Nat → Nat
  | 0, _, r => r
  | n + 1, v, r => if v = 0 then r else ctzLoop w n (v * 2 % 2 ^ w) (r - 1)

/-- The loop of `eval_brev()` (src/op.cpp:1395-1398) on `w` bits. -/
def brevLoop (w : Nat) : Nat → Nat → Nat → Nat
  | 0, _, r => r
  | n + 1, v, r => brevLoop w n (v / 2) (r * 2 % 2 ^ w + v % 2)

/-- `eval_popc`, `eval_clz`, `eval_ctz`, `eval_brev` (src/op.cpp:1319-1433); each loop ends
after at most `bits` iterations. -/
def evalPopc (t : VType) (x : BitVec 64) : FoldRes :=
  if t.isInt then .val (BitVec.ofNat 64 (popcLoop t.bits (x.setWidth t.bits).toNat 0)) else .fail
@[inherit_doc evalPopc] def evalClz (t : VType) (x : BitVec 64) : FoldRes :=
  if t.isInt then .val (BitVec.ofNat 64 (clzLoop t.bits (x.setWidth t.bits).toNat t.bits)) else .fail
@[inherit_doc evalPopc] def evalCtz (t : VType) (x : BitVec 64) : FoldRes :=
  if t.isInt then .val (BitVec.ofNat 64 (ctzLoop t.bits t.bits (x.setWidth t.bits).toNat t.bits))
  else .fail
@[inherit_doc evalPopc] def evalBrev (t : VType) (x : BitVec 64) : FoldRes :=
  if t.isInt then .val (BitVec.ofNat 64 (brevLoop t.bits t.bits (x.setWidth t.bits).toNat 0))
  else .fail

/-- `eval_fma()` (src/op.cpp:779-787) on integers: `a * b + c` in the promoted type. -/
def evalFma (t : VType) (x y z : BitVec 64) : FoldRes :=
  if t.isInt then
    match cArith t (cInt t x * cInt t y) with
    | .val _ =>
      if promSigned t then cArith t (cInt t x * cInt t y + cInt t z)
      else .val (BitVec.ofInt 64 (cInt t x * cInt t y + cInt t z))
    | r => r
  else if t.isFloat then .unmodelled else .fail

/-- `eval_min()`, `eval_max()` (src/op.cpp:834-835). -/
def evalMin (t : VType) (x y : BitVec 64) : FoldRes :=
  if t.isInt then .val (if cInt t x < cInt t y then x else y)
  else if t.isFloat then .val (if fLt t x y || fNan t x then x else y)
  else if t = .bool then foldBool2 (· && ·) x y else .fail
@[inherit_doc evalMin] def evalMax (t : VType) (x y : BitVec 64) : FoldRes :=
  if t.isInt then .val (if cInt t x > cInt t y then x else y)
  else if t.isFloat then .val (if fLt t y x || fNan t x then x else y)
  else if t = .bool then foldBool2 (· || ·) x y else .fail

/-- The conversions in `jitc_var_cast()` (src/op.cpp:1853-1870) from `t` to `t'`, for integers and
Booleans. -/
def evalCast (t t' : VType) (x : BitVec 64) : FoldRes :=
  if t.isFloat || t'.isFloat then .unmodelled
  else if t.isInt then
    if t' = .bool then .val (ofBool (cInt t x != 0))
    else if t'.isInt then .val ((BitVec.ofInt t'.bits (cInt t x)).setWidth 64)
    else .fail
  else if t = .bool then
    match cBool x with
    | some b => if t'.isInt then .val (ofBool b) else .fail
    | none => .ub
  else .fail

/-! ## Operations -/

variable (ev : M Unit)

/-- `needs_f32_upcast()` (src/op.cpp:304-318) on other platforms than ARM; backend 2 is LLVM. -/
def needsF32Upcast (info : OpInfo) (k : Kind) : Bool :=
  info.backend == 2 && info.type == .f16 && (k == .fma || k == .min || k == .max)

/-- The common end of unary operations: create a node unless a simplification applied. -/
def finish1 (info : OpInfo) (k : Kind) (a0 : Nat) (result : Nat) : M Nat :=
  if result ≠ 0 ∨ info.size = 0 then pure result
  else if needsF32Upcast info k then stop .unmodelled
  else newNode1 ev info.backend k info.type info.size info.symbolic a0 0#64

/-- The common end of binary operations. -/
def finish2 (info : OpInfo) (k : Kind) (a0 a1 : Nat) (result : Nat) : M Nat :=
  if result ≠ 0 ∨ info.size = 0 then pure result
  else if needsF32Upcast info k then stop .unmodelled
  else newNode2 ev info.backend k info.type info.size info.symbolic a0 a1 0#64

/-- The common end of ternary operations. -/
def finish3 (info : OpInfo) (k : Kind) (a0 a1 a2 : Nat) (result : Nat) : M Nat :=
  if result ≠ 0 ∨ info.size = 0 then pure result
  else if needsF32Upcast info k then stop .unmodelled
  else newNode3 ev info.backend k info.type info.size info.symbolic a0 a1 a2 0#64

/-- `jitc_make_zero()`, `jitc_make_true()` (src/op.cpp:350-358). -/
def makeZero (info : OpInfo) : M Nat := varLiteral info.backend info.type 0#64 info.size
@[inherit_doc makeZero] def makeTrue (info : OpInfo) : M Nat :=
  varLiteral info.backend .bool 1#64 info.size

/-- Unary operations that only fold literals. -/
def unary (k : Kind) (f : VType → BitVec 64 → FoldRes) (a0 : Nat) : M Nat := do
  let info ← varCheck [a0]
  let s ← getStore
  let r ← if info.simplify && info.literal then
      evalLiteral info (f (s.vars a0).type (s.vars a0).literal)
    else pure 0
  finish1 ev info k a0 r

/-- `jitc_var_neg()` (src/op.cpp:404-422). -/
def varNeg (a0 : Nat) : M Nat := unary ev .neg evalNeg a0
/-- `jitc_var_not()` (src/op.cpp:432-450). -/
def varNot (a0 : Nat) : M Nat := unary ev .not evalNot a0
/-- `jitc_var_popc()` (src/op.cpp:1337-1350). -/
def varPopc (a0 : Nat) : M Nat := unary ev .popc evalPopc a0
/-- `jitc_var_clz()` (src/op.cpp:1370-1383). -/
def varClz (a0 : Nat) : M Nat := unary ev .clz evalClz a0
/-- `jitc_var_brev()` (src/op.cpp:1403-1416). -/
def varBrev (a0 : Nat) : M Nat := unary ev .brev evalBrev a0
/-- `jitc_var_ctz()` (src/op.cpp:1435-1448). -/
def varCtz (a0 : Nat) : M Nat := unary ev .ctz evalCtz a0

/-- `jitc_var_abs()` (src/op.cpp:485-505). -/
def varAbs (a0 : Nat) : M Nat := do
  let info ← varCheck [a0]
  let s ← getStore
  let r ← if info.simplify && info.literal then
      evalLiteral info (evalAbs (s.vars a0).type (s.vars a0).literal)
    else pure 0
  let r ← if r = 0 ∧ info.type.isUint = true then (do incRef a0; pure a0) else pure r
  finish1 ev info .abs a0 r

/-- A binary operation: `simp` is the chain of simplifications tried when not all operands
are literals, `f` folds literals, `rt` adjusts the result type. -/
def binary (k : Kind) (rt : VType → VType) (f : VType → BitVec 64 → BitVec 64 → FoldRes)
    (simp : OpInfo → Var → Var → Store → Option (M Nat)) (a0 a1 : Nat) : M Nat := do
  let info ← varCheck [a0, a1]
  let info := { info with type := rt info.type }
  let s ← getStore
  let r ← if info.simplify then
      if info.literal then
        evalLiteral info (f (s.vars a0).type (s.vars a0).literal (s.vars a1).literal)
      else match simp info (s.vars a0) (s.vars a1) s with
        | some m => m
        | none => pure 0
    else pure 0
  finish2 ev info k a0 a1 r

/-- `jitc_var_add()` (src/op.cpp:509-531). -/
def varAdd (a0 a1 : Nat) : M Nat :=
  binary ev .add id (fun t => foldInt2 t (· + ·)) (fun info v0 v1 _ =>
    if isAnyZero v0 then some (varResize ev a1 info.size)
    else if isAnyZero v1 then some (varResize ev a0 info.size)
    else none) a0 a1

/-- `jitc_var_sub()` (src/op.cpp:535-557). -/
def varSub (a0 a1 : Nat) : M Nat :=
  binary ev .sub id (fun t => foldInt2 t (· - ·)) (fun info v0 v1 _ =>
    if isAnyZero v1 then some (varResize ev a0 info.size)
    else if a0 = a1 ∧ v0.type.isFloat = false then some (makeZero info)
    else none) a0 a1

/-- `jitc_var_shl()` (src/op.cpp:1571-1589). -/
def varShl (a0 a1 : Nat) : M Nat :=
  binary ev .shl id evalShl (fun info v0 v1 _ =>
    if isZero v0 || isZero v1 then some (varResize ev a0 info.size) else none) a0 a1

/-- `jitc_var_shr()` (src/op.cpp:1598-1616). -/
def varShr (a0 a1 : Nat) : M Nat :=
  binary ev .shr id evalShr (fun info v0 v1 _ =>
    if isZero v0 || isZero v1 then some (varResize ev a0 info.size) else none) a0 a1

/-- `jitc_var_shift<Shl>()` (src/op.cpp:381-387): shift by the position of the leading bit of
`amount`. -/
def varShift (shl : Bool) (info : OpInfo) (i : Nat) (amount : BitVec 64) : M Nat := do
  let shift ← varLiteral info.backend info.type (BitVec.ofNat 64 (Nat.log2 amount.toNat)) info.size
  let r ← if shl then varShl ev i shift else varShr ev i shift
  decRef shift
  pure r

/-- `jitc_var_mul()` (src/op.cpp:561-592). -/
def varMul (a0 a1 : Nat) : M Nat :=
  binary ev .mul id (fun t => foldInt2 t (· * ·)) (fun info v0 v1 s =>
    if isOne v0 || (isAnyZero v1 && (v0.type.isInt || s.fastMath)) then
      some (varResize ev a1 info.size)
    else if isOne v1 || (isAnyZero v0 && (v0.type.isInt || s.fastMath)) then
      some (varResize ev a0 info.size)
    else if info.type.isUint && v0.isLiteral && isPow2 v0.literal then
      some (varShift ev true info a1 v0.literal)
    else if info.type.isUint && v1.isLiteral && isPow2 v1.literal then
      some (varShift ev true info a0 v1.literal)
    else none) a0 a1

/-- `jitc_var_div()` (src/op.cpp:613-645).  Division of single and double precision values by a
literal (multiplication by the reciprocal) and the approximate division of the GPU backends are
not modelled. -/
def varDiv (a0 a1 : Nat) : M Nat :=
  binary ev .div id evalDiv (fun info v0 v1 _ =>
    if isOne v1 then some (varResize ev a0 info.size)
    else if info.type.isUint && v1.isLiteral && isPow2 v1.literal then
      some (varShift ev false info a0 v1.literal)
    else if info.type.isFloat && info.type != .f16 && v1.isLiteral then some (stop .unmodelled)
    else if a0 = a1 ∧ v0.type.isFloat = false then
      some (varLiteral info.backend info.type 1#64 info.size)
    else none) a0 a1

/-- `jitc_var_and()` (src/op.cpp:1457-1484). -/
def varAnd (a0 a1 : Nat) : M Nat := do
  let info ← varCheck [a0, a1]
  let s ← getStore
  let v0 := s.vars a0
  let v1 := s.vars a1
  if info.size ≠ 0 ∧ v0.type ≠ v1.type ∧ v1.type ≠ .bool then raise
  else do
    let r ← if info.simplify then
        if info.literal ∧ v0.type = v1.type then
          evalLiteral info (foldBits v0.type (· && ·) (· &&& ·) v0.literal v1.literal)
        else if isZero v0 || isZero v1 then makeZero info
        else if (isOne v1 && v1.type == .bool) || a0 == a1 then varResize ev a0 info.size
        else if isOne v0 && v0.type == .bool then varResize ev a1 info.size
        else pure 0
      else pure 0
    finish2 ev info .and a0 a1 r

/-- `jitc_var_or()` (src/op.cpp:1495-1522). -/
def varOr (a0 a1 : Nat) : M Nat := do
  let info ← varCheck [a0, a1]
  let s ← getStore
  let v0 := s.vars a0
  let v1 := s.vars a1
  if info.size ≠ 0 ∧ v0.type ≠ v1.type ∧ v1.type ≠ .bool then raise
  else do
    let r ← if info.simplify then
        if info.literal ∧ v0.type = v1.type then
          evalLiteral info (foldBits v0.type (· || ·) (· ||| ·) v0.literal v1.literal)
        else if (v0.type == .bool && isOne v1) || (isZero v0 && v0.type == v1.type) || a0 == a1 then
          varResize ev a1 info.size
        else if (v0.type == .bool && isOne v0) || isZero v1 then varResize ev a0 info.size
        else pure 0
      else pure 0
    finish2 ev info .or a0 a1 r

/-- `jitc_var_xor()` (src/op.cpp:1533-1557). -/
def varXor (a0 a1 : Nat) : M Nat :=
  binary ev .xor id (fun t => foldBits t (· != ·) (· ^^^ ·)) (fun info v0 v1 _ =>
    if isZero v1 then some (varResize ev a0 info.size)
    else if isZero v0 then some (varResize ev a1 info.size)
    else if a0 = a1 then some (makeZero info)
    else none) a0 a1

/-- `jitc_var_mod()` (src/op.cpp:665-692).  If both operands are the index 0, `v1` is a null
pointer that is dereferenced. -/
def varMod (a0 a1 : Nat) : M Nat := do
  let info ← varCheck [a0, a1]
  let s ← getStore
  let v0 := s.vars a0
  let v1 := s.vars a1
  if info.simplify && info.literal then do
    let r ← evalLiteral info (evalMod v0.type v0.literal v1.literal)
    finish2 ev info .mod a0 a1 r
  else if info.type.isUint = false ∧ a1 = 0 then stop .ub
  else if info.type.isUint && v1.isLiteral && isPow2 v1.literal then do
    let tmp ← varLiteral info.backend info.type (v1.literal - 1#64) info.size
    let r ← varAnd ev a0 tmp
    decRef tmp
    pure r
  else if v1.isLiteral && isOne v1 then do
    let r ← varLiteral info.backend info.type 0#64 info.size
    finish2 ev info .mod a0 a1 r
  else finish2 ev info .mod a0 a1 0

/-- `jitc_var_mul_hi()` (src/op.cpp:714-738). -/
def varMulHi (a0 a1 : Nat) : M Nat :=
  binary ev .mulHi id evalMulHi (fun info v0 v1 _ =>
    if isZero v0 then some (varResize ev a0 info.size)
    else if isZero v1 then some (varResize ev a1 info.size)
    else none) a0 a1

/-- `jitc_var_cast()` (src/op.cpp:1823-1897).  The fusion of `int(floor(x))` and similar is not
modelled. -/
def varCast (a0 : Nat) (target : VType) (reinterpret : Bool) : M Nat :=
  if a0 = 0 then pure 0
  else do
    let info ← varCheck [a0]
    let s ← getStore
    let v0 := s.vars a0
    let src := v0.type
    let ssz := if src = .bool then 0 else src.bytes
    let tsz := if target = .bool then 0 else target.bytes
    if reinterpret = true ∧ ssz ≠ tsz then raise
    else do
      let re := reinterpret || (ssz == tsz && !src.isFloat && !target.isFloat)
      let info := { info with type := target }
      let r ← if src = target then (do incRef a0; pure a0)
        else if info.simplify && info.literal then
          if re then varLiteral info.backend info.type v0.literal info.size
          else evalLiteral info (evalCast src target v0.literal)
        else pure 0
      if r = 0 ∧ info.size ≠ 0 ∧ re = false ∧ src.isFloat = true ∧ target.isFloat = false then
        stop .unmodelled
      else finish1 ev info (if re then .bitcast else .cast) a0 r

/-- The wide counterpart of an integer type (src/op.cpp:745-750). -/
def wideType : VType → Option VType
  | .u32 => some .u64
  | .i32 => some .i64
  | _ => none

/-- `jitc_var_mul_wide()` (src/op.cpp:742-775). -/
def varMulWide (a0 a1 : Nat) : M Nat := do
  let info ← varCheck [a0, a1]
  let s ← getStore
  match wideType info.type with
  | none => raise
  | some t => do
    let info := { info with type := t }
    if info.simplify && info.literal then do
      let c0 ← varCast ev a0 t false
      let c1 ← varCast ev a1 t false
      let r ← varMul ev c0 c1
      decRef c1
      decRef c0
      pure r
    else do
      let r ← if info.simplify && (isZero (s.vars a0) || isZero (s.vars a1)) then makeZero info
        else pure 0
      finish2 ev info .mulWide a0 a1 r

/-- The replacement of a fused multiply-add by a simpler expression (src/op.cpp:799-820);
0 if there is none. -/
def fmaSimplify (v0 v1 v2 : Var) (fastMath : Bool) (a0 a1 a2 : Nat) : M Nat :=
  if isOne v0 then varAdd ev a1 a2
  else if isOne v1 then varAdd ev a0 a2
  else if isAnyZero v2 then varMul ev a0 a1
  else if (isAnyZero v0 && isAnyZero v1) || ((isAnyZero v0 || isAnyZero v1) && fastMath) then do
    incRef a2
    pure a2
  else pure 0

/-- `jitc_var_fma()` (src/op.cpp:789-830). -/
def varFma (a0 a1 a2 : Nat) : M Nat := do
  let info ← varCheck [a0, a1, a2]
  let s ← getStore
  let v0 := s.vars a0
  let v1 := s.vars a1
  let v2 := s.vars a2
  let r ← if info.simplify then
      if info.literal then evalLiteral info (evalFma v0.type v0.literal v1.literal v2.literal)
      else do
        let tmp ← fmaSimplify ev v0 v1 v2 s.fastMath a0 a1 a2
        if tmp ≠ 0 then do
          let r ← varResize ev tmp info.size
          decRef tmp
          pure r
        else pure 0
    else pure 0
  finish3 ev info .fma a0 a1 a2 r

/-- `jitc_var_min()` (src/op.cpp:841-869). -/
def varMin (a0 a1 : Nat) : M Nat :=
  binary ev .min id evalMin (fun info v0 v1 _ =>
    if a0 = a1 then some (varResize ev a0 info.size)
    else if isMax v0 || (!info.type.isFloat && isMin v1) then some (varResize ev a1 info.size)
    else if isMax v1 || (!info.type.isFloat && isMin v0) then some (varResize ev a0 info.size)
    else none) a0 a1

/-- `jitc_var_max()` (src/op.cpp:873-901). -/
def varMax (a0 a1 : Nat) : M Nat :=
  binary ev .max id evalMax (fun info v0 v1 _ =>
    if a0 = a1 then some (varResize ev a0 info.size)
    else if isMin v0 || (!info.type.isFloat && isMax v1) then some (varResize ev a1 info.size)
    else if isMin v1 || (!info.type.isFloat && isMax v0) then some (varResize ev a0 info.size)
    else none) a0 a1

/-- `jitc_var_eq()` (src/op.cpp:1088-1111). -/
def varEq (a0 a1 : Nat) : M Nat :=
  binary ev .eq (fun _ => .bool) (fun t => foldCmp t (· == ·) (fEq t)) (fun info v0 _ _ =>
    if a0 = a1 ∧ v0.type.isFloat = false then some (makeTrue info) else none) a0 a1

/-- `jitc_var_neq()` (src/op.cpp:1115-1138). -/
def varNeq (a0 a1 : Nat) : M Nat :=
  binary ev .neq (fun _ => .bool) (fun t => foldCmp t (· != ·) (fun x y => !fEq t x y))
    (fun info _ _ _ => if a0 = a1 then some (makeZero info) else none) a0 a1

/-- `jitc_var_lt()` (src/op.cpp:1142-1165). -/
def varLt (a0 a1 : Nat) : M Nat :=
  binary ev .lt (fun _ => .bool) (fun t => foldCmp t (fun a b => decide (a < b)) (fLt t))
    (fun info _ _ _ => if a0 = a1 then some (makeZero info) else none) a0 a1

/-- `jitc_var_le()` (src/op.cpp:1169-1192). -/
def varLe (a0 a1 : Nat) : M Nat :=
  binary ev .le (fun _ => .bool) (fun t => foldCmp t (fun a b => decide (a ≤ b)) (fLe t))
    (fun info v0 _ _ =>
      if a0 = a1 ∧ v0.type.isFloat = false then some (makeTrue info) else none) a0 a1

/-- `jitc_var_gt()` (src/op.cpp:1196-1219). -/
def varGt (a0 a1 : Nat) : M Nat :=
  binary ev .gt (fun _ => .bool)
    (fun t => foldCmp t (fun a b => decide (b < a)) (fun x y => fLt t y x))
    (fun info _ _ _ => if a0 = a1 then some (makeZero info) else none) a0 a1

/-- `jitc_var_ge()` (src/op.cpp:1223-1246). -/
def varGe (a0 a1 : Nat) : M Nat :=
  binary ev .ge (fun _ => .bool)
    (fun t => foldCmp t (fun a b => decide (b ≤ a)) (fun x y => fLe t y x))
    (fun info v0 _ _ =>
      if a0 = a1 ∧ v0.type.isFloat = false then some (makeTrue info) else none) a0 a1

/-- `jitc_var_select()` (src/op.cpp:1250-1304).  If all operands are the index 0, `v1` is a null
pointer that is dereferenced.  Array operands are not modelled. -/
def varSelect (a0 a1 a2 : Nat) : M Nat := do
  let info ← varCheck [a0, a1, a2]
  let s ← getStore
  let v0 := s.vars a0
  let v1 := s.vars a1
  let v2 := s.vars a2
  if info.size ≠ 0 ∧ (v0.type ≠ .bool ∨ v1.type ≠ v2.type ∨ v1.isArray ≠ v2.isArray) then raise
  else if a1 = 0 then stop .ub
  else do
    let info := { info with type := v1.type }
    if (info.simplify = true ∨ a1 = a2) ∧ (isOne v0 = true ∨ a1 = a2) then
      varResize ev a1 info.size
    else if info.simplify = true ∧ isZero v0 = true then varResize ev a2 info.size
    else if v1.isArray then stop .unmodelled
    else finish3 ev info .select a0 a1 a2 0

end Verif.Ops
