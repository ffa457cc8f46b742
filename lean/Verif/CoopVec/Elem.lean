import Verif.CoopVec.MatVec

/-!
# Element-wise operations on cooperative vectors

Models `/repo/src/coop_vec.cpp:55-365` (construction of variables, with simplifications) and the code that
`/repo/src/llvm_coop_vec.cpp:17-310` generates.  Variables are trees; types, backends, and value numbering are not
modelled.
-/
namespace Verif.CoopVec

/-- Binary operations that the LLVM backend supports (llvm_coop_vec.cpp:200-213); `Min`/`FMin` and `Max`/`FMax` are the same -/
inductive BinOp
  | add
  | mul
  | sub
  | min
  | max
  | step
deriving DecidableEq

/-- Instructions on the element type.  `finite`: neither NaN nor infinite (true for integers).  `zeroLit`, `oneLit`: the tests
`jitc_is_any_zero`, `jitc_is_one` (internal.h:1476-1503) on the bits of a literal -/
structure Arith (V : Type) where
  add : V → V → V
  mul : V → V → V
  sub : V → V → V
  min : V → V → V
  max : V → V → V
  lt : V → V → Bool
  fma : V → V → V → V
  zero : V
  one : V
  finite : V → Bool
  zeroLit : V → Bool
  oneLit : V → Bool

/-- An ordinary variable: its size, whether it is a literal, and its value per lane -/
structure Scalar (V : Type) where
  size : Nat
  lit : Option V
  val : Nat → V

/-- The value of a variable in a lane of a kernel (llvm_eval.cpp:135-171): those of size one are broadcast; reading beyond the end is `none` -/
def Scalar.read {V : Type} (s : Scalar V) (l : Nat) : Option V :=
  match s.lit with
  | some v => some v
  | none => if s.size = 1 then some (s.val 0) else if l < s.size then some (s.val l) else none

/-- A cooperative vector: `VarKind::CoopVecLiteral`, `CoopVecPack`, `CoopVecLoad` (the components found in memory, or `none`), `CoopVecBinaryOp`,
`CoopVecTernaryOp` (`Fma`), and `Bitcast` (made by `jitc_var_resize`) -/
inductive CV (V : Type)
  | lit (size len : Nat) (v : V)
  | pack (size : Nat) (cs : List (Scalar V))
  | load (size len : Nat) (f : Nat → Option V)
  | bin (size len : Nat) (op : BinOp) (a b : CV V)
  | fma (size len : Nat) (a b c : CV V)
  | bitcast (size len : Nat) (a : CV V)

namespace CV
variable {V : Type}

/-- The field `size` -/
def size : CV V → Nat
  | lit n _ _ | pack n _ | load n _ _ | bin n _ _ _ _ | fma n _ _ _ _ | bitcast n _ _ => n

/-- The field `array_length` -/
def len : CV V → Nat
  | lit _ k _ | load _ k _ | bin _ k _ _ _ | fma _ k _ _ _ | bitcast _ k _ => k
  | pack _ cs => cs.length

/-- The same variable with another size -/
def withSize (n : Nat) : CV V → CV V
  | lit _ k v => lit n k v
  | pack _ cs => pack n cs
  | load _ k f => load n k f
  | bin _ k op a b => bin n k op a b
  | fma _ k a b c => fma n k a b c
  | bitcast _ k a => bitcast n k a

/-- var.cpp:1998-2053 `jitc_var_resize` for cooperative vectors, which are never evaluated and are not literals in the sense of
`is_literal()`.  `sole`: there are no other references -/
def resize (sole : Bool) (x : CV V) (n : Nat) : Option (CV V) :=
  if x.size = n then some x
  else if x.size ≠ 1 then none
  else if sole then some (x.withSize n)
  else some (bitcast n x.len x)

/-- `jitc_is_any_zero`, internal.h:1476-1486 -/
def isZero (o : Arith V) : CV V → Bool
  | lit _ _ v => o.zeroLit v
  | _ => false

/-- `jitc_is_one`, internal.h:1488-1501 -/
def isOne (o : Arith V) : CV V → Bool
  | lit _ _ v => o.oneLit v
  | _ => false

/-- The code of a binary operation for one component of one lane (llvm_coop_vec.cpp:193-247).  Minimum and maximum are calls with the flag `fast`:
their result is undefined (`none`) if an argument is not finite.  `step` is a comparison and a selection. -/
def binCode (o : Arith V) (op : BinOp) (x y : V) : Option V :=
  match op with
  | .add => some (o.add x y)
  | .mul => some (o.mul x y)
  | .sub => some (o.sub x y)
  | .min => if o.finite x && o.finite y then some (o.min x y) else none
  | .max => if o.finite x && o.finite y then some (o.max x y) else none
  | .step => some (if o.lt x y then o.zero else o.one)

/-- Component `i` of lane `l` in the generated code (llvm_coop_vec.cpp:181-310).  The code for `Bitcast` (lines 269-272) uses the format `$V_u` and
passes an integer where a variable is expected, which is represented by `none`. -/
def eval (o : Arith V) (i l : Nat) : CV V → Option V
  | lit _ _ v => some v
  | pack _ cs => cs[i]?.bind fun s => s.read l
  | load _ _ f => f i
  | bin _ _ op a b => (a.eval o i l).bind fun x => (b.eval o i l).bind fun y => binCode o op x y
  | fma _ _ a b c => (a.eval o i l).bind fun x => (b.eval o i l).bind fun y => (c.eval o i l).bind fun z => some (o.fma x y z)
  | bitcast _ _ _ => none

end CV

/-- coop_vec.cpp:144-163 `jitc_coop_vec_literal` (a 16 bit length); `none`: index 0 -/
def mkLit {V : Type} (size len : Nat) (v : V) : Option (CV V) := if size = 0 then none else some (.lit size (len % 2 ^ 16) v)

/-- coop_vec.cpp:55-106 `jitc_coop_vec_pack`; `none`: an exception.  The sizes are not checked. -/
def mkPack {V : Type} [DecidableEq V] (cs : List (Scalar V)) : Option (CV V) :=
  if cs.length = 0 ∨ cs.length > 0xffff then none
  else
    let size := cs.foldl (fun n s => max n s.size) 0
    match cs.head?.bind Scalar.lit with
    | some v => if cs.all fun s => decide (s.lit = some v) then mkLit size cs.length v else some (.pack size cs)
    | none => some (.pack size cs)

/-- coop_vec.cpp:165-199 `jitc_coop_vec_load` outside of calls: `offset + i` is a signed 32 bit number (llvm_coop_vec.cpp:298-300) -/
def mkLoad {V : Type} (mem : Int → Option V) (p : Int) (offset len : Nat) : CV V :=
  .load 1 (len % 2 ^ 16) fun i => mem (p + sext32 (offset + i))

/-- coop_vec.cpp:260-315 `jitc_coop_vec_binary_op` -/
def mkBin {V : Type} (o : Arith V) (sole : Bool) (op : BinOp) (a b : CV V) : Option (CV V) :=
  if a.len ≠ b.len then none
  else if ¬ (a.size = b.size ∨ b.size = 1 ∨ a.size = 1) then none
  else
    let size := max a.size b.size
    if op = .add ∧ a.isZero o then b.resize sole size
    else if op = .add ∧ b.isZero o then a.resize sole size
    else if op = .mul ∧ a.isOne o then b.resize sole size
    else if op = .mul ∧ b.isOne o then a.resize sole size
    else some (.bin size a.len op a b)

/-- coop_vec.cpp:317-365 `jitc_coop_vec_ternary_op` with `JitOp::Fma` -/
def mkFma {V : Type} (o : Arith V) (sole sole' : Bool) (a b c : CV V) : Option (CV V) :=
  let size := max (max a.size b.size) c.size
  if a.len ≠ b.len ∨ a.len ≠ c.len then none
  else if ¬ (a.size = size ∨ a.size = 1) ∨ ¬ (b.size = size ∨ b.size = 1) ∨ ¬ (c.size = size ∨ c.size = 1) then none
  else if a.isOne o then (mkBin o sole .add b c).bind fun r => r.resize sole' size
  else if b.isOne o then (mkBin o sole .add a c).bind fun r => r.resize sole' size
  else if c.isZero o then (mkBin o sole .mul a b).bind fun r => r.resize sole' size
  else some (.fma size a.len a b c)

/-- coop_vec.cpp:108-142 `jitc_coop_vec_unpack`: component `i` (llvm_coop_vec.cpp:17-20).  The values of the variable are those that its code
computes. -/
def unpack {V : Type} (o : Arith V) (dflt : V) (x : CV V) (i : Nat) : Scalar V :=
  match x with
  | .lit n _ v => ⟨n, some v, fun _ => v⟩
  | x => ⟨x.size, none, fun l => (x.eval o i l).getD dflt⟩

/-! ### Conversions -/

/-- An integer type -/
structure IntTy where
  bits : Nat
  signed : Bool

/-- llvm_coop_vec.cpp:274-293 `CoopVecCast` between integer types: `src_signed` is `jitc_is_float(a0)`, hence false.  `trunc` to a type of the same
size is rejected by LLVM (`none`). -/
def castInt (src dst : IntTy) (x : BitVec src.bits) : Option (BitVec dst.bits) :=
  let bigger := decide (dst.bits > src.bits)
  let src_signed := false
  if bigger then (if src_signed then some (x.signExtend dst.bits) else some (x.zeroExtend dst.bits))
  else if src.bits = dst.bits then none
  else some (x.truncate dst.bits)

end Verif.CoopVec
