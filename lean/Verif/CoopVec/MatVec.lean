import Verif.CoopMat.Model

/-!
# Matrix-vector products of cooperative vectors, LLVM backend

Models `jitc_coop_vec_matvec` (`/repo/src/coop_vec.cpp:462-582`) and the code generated for
`VarKind::CoopVecMatVec` (`/repo/src/llvm_coop_vec.cpp:320-476`).

Vectors of lanes are functions of the lane.  Memory is divided into elements of the type at hand; reading
where nothing may be read, and leaving the scratch buffer, are represented by `none`.
-/
namespace Verif.CoopVec
open Verif.CoopMat (Descr)

/-- A value per lane -/
abbrev Lanes (α : Type) := Nat → α

/-- Operations of the element type: zero and the fused multiply-add intrinsic `fma a x y = a * x + y` -/
structure Ops (α : Type) where
  zero : α
  fma : α → α → α → α

/-- The context of the generated code: the vector width, whether it is part of a callable
(`callable_depth != 0`), and the mask (operand 2) -/
structure Ctx where
  w : Nat
  callable : Bool
  mask : Nat → Bool

/-- A constant index `i32 $u` of `getelementptr`: the decimal number is truncated to 32 bits and then
sign-extended -/
def sext32 (x : Nat) : Int := if x % 2 ^ 32 < 2 ^ 31 then (x % 2 ^ 32 : Nat) else (x % 2 ^ 32 : Nat) - 2 ^ 32

/-- Reading an element at the same offset from a pointer per lane.  Outside of callables the pointer is a scalar
(here: that of lane 0), the element is loaded and broadcast.  In callables it is a masked gather, where inactive
lanes yield zero and read nothing (llvm_coop_vec.cpp:361-371, 447-459). -/
def loadElem {α : Type} (zero : α) (c : Ctx) (mem : Int → Option α) (p : Lanes Int) (off : Int) : Option (Lanes α) :=
  if c.callable then
    if ∀ l, l < c.w → c.mask l = true → (mem (p l + off)).isSome = true then
      some fun l => if c.mask l then (mem (p l + off)).getD zero else zero
    else none
  else (mem (p 0 + off)).map fun v _ => v

/-- Store to position `i` of the scratch buffer -/
def store {β : Type} (buf : List β) (i : Nat) (v : β) : Option (List β) := if i < buf.length then some (buf.set i v) else none

/-- A loop over `0 .. n-1` -/
def forN {β : Type} (n : Nat) (s : β) (f : β → Nat → Option β) : Option β := (List.range n).foldlM f s

/-- llvm_coop_vec.cpp:353-380, "Prepare output" for component `i`: the bias or zero -/
def prepareOutput {α : Type} (o : Ops α) (c : Ctx) (mem : Int → Option α) (bias : Option (Lanes Int × Descr)) (n : Nat)
    (buf : List (Lanes α)) (i : Nat) : Option (List (Lanes α)) :=
  match bias with
  | some (pb, b) => (loadElem o.zero c mem pb (sext32 b.offset + i)).bind fun v => store buf (n + i) v
  | none => store buf (n + i) fun _ => o.zero

/-- llvm_coop_vec.cpp:320-476, `CoopVecMatVec`.  `x`: components of the input vector, `pa`, `pb`: pointers to the
buffers of the matrix and the bias, `buf`: the scratch memory (`%buffer`).  The result is the list of components. -/
def matvec {α : Type} (o : Ops α) (c : Ctx) (mem : Int → Option α) (pa : Lanes Int) (A : Descr) (transpose : Bool)
    (x : Nat → Lanes α) (bias : Option (Lanes Int × Descr)) (buf : List (Lanes α)) : Option (List (Lanes α)) :=
  let n := if transpose then A.rows else A.cols
  let m := if transpose then A.cols else A.rows
  -- "Prepare input"
  (forN n buf fun buf i => store buf i (x i)).bind fun buf =>
  -- "Prepare output"
  (forN m buf (prepareOutput o c mem bias n)).bind fun buf =>
  -- "Matrix multiplication"
  (forN n buf fun buf j =>
    (buf[j]?).bind fun x =>
    forN m buf fun buf i =>
      let width : Nat := if transpose then m else n
      let idx : Int := if transpose then (j * width + i : Nat) else (i * width + j : Nat)
      (loadElem o.zero c mem pa (sext32 A.offset + idx)).bind fun a =>
      (buf[n + i]?).bind fun y =>
      store buf (n + i) fun l => o.fma (a l) (x l) (y l)).bind fun buf =>
  -- "Read back results"
  (List.range m).mapM fun i => buf[n + i]?

/-- coop_vec.cpp:462-582 `jitc_coop_vec_matvec`: checks of the shapes, and the number of components of the result
(a 16 bit field).  `none`: an exception.  Types and backends are not modelled. -/
def matvecLength (A : Descr) (transpose : Bool) (xlen : Nat) (b : Option Descr) : Option Nat :=
  let input := if transpose then A.rows else A.cols
  let output := if transpose then A.cols else A.rows
  if xlen ≠ input then none
  else if b.any fun b => decide (b.rows ≠ output ∨ b.cols ≠ 1 ∨ b.stride ≠ 1) then none
  else some (output % 2 ^ 16)

end Verif.CoopVec
