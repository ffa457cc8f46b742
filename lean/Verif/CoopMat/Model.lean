import Verif.Par.Prog
import Verif.Llvm.U32

/-!
# Packing of matrices for cooperative vectors, LLVM backend

Models `jitc_coop_vec_compute_layout`, `jitc_coop_vec_pack_matrices` (`/repo/src/coop_vec.cpp:366-460`) and
`LLVMThreadState::coop_vec_pack` (`/repo/src/llvm_ts.cpp:1108-1158`).
-/
namespace Verif.CoopMat
open Verif.Par
open Verif.Llvm (add32 mul32)

/-- jit.h:3161-3168 `MatrixDescr`.  The type is represented by its size in bytes; the layout plays no role
in the LLVM backend. -/
structure Descr where
  tsize : Nat
  rows : Nat
  cols : Nat
  offset : Nat
  stride : Nat
  size : Nat
deriving DecidableEq

/-- coop_vec.cpp:366-436 `jitc_coop_vec_compute_layout`, for the LLVM backend -/
def computeLayout (d : Descr) (offset : Nat) : Descr :=
  { tsize := d.tsize, rows := d.rows, cols := d.cols, offset := offset, stride := d.cols,
    size := add32 (mul32 (add32 d.rows (2 ^ 32 - 1)) d.cols) d.cols }

/-- The memory of the two variables -/
inductive Buf
  | inp
  | out
deriving DecidableEq

/-- A byte of a buffer -/
abbrev Loc := Buf × Nat

/-- `memcpy(out + dst, in + src, n)` -/
def memcpy (dst src n : Nat) : Prog Loc UInt8 Unit :=
  Prog.loop n () fun k _ => (Prog.get (Buf.inp, src + k)).bind fun v => Prog.put (Buf.out, dst + k) v

/-- llvm_ts.cpp:1116-1134 `PackTask::run`.  Offsets are computed with 32 bit numbers. -/
def packTask (i o : Descr) : Prog Loc UInt8 Unit :=
  if i.stride = i.cols ∧ o.stride = o.cols then
    memcpy (mul32 o.offset i.tsize) (mul32 i.offset i.tsize) (mul32 i.size i.tsize)
  else
    Prog.loop i.rows () fun j _ =>
      memcpy (mul32 (add32 o.offset (mul32 j o.stride)) i.tsize)
        (mul32 (add32 i.offset (mul32 j i.stride)) i.tsize) (mul32 i.cols i.tsize)

/-- llvm_ts.cpp:1108-1158 `LLVMThreadState::coop_vec_pack`: one task per matrix -/
def pack (count : Nat) (i o : Nat → Descr) : Phase Loc UInt8 := (count, fun k => packTask (i k) (o k))

end Verif.CoopMat
