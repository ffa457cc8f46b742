import Verif.Atomic.Model
import Verif.CoopVec.MatVec

/-!
# Accumulation of cooperative vectors and outer products, LLVM backend

Models `jitc_llvm_render_coop_vec_accum` and `jitc_llvm_render_coop_vec_outer_product_accum`
(`/repo/src/llvm_coop_vec.cpp:22-170`), which add to arrays by atomic instructions (`Verif.Atomic`).
-/
namespace Verif.CoopVec
open Verif.CoopMat (Descr)
open Verif.Atomic (Act Red Target localLoop ptrlo)

/-- What the lanes of a packet supply.  The arrays to which the lanes refer are parts of one region of memory, in
which that of lane `l` starts at element `start l`.  `val i l` is component `i` of lane `l`, `val2` the second
operand of the outer product. -/
structure AccPacket (V : Type) where
  start : Nat → Nat
  mask : Nat → Bool
  val : Nat → Nat → V
  val2 : Nat → Nat → V

/-- `getelementptr inbounds $t, ptr p, i32 $u`: the constant is sign-extended to 64 bits -/
def gep32 (p tsize u : Nat) : Nat :=
  let i := if u % 2 ^ 32 < 2 ^ 31 then u % 2 ^ 32 else u % 2 ^ 32 + (2 ^ 64 - 2 ^ 32)
  (p + tsize * i) % 2 ^ 64

/-- `llvm.vector.reduce.fadd` of the values selected by the mask, starting at zero; this intrinsic is sequential -/
def packetSum {V : Type} (r : Red V) (w : Nat) (val : Nat → V) (mask : Nat → Bool) : V :=
  (List.range w).foldl (fun acc l => r.op acc (if mask l then val l else r.id)) r.id

/-- Adding a value per lane: outside of callables one atomic instruction with the sum of the packet
(llvm_coop_vec.cpp:42-47, 152-160), in callables the function `reduce_add_*_atomic_local`
(llvm_coop_vec.cpp:48-51, 161-165; llvm_scatter.cpp:232-325) -/
def accumOne {V : Type} (r : Red V) (callable : Bool) (shift w : Nat) (ptr : Nat → Nat) (val : Nat → V) (mask : Nat → Bool) : Act V Unit :=
  if callable then
    localLoop r shift ptr (fun i => if mask i then ptrlo shift (ptr i) else 0) val w w fun i => r.ne r.id (val i) && mask i
  else .rmw (ptr 0) (fun v => r.op v (packetSum r w val mask)) fun _ => .pure ()

/-- llvm_coop_vec.cpp:22-53 `jitc_llvm_render_coop_vec_accum`, with `len` components and the offset `lit` (`v->literal`) -/
def accum {V : Type} (r : Red V) (callable : Bool) (t : Target) (w lit len : Nat) (p : AccPacket V) : List (Act V Unit) :=
  (List.range len).map fun i =>
    accumOne r callable t.shift w (fun l => gep32 (t.base + 2 ^ t.shift * p.start l) (2 ^ t.shift) ((lit + i) % 2 ^ 32)) (p.val i) p.mask

/-- llvm_coop_vec.cpp:82-95 "Prepare inputs": both vectors are stored to the scratch memory -/
def outerScratch {V : Type} (m n : Nat) (p : AccPacket V) (buf : List (Lanes V)) : Option (List (Lanes V)) :=
  (forN m buf fun buf i => store buf i (p.val i)).bind fun buf =>
  forN n buf fun buf i => store buf (m + i) (p.val2 i)

/-- llvm_coop_vec.cpp:143-165: the body of the loops.  `mul`: `fmul`.  The pointer is
`getelementptr inbounds [stride x t], po, i, j`; `po` is computed from the byte offset, a 32 bit product (lines 73-78). -/
def outerBody {V : Type} (r : Red V) (mul : V → V → V) (callable : Bool) (t : Target) (w : Nat) (d : Descr) (m : Nat) (p : AccPacket V)
    (buf : List (Lanes V)) (i j : Nat) : Act V Unit :=
  match buf[i]?, buf[m + j]? with
  | some a, some b =>
    accumOne r callable t.shift w
      (fun l => (gep32 (t.base + 2 ^ t.shift * p.start l) 1 (d.offset * 2 ^ t.shift % 2 ^ 32)
        + (2 ^ t.shift * d.stride * i + 2 ^ t.shift * j)) % 2 ^ 64)
      (fun l => mul (a l) (b l)) p.mask
  | _, _ => .ub

/-- llvm_coop_vec.cpp:55-170 `jitc_llvm_render_coop_vec_outer_product_accum` of vectors with `m` and `n` components -/
def outer {V : Type} (r : Red V) (mul : V → V → V) (callable : Bool) (t : Target) (w : Nat) (d : Descr) (m n : Nat) (buf : List (Lanes V))
    (p : AccPacket V) : List (Act V Unit) :=
  match outerScratch m n p buf with
  | none => [.ub]
  | some buf => (List.range m).flatMap fun i => (List.range n).map fun j => outerBody r mul callable t w d m p buf i j

/-- Every thread processes its packets one after another. -/
def accKernel {V : Type} (code : AccPacket V → List (Act V Unit)) (threads : List (List (AccPacket V))) : List (Act V (List Unit)) :=
  threads.map fun ps => Act.seq (ps.flatMap code)

end Verif.CoopVec
