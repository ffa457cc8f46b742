import Verif.Cuda.Look
import Verif.Cuda.Comb
import Verif.Par.Prog
import Verif.Arith.Model

/-!
# Block prefix reductions on CUDA devices

Models `CUDAThreadState::block_prefix_reduce` (`/repo/src/cuda_ts.cpp:530-680`) and the kernel `block_prefix_reduce`
(`/repo/resources/block_prefix_reduce.cuh:33-214`).

Simplifications: `T` is the type of the elements, `V` the type of intermediate results (`Red::Value`).  Thread blocks interact through the scratch
memory only; the scan within a thread block is therefore run separately, and its results are parameters of the look-back (`Verif.Cuda.Look`).  The barrier
at line 208 is reached by valid threads only; it is modelled as a barrier among those.
-/
namespace Verif.Cuda

open Verif.Par Verif.Arith

variable {T V H : Type}

/-- 32 bit arithmetic -/
def u32 (n : Nat) : Nat := n % 2 ^ 32
@[inherit_doc u32]
def sub32 (a b : Nat) : Nat := (a + 2 ^ 32 - b % 2 ^ 32) % 2 ^ 32

/-- Launch configuration and parameters of the kernel (cuda_ts.cpp:576-660, block_prefix_reduce.cuh:33-43) -/
structure Launch where
  size : Nat
  /-- `block_size` -/
  bs : Nat
  /-- the template parameter `ChunkSize` -/
  cs : Nat
  /-- `Large`: blocks may consist of several chunks (block_prefix_reduce.cuh:56) -/
  large : Bool
  /-- `chunks_per_block` -/
  cpb : Nat
  /-- `x_is_block_id` -/
  xb : Bool
  excl : Bool
  rev : Bool
  /-- `scratch != nullptr` -/
  scratch : Bool
  threads : Nat
  gx : Nat
  gy : Nat
  deriving DecidableEq, Repr

/-- The launch configuration (cuda_ts.cpp:568-614, 645-671), with the helper functions of `Verif.Arith`.  The kernel for a chunk size is found by name (`kernel_id`, line 633); chunk sizes are powers
of two. -/
def mkLaunch (size bs : Nat) (excl rev : Bool) : Launch :=
  let bc := ceilDiv size bs
  let cs := roundPow2_32 bs
  if cs < 1024 then
    let minThreads := alignUp (u32 (bc * cs)) 32
    let threads := min (max cs 128) minThreads
    let cptb := threads / cs
    { size, bs, cs, large := false, cpb := 1, xb := true, excl, rev, scratch := false, threads, gx := ceilDiv bc cptb, gy := 1 }
  else
    let cpb := ceilDiv bs 1024
    { size, bs, cs := 1024, large := true, cpb, xb := decide (cpb ≤ bc), excl, rev, scratch := decide (1 < cpb), threads := 1024
      gx := if bc < cpb then cpb else bc, gy := if bc < cpb then bc else cpb }

/-- `chunk` (block_prefix_reduce.cuh:81-111) -/
def Launch.chunk (L : Launch) (bx yb t : Nat) : Nat :=
  if L.large then u32 (u32 ((if L.xb then bx else yb) * L.cpb) + if L.xb then yb else bx)
  else if L.cs < 128 then u32 (u32 (bx * (128 / L.cs)) + t / L.cs)
  else bx

/-- `block` (block_prefix_reduce.cuh:86, 109) -/
def Launch.block (L : Launch) (bx yb t : Nat) : Nat := if L.large then (if L.xb then bx else yb) else L.chunk bx yb t

/-- `rel_chunk` (block_prefix_reduce.cuh:87, 110) -/
def Launch.rel (L : Launch) (bx yb : Nat) : Nat := if L.large then (if L.xb then yb else bx) else 0

/-- `pos_in_chunk` (block_prefix_reduce.cuh:90, 100, 106) -/
def Launch.pos (L : Launch) (t : Nat) : Nat := if L.large then t else if L.cs < 128 then t % L.cs else t

/-- `pos_in_block` (block_prefix_reduce.cuh:114-117) -/
def Launch.posInBlock (L : Launch) (bx yb t : Nat) : Nat :=
  let p := u32 (u32 (L.rel bx yb * L.cs) + L.pos t)
  if L.rev then sub32 (sub32 L.bs 1) p else p

/-- `pos_in_input` (block_prefix_reduce.cuh:119) -/
def Launch.posInInput (L : Launch) (bx yb t : Nat) : Nat := u32 (u32 (L.block bx yb t * L.bs) + L.posInBlock bx yb t)

/-- `is_valid` (block_prefix_reduce.cuh:122-123) -/
def Launch.valid (L : Launch) (bx yb t : Nat) : Bool := L.posInBlock bx yb t < L.bs ∧ L.posInInput bx yb t < L.size

/-- The operation and the representation of values (common.h:93-165) -/
structure Red (T V : Type) where
  red : V → V → V
  init : V
  /-- conversions `(Value) x` and `(T) x` -/
  toV : T → V
  ofV : V → T

/-- Words of a value in the scratch memory (common.h:180-254) -/
structure Words (V H : Type) where
  nw : Nat
  part : Nat → V → H
  join : (Nat → Option H) → V

/-- Memory of a thread block: shared memory, and the registers of its threads -/
inductive SLoc
  | sh (i : Nat)
  | reg (t : Nat)
  deriving DecidableEq

/-- `shared[tid] = value` (block_prefix_reduce.cuh:134, 207) -/
def putShared (t : Nat) : Prog SLoc V Unit := (Prog.get (.reg t)).bind fun v => Prog.put (.sh t) v

/-- `if (pos_in_chunk - i < ChunkSize) value = red(value, shared[tid - i])` (block_prefix_reduce.cuh:137-138) -/
def addShared (red : V → V → V) (L : Launch) (i t : Nat) : Prog SLoc V Unit :=
  if sub32 (L.pos t) i < L.cs then
    (Prog.get (.reg t)).bind fun v => (Prog.get (.sh (sub32 t i))).bind fun w => Prog.put (.reg t) (red v w)
  else .pure ()

/-- The loop (block_prefix_reduce.cuh:133-141): `i = 1; i < ChunkSize; i <<= 1`; barriers separate the phases. -/
def scanPhases (red : V → V → V) (L : Launch) : Nat → List (Phase SLoc V)
  | 0 => []
  | n + 1 => scanPhases red L n ++ [(L.threads, putShared), (L.threads, addShared red L (2 ^ n))]

/-- Number of iterations of the loop -/
def Launch.rounds (L : Launch) : Nat := Nat.log2 L.cs

/-- Registers before the loop (block_prefix_reduce.cuh:125-130); the content of the shared memory is arbitrary. -/
def Launch.loaded (L : Launch) (R : Red T V) (x : Nat → T) (bx yb : Nat) (m : SLoc → V) : Prop :=
  ∀ t, t < L.threads → m (.reg t) = if L.valid bx yb t then R.toV (x (L.posInInput bx yb t)) else R.init

/-- The memory of the thread block may be `m'` after the scan. -/
def Launch.Scan (L : Launch) (R : Red T V) (x : Nat → T) (bx yb : Nat) (m' : SLoc → V) : Prop :=
  ∃ m, L.loaded R x bx yb m ∧ Ends (scanPhases R.red L L.rounds) m m'

/-- The position in the grid of the thread block with index `c`.  Indices number the thread blocks; those of large reductions are chosen such that they
agree with `chunk`. -/
def Launch.at (L : Launch) (c : Nat) : Nat × Nat := if L.large then (if L.xb then (c / L.cpb, c % L.cpb) else (c % L.cpb, c / L.cpb)) else (c, 0)

/-- The look-back of the launch (block_prefix_reduce.cuh:144-202), for given results of the scans -/
def Launch.cfg (L : Launch) (R : Red T V) (W : Words V H) (m : Nat → SLoc → V) : Cfg V H :=
  { red := R.red, init := R.init, nw := W.nw, part := W.part, join := W.join, warps := L.threads / 32, cpb := L.cpb, chunks := L.gx * L.gy
    val := fun c t => m c (.reg t), combine := butterfly R.red 5 }

/-- `prefix` and `value` of all threads may have these values after the look-back. -/
def Launch.Looked (L : Launch) (R : Red T V) (W : Words V H) (m : Nat → SLoc → V) (pre val : Nat → Nat → V) : Prop :=
  if L.large && L.scratch then
    ∃ s, LRun (L.cfg R W m) (fun _ => True) (LState.start (L.cfg R W m)) s ∧ (∀ c, c < L.gx * L.gy → (L.cfg R W m).Terminated s c) ∧
      ∀ c t, c < L.gx * L.gy → t < L.threads → pre c t = (L.cfg R W m).prefixOf s c t ∧ val c t = R.red (m c (.reg t)) (pre c t)
  else ∀ c t, c < L.gx * L.gy → t < L.threads → pre c t = R.init ∧ val c t = m c (.reg t)

/-- `if (is_valid && exclusive) { shared[tid] = value; __syncthreads(); value = pos_in_chunk == 0 ? prefix : shared[tid - 1]; }`
(block_prefix_reduce.cuh:205-210) -/
def Launch.lastPhases (L : Launch) (bx yb : Nat) (pre : Nat → V) : List (Phase SLoc V) :=
  [(L.threads, fun t => if L.valid bx yb t then putShared t else .pure ()),
   (L.threads, fun t => if L.valid bx yb t then
      if L.pos t = 0 then Prog.put (.reg t) (pre t) else (Prog.get (.sh (sub32 t 1))).bind fun v => Prog.put (.reg t) v
    else .pure ())]

/-- The final values of all threads of thread block `c` -/
def Launch.Last (L : Launch) (bx yb : Nat) (m : SLoc → V) (pre val : Nat → V) (res : Nat → V) : Prop :=
  if L.excl then
    ∃ m0 m', (∀ i, m0 (.sh i) = m (.sh i)) ∧ (∀ t, t < L.threads → m0 (.reg t) = val t) ∧ Ends (L.lastPhases bx yb pre) m0 m' ∧ ∀ t, t < L.threads → res t = m' (.reg t)
  else ∀ t, t < L.threads → res t = val t

/-- An execution of the kernel turns the memory `y` behind `out` into `y'`. -/
def Launch.Runs (L : Launch) (R : Red T V) (W : Words V H) (x y y' : Nat → T) : Prop :=
  ∃ (m : Nat → SLoc → V) (pre val res : Nat → Nat → V),
    (∀ c, c < L.gx * L.gy → L.Scan R x (L.at c).1 (L.at c).2 (m c)) ∧ L.Looked R W m pre val ∧
    (∀ c, c < L.gx * L.gy → L.Last (L.at c).1 (L.at c).2 (m c) (pre c) (val c) (res c)) ∧
    (∀ c t, c < L.gx * L.gy → t < L.threads → L.valid (L.at c).1 (L.at c).2 t = true → y' (L.posInInput (L.at c).1 (L.at c).2 t) = R.ofV (res c t)) ∧
    ∀ e, (∀ c t, c < L.gx * L.gy → t < L.threads → L.valid (L.at c).1 (L.at c).2 t = true → L.posInInput (L.at c).1 (L.at c).2 t ≠ e) → y' e = y e

/-- `thread_count / chunk_size` or `ceil_div(block_count, chunks_per_thread_block)` divides by zero (cuda_ts.cpp:594-596). -/
def hostUb (size bs : Nat) : Bool :=
  let cs := roundPow2_32 bs
  decide (cs < 1024) && (decide (cs = 0) || decide ((mkLaunch size bs false false).threads / cs = 0))

/-- Outcomes of `block_prefix_reduce` -/
inductive PrefixOut (T : Type)
  | raise
  /-- undefined behaviour: integer division by zero -/
  | ub
  | ok (y : Nat → T)

/-- `CUDAThreadState::block_prefix_reduce` (cuda_ts.cpp:530-680): `ident` is `jitc_reduce_identity(vt, op)`, `tsize` the size of an element in bytes.  Kernels
exist for the types and operations considered.  `memcpy_async` copies whole elements only if the size in bytes, a 32 bit product, is a multiple. -/
def Prefix (R : Red T V) (W : Words V H) (tsize : Nat) (ident : T) (size bs : Nat) (excl rev : Bool) (x y : Nat → T) (o : PrefixOut T) : Prop :=
  if size = 0 then o = .ok y
  else if bs = 0 ∨ size < bs then o = .raise
  else if bs = 1 then
    if excl then o = .ok fun i => if i < size then ident else y i
    else o = .ok fun i => if i < u32 (size * tsize) / tsize then x i else y i
  else if hostUb size bs then o = .ub
  else ∃ y', (mkLaunch size bs excl rev).Runs R W x y y' ∧ o = .ok y'

end Verif.Cuda
