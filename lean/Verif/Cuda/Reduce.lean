import Verif.Cuda.Prefix

/-!
# Block reductions on CUDA devices

Models `CUDAThreadState::block_reduce` (`/repo/src/cuda_ts.cpp:195-352`), the kernel `block_reduce` (`/repo/resources/block_reduce.cuh:93-219`) and the
vector loads (`/repo/resources/common.h:259-284`).

The computation of indices is that of the kernel for prefix reductions without its reverse mode (block_reduce.cuh:94-170, cf. block_prefix_reduce.cuh:45-123); its model is reused.

Simplifications: warps execute shuffles in lockstep.  Reads of shared memory that was not written yield arbitrary values.  Thread blocks do not interact.
-/
namespace Verif.Cuda

open Verif.Arith

variable {T V : Type}

/-- Launch configuration and parameters (cuda_ts.cpp:229-280, 331-337) -/
structure RLaunch where
  /-- parameters in units of vectors -/
  L : Launch
  /-- `vector_width` -/
  vw : Nat
  /-- `chunk_count` -/
  count : Nat
  deriving DecidableEq, Repr

/-- `vector_width` of large reductions (cuda_ts.cpp:261-264); `addr` is the address of the input. -/
def vectorWidth (tsize size bs addr : Nat) : Nat := if u32 (bs * tsize) % 16 = 0 ∧ u32 (size * tsize) % 16 = 0 ∧ addr % 16 = 0 then 16 / tsize else 1

@[inherit_doc RLaunch]
def mkReduce (tsize size bs addr : Nat) : RLaunch :=
  let bc := ceilDiv size bs
  let cs := roundPow2_32 bs
  if cs < 1024 then
    let minThreads := alignUp (u32 (bc * cs)) 32
    let threads := min (max cs 128) minThreads
    let cptb := threads / cs
    { L := { size, bs, cs, large := false, cpb := 1, xb := true, excl := false, rev := false, scratch := false, threads, gx := ceilDiv bc cptb, gy := 1 }, vw := 1, count := bc }
  else
    let vw := vectorWidth tsize size bs addr
    let cpb := ceilDiv bs 1024
    { L := { size := size / vw, bs := bs / vw, cs := 1024 / vw, large := true, cpb, xb := decide (cpb ≤ bc), excl := false, rev := false, scratch := false, threads := 1024 / vw
             gx := if bc < cpb then cpb else bc, gy := if bc < cpb then bc else cpb }
      vw, count := u32 (bc * cpb) }

/-- Reduction of the components of a vector (common.h:259-284), `2 ^ n` components from `i` on -/
def vecTree (op : V → V → V) (f : Nat → V) : Nat → Nat → V
  | 0, i => f i
  | n + 1, i => op (vecTree op f n i) (vecTree op f n (i + 2 ^ n))

/-- The value that a thread loads (block_reduce.cuh:175-182); `reduce` returns a `T`. -/
def RLaunch.load (K : RLaunch) (R : Red T V) (x : Nat → T) (i : Nat) : V :=
  if K.vw = 1 then R.toV (x i) else R.toV (R.ofV (vecTree R.red (fun j => R.toV (x j)) (Nat.log2 K.vw) (i * K.vw)))

/-- `MultiChunk` and `BlockDim` (block_reduce.cuh:101-106) -/
def RLaunch.multi (K : RLaunch) : Bool := K.L.cs < 128
@[inherit_doc RLaunch.multi]
def RLaunch.blockDim (K : RLaunch) : Nat := if K.multi then 128 else K.L.cs

/-- `Active` and `ReducedChunkSize` (block_reduce.cuh:185-188) -/
def RLaunch.active (K : RLaunch) : Nat := if 32 ≤ K.L.cs then 32 else K.L.cs
@[inherit_doc RLaunch.active]
def RLaunch.reduced (K : RLaunch) : Nat := K.L.cs / K.active

/-- `value` before the first shuffle (block_reduce.cuh:172-182) -/
def RLaunch.loaded (K : RLaunch) (R : Red T V) (x : Nat → T) (bx yb t : Nat) : V :=
  if K.L.valid bx yb t then K.load R x (K.L.posInInput bx yb t) else R.init

/-- `value` after the first shuffles (block_reduce.cuh:189-190) -/
def RLaunch.warp (K : RLaunch) (R : Red T V) (x : Nat → T) (bx yb t : Nat) : V := butterfly R.red (Nat.log2 K.active) (K.loaded R x bx yb) t

/-- The shared memory of a thread block (block_reduce.cuh:195-196) -/
def RLaunch.Shared (K : RLaunch) (R : Red T V) (x : Nat → T) (bx yb : Nat) (sh : Nat → V) : Prop :=
  ∀ i, (∃ t, t < K.L.threads ∧ t % 32 = 0 ∧ t / K.active = i ∧ sh i = K.warp R x bx yb t) ∨ ∀ t, t < K.L.threads → t % 32 = 0 → t / K.active ≠ i

/-- Shared memory of a thread block, in entries (cuda_ts.cpp:286-291); `chunk_size / vector_width` is `L.cs`. -/
def RLaunch.smem (K : RLaunch) : Nat := (if K.L.cs / min K.L.cs 32 = 1 then 0 else K.L.cs / min K.L.cs 32) * (K.L.threads / K.L.cs)

/-- Thread `t` writes the entry `i` of shared memory (block_reduce.cuh:193-196). -/
def RLaunch.Writes (K : RLaunch) (t i : Nat) : Prop := t < K.L.threads ∧ 1 < K.reduced ∧ t % 32 = 0 ∧ i = t / K.active

/-- Thread `t` reads the entry `i` of shared memory (block_reduce.cuh:193, 199-205). -/
def RLaunch.Reads (K : RLaunch) (t i : Nat) : Prop := t < K.L.threads ∧ 1 < K.reduced ∧ t < K.blockDim / K.active ∧ i = t

/-- Thread `t` stores `v` to `out[e]` (block_reduce.cuh:192-219). -/
def RLaunch.Stores (K : RLaunch) (R : Red T V) (x : Nat → T) (bx yb : Nat) (sh : Nat → V) (t e : Nat) (v : T) : Prop :=
  if 1 < K.reduced then
    let pos := if K.multi then t % K.reduced else K.L.pos t
    let chunk := if K.multi then u32 (u32 (bx * (K.blockDim / K.L.cs)) + t / K.reduced) else K.L.chunk bx yb t
    t < K.blockDim / K.active ∧ pos = 0 ∧ (K.multi = false ∨ chunk < K.count) ∧ e = chunk ∧ v = R.ofV (butterfly R.red (Nat.log2 K.reduced) sh t)
  else K.L.pos t = 0 ∧ (K.multi = false ∨ K.L.chunk bx yb t < K.count) ∧ e = K.L.chunk bx yb t ∧ v = R.ofV (K.warp R x bx yb t)

/-- An execution of the kernel turns the memory `y` behind `out` into `y'`. -/
def RLaunch.Runs (K : RLaunch) (R : Red T V) (x y y' : Nat → T) : Prop :=
  ∃ sh : Nat → Nat → V, (∀ c, c < K.L.gx * K.L.gy → K.Shared R x (K.L.at c).1 (K.L.at c).2 (sh c)) ∧
    ∀ e, (∃ c t, c < K.L.gx * K.L.gy ∧ t < K.L.threads ∧ K.Stores R x (K.L.at c).1 (K.L.at c).2 (sh c) t e (y' e)) ∨
      ((∀ c t v, c < K.L.gx * K.L.gy → t < K.L.threads → ¬ K.Stores R x (K.L.at c).1 (K.L.at c).2 (sh c) t e v) ∧ y' e = y e)

/-- `thread_count / chunk_size` or `ceil_div(block_count, chunks_per_thread_block)` divides by zero (cuda_ts.cpp:251-253). -/
def reduceUb (size bs : Nat) : Bool :=
  let cs := roundPow2_32 bs
  decide (cs < 1024) && (decide (cs = 0) || decide ((mkReduce 4 size bs 0).L.threads / cs = 0))

/-- `CUDAThreadState::block_reduce` (cuda_ts.cpp:195-352) for elements of 2, 4 or 8 bytes: parameters are the size, the block size, the address of the input, and the content of input and output.
Kernels exist for the types and operations considered.  `memcpy_async` copies `size * tsize` bytes, a 32 bit product. -/
inductive Reduce (R : Red T V) (tsize : Nat) : Nat → Nat → Nat → (Nat → T) → (Nat → T) → PrefixOut T → Prop
  | empty (bs a : Nat) (x y : Nat → T) : Reduce R tsize 0 bs a x y (.ok y)
  | raise (size bs a : Nat) (x y : Nat → T) : size ≠ 0 → bs = 0 ∨ size < bs → Reduce R tsize size bs a x y .raise
  | copy (size a : Nat) (x y : Nat → T) : size ≠ 0 → Reduce R tsize size 1 a x y (.ok fun i => if i < u32 (size * tsize) / tsize then x i else y i)
  | ub (size bs a : Nat) (x y : Nat → T) : 2 ≤ bs → bs ≤ size → reduceUb size bs = true → Reduce R tsize size bs a x y .ub
  /-- one kernel (cuda_ts.cpp:339-340) -/
  | one (size bs a : Nat) (x y y' : Nat → T) : 2 ≤ bs → bs ≤ size → reduceUb size bs = false → (mkReduce tsize size bs a).L.cpb = 1 → (mkReduce tsize size bs a).Runs R x y y' →
      Reduce R tsize size bs a x y (.ok y')
  /-- several chunks per block: the results of the chunks are stored in temporary memory `z`, at the address `a'`, and reduced again (cuda_ts.cpp:341-342, 347-351) -/
  | more (size bs a a' : Nat) (x y z z' : Nat → T) (o : PrefixOut T) : 2 ≤ bs → bs ≤ size → reduceUb size bs = false → (mkReduce tsize size bs a).L.cpb ≠ 1 →
      (mkReduce tsize size bs a).Runs R x z z' → Reduce R tsize (mkReduce tsize size bs a).count (mkReduce tsize size bs a).L.cpb a' z' y o → Reduce R tsize size bs a x y o

end Verif.Cuda
