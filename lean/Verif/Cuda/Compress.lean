import Verif.Cuda.Prefix

/-!
# Compression of masks on CUDA devices

Models `CUDAThreadState::compress` (`/repo/src/cuda_ts.cpp:683-763`) and the kernels `compress_small`, `compress_large` and `compress_large_init`
(`/repo/resources/compress.cuh:23-157`).

Simplifications: as in `Verif.Cuda.Prefix`, the scan within a thread block is run separately from the look-back.  The trailing stores to `out` of all threads
may happen in any order.
-/
namespace Verif.Cuda

open Verif.Par Verif.Arith

/-- Launch configuration (cuda_ts.cpp:693-698, 717-723, 742-752) -/
structure CLaunch where
  /-- `compress_large` -/
  large : Bool
  /-- `items_per_thread` -/
  items : Nat
  threads : Nat
  blocks : Nat
  deriving DecidableEq, Repr

@[inherit_doc CLaunch]
def mkCompress (size : Nat) : CLaunch :=
  if size ≤ 4096 then { large := false, items := 4, threads := roundPow2_32 (sub32 (u32 (size + 4)) 1 / 4), blocks := 1 }
  else { large := true, items := 16, threads := 128, blocks := sub32 (u32 (size + 16 * 128)) 1 / (16 * 128) }

/-- `trailer` (cuda_ts.cpp:698, 723) -/
def CLaunch.trailer (L : CLaunch) (size : Nat) : Nat := sub32 (u32 (u32 (L.items * L.threads) * L.blocks)) size

/-- `cuMemsetD8Async(in + size, 0, trailer)` (cuda_ts.cpp:706-708, 746-748) -/
def clearTail (size trailer : Nat) (x : Nat → BitVec 8) : Nat → BitVec 8 := fun i => if size ≤ i ∧ i < size + trailer then 0 else x i

/-- Index of the vector loaded by a thread (compress.cuh:27, 70) -/
def CLaunch.vec (L : CLaunch) (c t : Nat) : Nat := if L.large then u32 (u32 (c * L.threads) + t) else t

/-- `values_8[j]` (compress.cuh:26-28, 69-71) -/
def CLaunch.byte (L : CLaunch) (x : Nat → BitVec 8) (c t j : Nat) : BitVec 8 := if j < L.items then x (L.vec c t * L.items + j) else 0

/-- `values[i]`, and `sum_local` after `i` iterations (compress.cuh:31-37, 74-80) -/
def scan8 (b : Nat → BitVec 8) : Nat → BitVec 32
  | 0 => 0
  | i + 1 => scan8 b i + (b i).setWidth 32

/-- `sum_local` -/
def CLaunch.sumLocal (L : CLaunch) (x : Nat → BitVec 8) (c t : Nat) : BitVec 32 := scan8 (L.byte x c t) (L.items + 1)

/-- `shared[si] = 0; si += blockDim.x; shared[si] = sum_local; sum_block = sum_local` (compress.cuh:40-45, 83-88) -/
def CLaunch.initShared (L : CLaunch) (x : Nat → BitVec 8) (c t : Nat) : Prog SLoc (BitVec 32) Unit :=
  (Prog.put (.sh t) 0).bind fun _ => (Prog.put (.sh (t + L.threads)) (L.sumLocal x c t)).bind fun _ => Prog.put (.reg t) (L.sumLocal x c t)

/-- `sum_block = shared[si] + shared[si - offset]` (compress.cuh:48, 91) -/
def CLaunch.addUp (L : CLaunch) (d t : Nat) : Prog SLoc (BitVec 32) Unit :=
  (Prog.get (.sh (t + L.threads))).bind fun v => (Prog.get (.sh (sub32 (t + L.threads) d))).bind fun w => Prog.put (.reg t) (v + w)

/-- `shared[si] = sum_block` (compress.cuh:50, 93) -/
def CLaunch.putUp (L : CLaunch) (t : Nat) : Prog SLoc (BitVec 32) Unit := (Prog.get (.reg t)).bind fun v => Prog.put (.sh (t + L.threads)) v

/-- The loop (compress.cuh:46-51, 89-94), `n` iterations; barriers separate the phases. -/
def CLaunch.phases (L : CLaunch) (x : Nat → BitVec 8) (c : Nat) : Nat → List (Phase SLoc (BitVec 32))
  | 0 => [(L.threads, L.initShared x c)]
  | n + 1 => L.phases x c n ++ [(L.threads, L.addUp (2 ^ n)), (L.threads, L.putUp)]

/-- The shared memory and `sum_block` of thread block `c` may be `m'` after the loop; there are as many iterations as powers of two below the number of threads. -/
def CLaunch.Scan (L : CLaunch) (x : Nat → BitVec 8) (c : Nat) (m' : SLoc → BitVec 32) : Prop := ∃ m, Ends (L.phases x c (Nat.log2 L.threads)) m m'

/-- `for (offset = 16; offset > 0; offset /= 2) prefix += __shfl_down_sync(..., prefix, offset, 32)` (compress.cuh:128-129): the distances are `2 ^ (n - 1), ..., 1`;
lanes without partner receive their own value. -/
def shflDown {V : Type} (op : V → V → V) : Nat → (Nat → V) → Nat → V
  | 0, g => g
  | n + 1, g => shflDown op n fun l => op (g l) (g (if l + 2 ^ n < 32 then l + 2 ^ n else l))

/-- The look-back (compress.cuh:96-137) for given results of the scans.  Value and status of a chunk share a 64 bit word. -/
def CLaunch.cfg (L : CLaunch) (m : Nat → SLoc → BitVec 32) : Cfg (BitVec 32) (BitVec 32) :=
  { red := fun a b => a + b, init := 0, nw := 1, part := fun _ v => v, join := fun g => (g 0).getD 0, warps := L.threads / 32, cpb := L.blocks, chunks := L.blocks
    val := fun c t => m c (.reg t), combine := fun g _ => shflDown (fun a b => a + b) 5 g 0 }

/-- `sum_block` of all threads before `sum_local` is subtracted (compress.cuh:55, 130) -/
def CLaunch.Sums (L : CLaunch) (m : Nat → SLoc → BitVec 32) (sum : Nat → Nat → BitVec 32) : Prop :=
  if L.large then
    ∃ s, LRun (L.cfg m) (fun _ => True) (LState.start (L.cfg m)) s ∧ (∀ c, c < L.blocks → (L.cfg m).Terminated s c) ∧
      ∀ c t, c < L.blocks → t < L.threads → sum c t = m c (.reg t) + (L.cfg m).prefixOf s c t
  else ∀ c t, c < L.blocks → t < L.threads → sum c t = m c (.reg t)

/-- `values[i] += sum_block` after `sum_block -= sum_local` (compress.cuh:55-57, 140-142) -/
def CLaunch.value (L : CLaunch) (x : Nat → BitVec 8) (sum : Nat → Nat → BitVec 32) (c t i : Nat) : BitVec 32 := scan8 (L.byte x c t) i + (sum c t - L.sumLocal x c t)

/-- `if (values[i] != values[i + 1]) out[values[i]] = ...` (compress.cuh:59-62, 144-147): thread `t` of block `c` stores the word `v` at position `e`. -/
def CLaunch.Stores (L : CLaunch) (x : Nat → BitVec 8) (sum : Nat → Nat → BitVec 32) (e : Nat) (v : BitVec 32) : Prop :=
  ∃ c t i, c < L.blocks ∧ t < L.threads ∧ i < L.items ∧ L.value x sum c t i ≠ L.value x sum c t (i + 1) ∧ (L.value x sum c t i).toNat = e ∧
    v = BitVec.ofNat 32 (u32 (u32 (L.vec c t * L.items) + i))

/-- An execution of the kernel: `n` is stored to `count_out`, and the memory `y` behind `out` becomes `y'`. -/
def CLaunch.Runs (L : CLaunch) (x : Nat → BitVec 8) (y : Nat → BitVec 32) (n : BitVec 32) (y' : Nat → BitVec 32) : Prop :=
  ∃ (m : Nat → SLoc → BitVec 32) (sum : Nat → Nat → BitVec 32), (∀ c, c < L.blocks → L.Scan x c (m c)) ∧ L.Sums m sum ∧ n = sum (L.blocks - 1) (L.threads - 1) ∧
    ∀ e, L.Stores x sum e (y' e) ∨ ((∀ v, ¬ L.Stores x sum e v) ∧ y' e = y e)

/-- Outcomes of `compress` -/
inductive CompressOut
  /-- the driver rejects the launch (an empty grid) -/
  | fail
  /-- the returned number, and the memory behind `in` and `out` -/
  | ok (n : BitVec 32) (x : Nat → BitVec 8) (y : Nat → BitVec 32)

/-- `CUDAThreadState::compress` (cuda_ts.cpp:683-763) -/
def Compress (size : Nat) (x : Nat → BitVec 8) (y : Nat → BitVec 32) (o : CompressOut) : Prop :=
  if size = 0 then o = .ok 0 x y
  else
    let L := mkCompress size
    if L.blocks = 0 then o = .fail
    else ∃ n y', L.Runs (clearTail size (L.trailer size) x) y n y' ∧ o = .ok n (clearTail size (L.trailer size) x) y'

/-- The scratch memory prepared by `compress_large_init` (compress.cuh:150-157), one value and one status per word: word `i` belongs to chunk `i - 32`. -/
def scratchInit (i : Nat) : BitVec 32 × Nat := (0, if i < 32 then 2 else 0)

end Verif.Cuda
