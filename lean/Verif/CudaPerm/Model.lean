import Mathlib.Data.List.Basic
import Mathlib.Algebra.BigOperators.Group.List.Basic

/-!
# Sorting permutations on CUDA devices (`CUDAThreadState::block_mkperm`)

Sources: `src/cuda_ts.cpp:764-975` (host side), `src/internal.h:563-615` (launch configurations),
`resources/mkperm.cuh` (kernels).

What is modelled: the choice of the launch configuration and of the variant, with 32-bit arithmetic; for
every warp of every thread block, the iterations of its loop, the lanes that take part, the groups of
lanes with the same value and their leaders; the accumulation into histograms; the transpose kernel with
its tiles in shared memory; the collection of nonempty buckets; and the final placement.  Kernels run one
after the other (they are submitted to one stream).  Within a kernel, the updates of the histograms are
executed in an arbitrary order (see `Phase1`, `Phase4`), and so are the stores to global memory.

Simplifications (in addition to those mentioned below): the update of a histogram by the leader of a group
of lanes and the stores of this group of lanes to the permutation form one step (nothing reads the
permutation, and these stores go to different places); histogram entries are natural numbers (they are
bounded by the number of elements); the prefix sum is given by its result (it is the subject of C82).
Memory is a function from addresses (in elements) to values.
-/

namespace Verif.CudaPerm

/-- 32-bit arithmetic wraps around. -/
def u32 (x : Nat) : Nat := x % 2 ^ 32

/-- Stores `ws`, executed from left to right (modelling device, no counterpart in the code) -/
def applyWrites {α : Type} [DecidableEq α] (ws : List (α × Nat)) (m : α → Nat) : α → Nat :=
  ws.foldl (fun m w => Function.update m w.1 w.2) m

/-- The values of `i` in the loop `for (i = start; i < stop; i += step)` (simplification: `i` does not wrap
around). -/
def strided (start stop step : Nat) : List Nat :=
  (List.range ((stop - start + step - 1) / step)).map fun k => start + k * step

/-- Number of thread blocks and threads per thread block -/
structure Config where
  blocks : Nat
  threads : Nat
deriving DecidableEq

/-- `CUDADevice::get_launch_config`, `internal.h:563-615`.  The internal error at the end is the subject
of a theorem. -/
def launchConfig (sm size maxThreads maxPerSm : Nat) : Config :=
  let warps := u32 (size + 31) / 32
  let maxWarps := (maxThreads + 31) / 32
  if warps ≤ sm then ⟨warps, 32⟩
  else
    let perBlock := (warps + sm - 1) / sm
    if perBlock ≤ maxWarps then ⟨sm, perBlock * 32⟩
    else
      let b := (warps + maxWarps - 1) / maxWarps
      let b := if b < sm * 4 then (b + sm - 1) / sm * sm else b
      let maxBlocks := maxPerSm * sm
      if maxBlocks ≠ 0 ∧ maxBlocks < b then ⟨maxBlocks, maxWarps * 32⟩
      else
        let perBlock := (warps + b - 1) / b
        ⟨(warps + perBlock - 1) / perBlock, perBlock * 32⟩

/-- The three variants, `cuda_ts.cpp:826-867` -/
inductive Variant where
  | tiny | small | large
deriving DecidableEq

/-- Quantities computed on the host: array size, size of a sorting group, number of buckets, number of
groups, thread blocks per group, warps per thread block, variant, elements per thread block, rows per
group, number of histogram entries, entries per group.  `cuda_ts.cpp:788-885,913-914` -/
structure Plan where
  size : Nat
  bs : Nat
  bc : Nat
  n : Nat
  G : Nat
  W : Nat
  variant : Variant
  spb : Nat
  R : Nat
  psum : Nat
  psumBlock : Nat
deriving DecidableEq

/-- `CUDAThreadState::block_mkperm` up to the launches, `cuda_ts.cpp:788-885,913-914`; `sm` and `shmem`
are the number of multiprocessors and the amount of shared memory of the device.  `ceil_div` is
`common.h:108-110`. -/
def mkPlan (sm shmem size bs bc : Nat) : Plan :=
  let n := u32 (size + bs - 1) / bs
  let c := launchConfig sm bs 1024 1
  let W := (c.threads + 31) / 32
  let gpuBlocks := u32 (n * c.blocks)
  let bucketSize1 := u32 (bc * 4)
  let bucketSizeAll := u32 (bucketSize1 * gpuBlocks)
  let variant := if u32 (bucketSize1 * W) ≤ shmem then Variant.tiny
    else if bucketSize1 ≤ shmem then Variant.small else Variant.large
  let bucketSizeAll := if variant = .tiny then u32 (bucketSizeAll * W) else bucketSizeAll
  let R := if variant = .tiny then u32 (c.blocks * W) else c.blocks
  { size, bs, bc, n, G := c.blocks, W, variant, spb := u32 (bs + c.blocks - 1) / c.blocks, R,
    psum := bucketSizeAll / 4, psumBlock := u32 (R * bc) }

/-! ### Elements of a warp -/

/-- `user_block_start`, `mkperm.cuh:129,195,247,342,398,443` -/
def Plan.groupStart (p : Plan) (g : Nat) : Nat := u32 (g * p.bs)

/-- `block_start`, `mkperm.cuh:130,196,248,343,399,444` -/
def Plan.blockStart (p : Plan) (g sub : Nat) : Nat := u32 (p.groupStart g + u32 (sub * p.spb))

/-- `block_end`, `mkperm.cuh:136-137,199-200,251-252,349-350,402-403,447-448` -/
def Plan.blockEnd (p : Plan) (g sub : Nat) : Nat :=
  min (u32 (p.blockStart g sub + p.spb)) (min (u32 (p.groupStart g + p.bs)) p.size)

/-- `elems_per_warp`, `mkperm.cuh:149-150,363-364` -/
def Plan.perWarp (p : Plan) (g sub : Nat) : Nat :=
  let total := if p.blockStart g sub < p.blockEnd g sub then p.blockEnd g sub - p.blockStart g sub else 0
  u32 (u32 (total + p.W - 1) / p.W + 31) / 32 * 32

/-- Range and step of the loop of lane `l` of warp `w`: start, end, step.
`mkperm.cuh:151-154,365-368` (tiny), `mkperm.cuh:209-211,258-260,413-415,454-456` (small, large) -/
def Plan.loop (p : Plan) (g sub w l : Nat) : Nat × Nat × Nat :=
  match p.variant with
  | .tiny =>
    let warpStart := u32 (p.blockStart g sub + u32 (w * p.perWarp g sub))
    (warpStart + l, u32 (warpStart + p.perWarp g sub), 32)
  | _ =>
    (p.blockStart g sub + (32 * w + l), u32 (p.blockStart g sub + (p.spb + 31) / 32 * 32), 32 * p.W)

/-- Element of lane 0 in each iteration of warp `w`.  (All lanes perform the same number of iterations,
`C86_lanes`; lane `l` processes the element `l` places further.) -/
def Plan.bases (p : Plan) (g sub w : Nat) : List Nat :=
  strided (p.loop g sub w 0).1 (p.loop g sub w 0).2.1 (p.loop g sub w 0).2.2

/-- Lanes with `active`, `mkperm.cuh:155-157,212-214,261-263,369-371,416-418,457-459` -/
def Plan.active (p : Plan) (g sub base : Nat) : List Nat :=
  (List.range 32).filter fun l => base + l < p.blockEnd g sub

/-- Lanes with the same value as lane `l` (`get_peers`, `mkperm.cuh:14-37`), in increasing order -/
def Plan.peers (p : Plan) (v : Nat → Nat) (g sub base l : Nat) : List Nat :=
  (p.active g sub base).filter fun k => v (base + k) = v (base + l)

/-- What a group of lanes with the same value does in one iteration: group, thread block within the group,
warp, element of lane 0, value, lanes -/
structure Ev where
  g : Nat
  sub : Nat
  w : Nat
  base : Nat
  val : Nat
  lanes : List Nat
deriving DecidableEq

/-- Steps of one iteration of a warp: one per leader, that is, per lane that is the first one among its
peers (`__ffs(peers) - 1`, `mkperm.cuh:47-55,73-80,94-102`) -/
def Plan.iter (p : Plan) (v : Nat → Nat) (g sub w base : Nat) : List Ev :=
  ((p.active g sub base).filter fun l => (p.peers v g sub base l).head? = some l).map fun l =>
    ⟨g, sub, w, base, v (base + l), p.peers v g sub base l⟩

/-- All steps of a kernel: grid of `n × G` thread blocks (`cuda_ts.cpp:900-903,960-962`) of `W` warps -/
def Plan.events (p : Plan) (v : Nat → Nat) : List Ev :=
  (List.range p.n).flatMap fun g => (List.range p.G).flatMap fun sub => (List.range p.W).flatMap fun w =>
    (p.bases g sub w).flatMap fun base => p.iter v g sub w base

/-! ### Histograms -/

/-- Histogram entry used by a step: an entry in the shared memory of a thread block (tiny: one histogram
per warp, `mkperm.cuh:144,358`; small: one per thread block), or an entry in global memory (large,
`mkperm.cuh:254,450`). -/
def Plan.slot (p : Plan) (g sub w val : Nat) : Nat × Nat :=
  match p.variant with
  | .tiny => (g * p.G + sub, w * p.bc + val)
  | .small => (g * p.G + sub, val)
  | .large => (0, (g * p.G + sub) * p.bc + val)

/-- `count`, `count_atomic`, `mkperm.cuh:93-103` -/
def Plan.count (p : Plan) (h : Nat × Nat → Nat) (e : Ev) : Nat × Nat → Nat :=
  Function.update h (p.slot e.g e.sub e.w e.val) (h (p.slot e.g e.sub e.w e.val) + e.lanes.length)

/-- Histogram entries in the shared memory of a thread block -/
def Plan.slots (p : Plan) : Nat := match p.variant with | .tiny => p.bc * p.W | _ => p.bc

/-- The stores `shared[i] = 0` of all thread blocks, `mkperm.cuh:139-140,202-203` -/
def Plan.zeros (p : Plan) : List ((Nat × Nat) × Nat) :=
  (List.range (p.n * p.G)).flatMap fun b => (List.range (32 * p.W)).flatMap fun t =>
    (strided t p.slots (32 * p.W)).map fun i => ((b, i), 0)

/-- The stores `out[i] = shared[i]` of all thread blocks, `mkperm.cuh:167-169,222-224` -/
def Plan.copyOut (p : Plan) (h : Nat × Nat → Nat) : List (Nat × Nat) :=
  (List.range (p.n * p.G)).flatMap fun b => (List.range (32 * p.W)).flatMap fun t =>
    (strided t p.slots (32 * p.W)).map fun i => (b * p.slots + i, h (b, i))

/-- The stores `shared[i] = buckets[i]` of all thread blocks, `mkperm.cuh:352-354,405-407` -/
def Plan.copyIn (p : Plan) (m : Nat → Nat) : List ((Nat × Nat) × Nat) :=
  (List.range (p.n * p.G)).flatMap fun b => (List.range (32 * p.W)).flatMap fun t =>
    (strided t p.slots (32 * p.W)).map fun i => ((b, i), m (b * p.slots + i))

/-- Phase 1, `block_mkperm_phase_1_{tiny,small,large}`: `m` and `m'` are the contents of `buckets_1` before
and after.  The steps are executed in an arbitrary order (more than what is possible on the device, where
the steps of a warp are executed one after the other); `garbage` is the initial contents of shared memory;
barriers separate the three parts.  For the large variant, `buckets_1` is filled with zeros before
(`cuda_ts.cpp:885-887`). -/
def Plan.Phase1 (p : Plan) (v : Nat → Nat) (m m' : Nat → Nat) : Prop :=
  match p.variant with
  | .large => ∃ σ : List Ev, σ.Perm (p.events v) ∧
      m' = fun a => σ.foldl p.count (fun s => if s.2 < p.psum then 0 else m s.2) (0, a)
  | _ => ∃ (garbage : Nat × Nat → Nat) (zs : List ((Nat × Nat) × Nat)) (σ : List Ev) (ws : List (Nat × Nat)),
      zs.Perm p.zeros ∧ σ.Perm (p.events v) ∧ ws.Perm (p.copyOut (σ.foldl p.count (applyWrites zs garbage))) ∧
      m' = applyWrites ws m

/-! ### Transpose and prefix sum -/

/-- `cuda_transpose`: numbers of thread blocks, `cuda_ts.cpp:770-771` (converted to 16 bits) -/
def transposeGrid (rows cols : Nat) : Nat × Nat := (u32 (cols + 15) / 16 % 2 ^ 16, u32 (rows + 15) / 16 % 2 ^ 16)

/-- Shared memory of thread block `(x, y, z)` of `transpose` at the barrier, `mkperm.cuh:476-486`;
`order` is the order of the 256 threads -/
def tile (inp : Nat → Nat) (rows cols stride x y z : Nat) (order : List (Nat × Nat)) (garbage : Nat → Nat) : Nat → Nat :=
  applyWrites ((order.filter fun t => y * 16 + t.2 < rows ∧ x * 16 + t.1 < cols).map fun t =>
    (t.2 * 17 + t.1, inp (z * stride + ((y * 16 + t.2) * cols + (x * 16 + t.1))))) garbage

/-- The 16 × 16 threads `(threadIdx.x, threadIdx.y)`, `cuda_ts.cpp:784` -/
def threads16 : List (Nat × Nat) := (List.range 16).flatMap fun a => (List.range 16).map fun b => (a, b)

/-- Stores of thread block `(x, y, z)` to the output, `mkperm.cuh:490-498` -/
def tileOut (sh : Nat → Nat) (rows cols stride x y z : Nat) : List (Nat × Nat) :=
  (threads16.filter fun t => x * 16 + t.2 < cols ∧ y * 16 + t.1 < rows).map fun t =>
    (z * stride + ((x * 16 + t.2) * rows + (y * 16 + t.1)), sh (t.1 * 17 + t.2))

/-- All stores of `transpose` to the output; `order` and `garbage` may be different for every thread
block. -/
def transposeOut (inp : Nat → Nat) (rows cols n stride : Nat) (order : Nat → Nat → Nat → List (Nat × Nat))
    (garbage : Nat → Nat → Nat → Nat → Nat) : List (Nat × Nat) :=
  (List.range n).flatMap fun z => (List.range (transposeGrid rows cols).2).flatMap fun y =>
    (List.range (transposeGrid rows cols).1).flatMap fun x =>
      tileOut (tile inp rows cols stride x y z (order x y z) (garbage x y z)) rows cols stride x y z

/-- `cuda_transpose`, `cuda_ts.cpp:764-786`, `mkperm.cuh:468-499` -/
def Transpose (inp out out' : Nat → Nat) (rows cols n stride : Nat) : Prop :=
  ∃ (order : Nat → Nat → Nat → List (Nat × Nat)) (garbage : Nat → Nat → Nat → Nat → Nat) (ws : List (Nat × Nat)),
    (∀ x y z, (order x y z).Perm threads16) ∧ ws.Perm (transposeOut inp rows cols n stride order garbage) ∧
    out' = applyWrites ws out

/-- Exclusive prefix sum of each block of `block` entries, given by its result (C82) -/
def prefixSum (count block : Nat) (m : Nat → Nat) : Nat → Nat := fun a =>
  if a < count then ((List.range (a % block)).map fun k => m (a / block * block + k)).sum else m a

/-- Phase 2, `cuda_ts.cpp:905-926`: contents of `buckets_1` before and after (`buckets_2` is `b₂`, initially
arbitrary; with one row per group, both are the same array) -/
def Plan.Phase2 (p : Plan) (m m' : Nat → Nat) : Prop :=
  if 1 < p.R then
    ∃ b₀ b₁ : Nat → Nat, Transpose m b₀ b₁ p.R p.bc p.n (u32 (p.R * p.bc)) ∧
      Transpose (prefixSum p.psum p.psumBlock b₁) m m' p.bc p.R p.n (u32 (p.R * p.bc))
  else m' = prefixSum p.psum p.psumBlock m

/-! ### Nonempty buckets -/

/-- What the lanes of a warp that found a nonempty bucket do: the buckets found, in the order of the lanes,
with the values `offset_a` and `offset_b` -/
abbrev Found := List (Nat × Nat × Nat)

/-- `offset_a` of a thread for bucket `i`, `mkperm.cuh:287` -/
def offA (m : Nat → Nat) (bc size i : Nat) : Nat := if i < bc then m i else size

/-- Steps of phase 3: thread block `b`, iteration `k`, warp `w`.  `offset_b` is read from shared memory
(the neighbouring thread stored its `offset_a` there) or, for the last thread, from global memory.
`mkperm.cuh:282-300`. -/
def found3 (m : Nat → Nat) (bc size threads blocks b k w : Nat) : Found :=
  (List.range 32).filterMap fun l =>
    let i := b * threads + (w * 32 + l) + k * (threads * blocks)
    let offB := if w * 32 + l + 1 < threads then offA m bc size (b * threads + (w * 32 + l + 1) + k * (threads * blocks))
      else if i + 1 < bc then m (i + 1) else size
    if offA m bc size i ≠ offB then some (i, offA m bc size i, offB) else none

/-- Number of iterations of the loop of thread block `b`, `mkperm.cuh:282-283` (the same for all threads,
since the bound is a multiple of the number of threads) -/
def iters3 (rounded threads blocks b : Nat) : Nat := (rounded - b * threads + threads * blocks - 1) / (threads * blocks)

/-- All steps of phase 3 -/
def events3 (m : Nat → Nat) (bc size rounded threads blocks : Nat) : List Found :=
  (List.range blocks).flatMap fun b => (List.range (iters3 rounded threads blocks b)).flatMap fun k =>
    (List.range (threads / 32)).map fun w => found3 m bc size threads blocks b k w

/-- Launch configuration of phase 3 and `bucket_count_rounded`, `cuda_ts.cpp:931-937` -/
def Plan.config3 (p : Plan) (sm : Nat) : Config × Nat :=
  let c := launchConfig sm (u32 (p.bc * u32 (p.n * p.G))) 1024 0
  (c, u32 (u32 (p.bc + c.threads - 1) / c.threads * c.threads))

/-- One step: the leader increases the counter, and the lanes store their entries behind each other,
`mkperm.cuh:302-317`.  State: counter and entries of `offsets`. -/
def store3 (s : Nat × (Nat → Nat × Nat × Nat × Nat)) (f : Found) : Nat × (Nat → Nat × Nat × Nat × Nat) :=
  (s.1 + f.length, fun a => if h : s.1 ≤ a ∧ a - s.1 < f.length then
    let x := f[a - s.1]'h.2
    (x.1, x.2.1, x.2.2 - x.2.1, 0) else s.2 a)

/-- Phase 3: the steps are executed in an arbitrary order (the counter is initialised with zero,
`cuda_ts.cpp:879-883`). -/
def Plan.Phase3 (p : Plan) (sm : Nat) (m : Nat → Nat) (offs : Nat → Nat × Nat × Nat × Nat)
    (counter : Nat) (offs' : Nat → Nat × Nat × Nat × Nat) : Prop :=
  ∃ τ : List Found, τ.Perm (events3 m p.bc p.size (p.config3 sm).2 (p.config3 sm).1.threads (p.config3 sm).1.blocks) ∧
    τ.foldl store3 (0, offs) = (counter, offs')

/-! ### Placement -/

/-- Position of a lane within its peers: `__popc(peers << (32 - lane_idx))`, `mkperm.cuh:61,85` (for lane 0,
a shift by 32 is meant to give zero) -/
def rel (lanes : List Nat) (l : Nat) : Nat := (lanes.filter fun k => k < l).length

/-- `reduce`, `reduce_atomic` and the stores to the permutation, `mkperm.cuh:41-88,373-376,420-423,461-464`.
State: histograms and permutation. -/
def Plan.place (p : Plan) (s : (Nat × Nat → Nat) × (Nat → Nat)) (e : Ev) : (Nat × Nat → Nat) × (Nat → Nat) :=
  (p.count s.1 e, applyWrites (e.lanes.map fun l =>
    (p.groupStart e.g + (s.1 (p.slot e.g e.sub e.w e.val) + rel e.lanes l), e.base + l)) s.2)

/-- The order of the steps of phase 4.  Small and large variant: arbitrary.  Tiny variant: the steps of a
warp are executed in the order of its iterations (the memory operations of a warp before the barrier
`__ballot_sync` are visible after it). -/
def Plan.Order4 (p : Plan) (v : Nat → Nat) (σ : List Ev) : Prop :=
  σ.Perm (p.events v) ∧
  (p.variant = .tiny → σ.Pairwise fun e e' => e.g = e'.g → e.sub = e'.sub → e.w = e'.w → e.base ≤ e'.base)

/-- Phase 4, `block_mkperm_phase_4_{tiny,small,large}`: from the contents of `buckets_1` and the initial
contents of the permutation to the final one -/
def Plan.Phase4 (p : Plan) (v : Nat → Nat) (m : Nat → Nat) (perm perm' : Nat → Nat) : Prop :=
  ∃ σ : List Ev, p.Order4 v σ ∧
    match p.variant with
    | .large => perm' = (σ.foldl p.place ((fun s => m s.2), perm)).2
    | _ => ∃ (garbage : Nat × Nat → Nat) (ws : List ((Nat × Nat) × Nat)),
        ws.Perm (p.copyIn m) ∧ perm' = (σ.foldl p.place (applyWrites ws garbage, perm)).2

/-- Results of a call: return value, permutation, entries -/
structure Out where
  ret : Nat
  perm : Nat → Nat
  offs : Nat → Nat × Nat × Nat × Nat

/-- Grids that the driver accepts: at most 65535 thread blocks in the second and third dimension, and at
least one in each (`cuLaunchKernel`; otherwise, it returns an error, and the call fails).
`cuda_ts.cpp:782-785,900-903,905-910,921-926,960-962` -/
def Plan.Accepted (p : Plan) : Prop :=
  0 < p.n ∧ p.n ≤ 65535 ∧ 0 < p.G ∧
  (1 < p.R → 0 < (transposeGrid p.R p.bc).1 ∧ 0 < (transposeGrid p.R p.bc).2 ∧ 0 < (transposeGrid p.bc p.R).1 ∧ 0 < (transposeGrid p.bc p.R).2)

/-- `CUDAThreadState::block_mkperm`, `cuda_ts.cpp:788-975`, for a nonempty array `v`; `perm` and `offs` are
the initial contents of the outputs (`offs = none`: null pointer) -/
def Runs (sm shmem size bs bc : Nat) (v perm : Nat → Nat) (offs : Option (Nat → Nat × Nat × Nat × Nat)) (o : Out) : Prop :=
  (mkPlan sm shmem size bs bc).Accepted ∧
  ∃ m₀ m₁ m₂ : Nat → Nat, (mkPlan sm shmem size bs bc).Phase1 v m₀ m₁ ∧ (mkPlan sm shmem size bs bc).Phase2 m₁ m₂ ∧
    (match offs with
      | some f => if (mkPlan sm shmem size bs bc).n = 1 then (mkPlan sm shmem size bs bc).Phase3 sm m₂ f o.ret o.offs
          else o.ret = 0 ∧ o.offs = f
      | none => o.ret = 0) ∧
    (mkPlan sm shmem size bs bc).Phase4 v m₂ perm o.perm

end Verif.CudaPerm
