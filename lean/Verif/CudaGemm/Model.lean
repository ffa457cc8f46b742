import Verif.Gemm.Model
import Mathlib.Data.List.Basic
import Mathlib.Logic.Function.Basic

/-!
# Batched matrix products on CUDA devices

Sources: `src/util.cpp:69-151` (batch dimensions, see also `Verif.Gemm.Model`), `src/cuda_ts.cpp:400-526` (host
side), `src/cuda_core.cpp:158-171` (lookup of kernels), `resources/gemm.cuh` (kernels).

What is modelled: the choice of the tile size with its 32-bit arithmetic; for every thread block, the
decoding of batch indices, the copies of slabs of both operands to shared memory, thread by thread,
with bounds checks, vector accesses, padding and transposition; the accumulation in registers; the stores
of the result.  Barriers separate the copies from the accumulation.  Between two barriers, stores to
shared memory are executed in an arbitrary order, and so are the stores of all thread blocks to the result.

Simplifications: a buffer is a function from element indices to values; the operands do not overlap the
result (they are declared `__restrict__`), hence they do not change; the operand to which an index refers
is clear from the context; the unrolled loops are loops; conversions and arithmetic are those of `Elem`
(`T(0)` and the initial value of accumulators are both `zero`).  Arithmetic on `uint32_t` that involves M, N, K or extents wraps around.
-/

namespace Verif.CudaGemm
open Verif.Gemm (Elem Dim Batch FType decode countPoints dropOnes foldM foldK)
open Verif.Llvm (add32 mul32 ceilDiv32)

/-- Stores `ws`, executed from left to right (modelling device, no counterpart in the code) -/
def apply {V : Type} (ws : List (Nat × V)) (m : Nat → V) : Nat → V :=
  ws.foldl (fun m w => Function.update m w.1 w.2) m

/-- Constants of a kernel: `BM` and the width of vector accesses `V`, `gemm.cuh:233-237` -/
structure Tile where
  BM : Nat
  W : Nat
deriving DecidableEq

/-- `TM`, `gemm.cuh:234` -/
def Tile.TM (t : Tile) : Nat := t.BM / 8
/-- `SA_S`, `gemm.cuh:258` -/
def Tile.SA (_ : Tile) : Nat := 17
/-- `SB_S`, `gemm.cuh:259` -/
def Tile.SB (t : Tile) : Nat := if t.BM ≤ 16 then t.BM else t.BM + t.W

/-- The width of vector accesses, `gemm.cuh:236-237` and `vec_width`, `cuda_ts.cpp:425-430` -/
def vecWidth (tsize bm : Nat) : Nat := if bm / 8 < 16 / tsize then bm / 8 else 16 / tsize

/-! ### Copies to shared memory -/

/-- Parameters of `gemm_load_slab`, `gemm.cuh:88-93` (`BRows`, `BCols`, `SmemStride`, `V`, `CheckRow`, `CheckCol`,
`Transpose`, offset of `src`, `r0`, `c0`, `R`, `C`) -/
structure Slab where
  rows : Nat
  cols : Nat
  stride : Nat
  W : Nat
  checkRow : Bool
  checkCol : Bool
  transpose : Bool
  src : Nat
  r0 : Nat
  c0 : Nat
  R : Nat
  C : Nat

/-- `r_loc` of thread `tid` in iteration `l`, `gemm.cuh:98-99` -/
def Slab.rLoc (s : Slab) (tid l : Nat) : Nat := (tid + l * 64) / (s.cols / s.W)
/-- `c_loc`, `gemm.cuh:100` -/
def Slab.cLoc (s : Slab) (tid l : Nat) : Nat := (tid + l * 64) % (s.cols / s.W) * s.W
/-- `r_g`, `gemm.cuh:101` -/
def Slab.rG (s : Slab) (tid l : Nat) : Nat := add32 s.r0 (s.rLoc tid l)
/-- `c_g`, `gemm.cuh:102` -/
def Slab.cG (s : Slab) (tid l : Nat) : Nat := add32 s.c0 (s.cLoc tid l)

/-- `row_ok`, `gemm.cuh:109` -/
def Slab.rowOk (s : Slab) (tid l : Nat) : Bool := !s.checkRow || s.rG tid l < s.R
/-- `ok`, `gemm.cuh:105` -/
def Slab.ok (s : Slab) (tid l : Nat) : Bool := s.rowOk tid l && (!s.checkCol || add32 (s.cG tid l) s.W ≤ s.C)
/-- `in`, `gemm.cuh:111` -/
def Slab.inside (s : Slab) (tid l v : Nat) : Bool := s.rowOk tid l && (!s.checkCol || add32 (s.cG tid l) v < s.C)

/-- Address of a vector access, `gemm.cuh:107` (pointer arithmetic does not wrap around) -/
def Slab.vecAddr (s : Slab) (tid l : Nat) : Nat := s.src + mul32 (s.rG tid l) s.C + s.cG tid l
/-- Address of a scalar access, `gemm.cuh:112` -/
def Slab.addr (s : Slab) (tid l v : Nat) : Nat := s.src + add32 (add32 (mul32 (s.rG tid l) s.C) (s.cG tid l)) v

/-- `tmp[v]`, `gemm.cuh:104-114` -/
def Slab.value {V : Type} (s : Slab) (zero : V) (x : Nat → V) (tid l v : Nat) : V :=
  if s.ok tid l then x (s.vecAddr tid l + v)
  else if s.inside tid l v then x (s.addr tid l v) else zero

/-- Index in shared memory, `gemm.cuh:116-122` -/
def Slab.pos (s : Slab) (tid l v : Nat) : Nat :=
  if s.transpose then (s.cLoc tid l + v) * s.stride + s.rLoc tid l else s.rLoc tid l * s.stride + s.cLoc tid l + v

/-- `L_V`, `gemm.cuh:94-95` -/
def Slab.iterations (s : Slab) : Nat := s.rows * (s.cols / s.W) / 64

/-- All stores of the 64 threads to shared memory, `gemm.cuh:97-123` -/
def Slab.stores {V : Type} (s : Slab) (zero : V) (x : Nat → V) : List (Nat × V) :=
  (List.range 64).flatMap fun tid => (List.range s.iterations).flatMap fun l => (List.range s.W).map fun v =>
    (s.pos tid l v, s.value zero x tid l v)

/-- All reads of the 64 threads from the operand: address of the first element and number of elements,
`gemm.cuh:105-114` -/
def Slab.reads (s : Slab) : List (Nat × Nat) :=
  (List.range 64).flatMap fun tid => (List.range s.iterations).flatMap fun l =>
    if s.ok tid l then [(s.vecAddr tid l, s.W)]
    else ((List.range s.W).filter fun v => s.inside tid l v).map fun v => (s.addr tid l v, 1)

/-- `gemm_load`, `gemm.cuh:132-144` -/
def mkSlab (br bc stride w : Nat) (checkR checkC transpose : Bool) (src r0 c0 R C : Nat) : Slab :=
  if transpose then ⟨bc, br, stride, w, checkC, checkR, true, src, c0, r0, C, R⟩
  else ⟨br, bc, stride, w, checkR, checkC, false, src, r0, c0, R, C⟩

/-! ### Thread blocks -/

/-- Parameters of a launch: kernel (tile, transposed operands), `M`, `N`, `K`, `batch`; `gemm.cuh:191-196` -/
structure Launch where
  tile : Tile
  At : Bool
  Bt : Bool
  M : Nat
  N : Nat
  K : Nat
  grid : List Dim
  red : List Dim

/-- `r_count`, `gemm.cuh:228-231` -/
def rCount : List Dim → Nat → Nat
  | [], n => n
  | d :: l, n => rCount l (mul32 n d.extent)

/-- Offsets of both operands for term `r` of the sum over batch dimensions, `gemm.cuh:272-294`.  (The
offsets are `size_t` and do not wrap around.) -/
def redOffset : List Dim → Nat → Nat × Nat
  | [], _ => (0, 0)
  | [d], r => (r * d.aStride, r * d.bStride)
  | d :: d' :: l, r => decode (d :: d' :: l) r

/-- One iteration of the loops over `r` and `k0` (or the final partial slab): offsets of both operands, first
column, and whether the columns are checked -/
structure Step where
  a : Nat
  b : Nat
  k0 : Nat
  tail : Bool
deriving DecidableEq

/-- The copies to `sA`, `gemm.cuh:299,308` -/
def Launch.slabA (p : Launch) (m0 : Nat) (s : Step) : Slab :=
  mkSlab p.tile.BM 16 p.tile.SA p.tile.W true s.tail p.At s.a m0 s.k0 p.M p.K
/-- The copies to `sB`, `gemm.cuh:300,309` -/
def Launch.slabB (p : Launch) (n0 : Nat) (s : Step) : Slab :=
  mkSlab 16 p.tile.BM p.tile.SB p.tile.W s.tail true p.Bt s.b s.k0 n0 p.K p.N

/-- `K_bulk`, `gemm.cuh:270` -/
def Launch.bulk (p : Launch) : Nat := p.K - p.K % 16

/-- The steps of a thread block for point `z` of the grid, `gemm.cuh:206-231,272-314`.  (`k0 += 16` does not wrap
around, because `K_bulk` is a multiple of 16.) -/
def Launch.steps (p : Launch) (z : Nat) : List Step :=
  (List.range (rCount p.red 1)).flatMap fun r =>
    let a := (decode p.grid z).1 + (redOffset p.red r).1
    let b := (decode p.grid z).2 + (redOffset p.red r).2
    (List.range (p.bulk / 16)).map (fun t => ⟨a, b, t * 16, false⟩) ++
      if p.bulk < p.K then [⟨a, b, p.bulk, true⟩] else []

/-- Column of entry `j` of the register tile of a thread, `gemm.cuh:159-160,171-179,320-330` (with `j = jv + v`;
`NT_n = BN / TM`, `StripeN = NT_n * V`) -/
def Tile.col (t : Tile) (tx j : Nat) : Nat := j / t.W * (t.BM / t.TM * t.W) + tx * t.W + j % t.W

/-- State of a thread block: shared memory, and the registers `acc[i][j]` of all threads -/
structure State (V : Type) where
  sA : Nat → V
  sB : Nat → V
  acc : Nat → Nat → Nat → V

/-- `tx` and `ty`, `gemm.cuh:264` -/
def Tile.tx (t : Tile) (tid : Nat) : Nat := tid % (t.BM / t.TM)
@[inherit_doc Tile.tx]
def Tile.ty (t : Tile) (tid : Nat) : Nat := tid / (t.BM / t.TM)

/-- `gemm_compute`, `gemm.cuh:155-187` -/
def compute {V : Type} (e : Elem V) (t : Tile) (sA sB : Nat → V) (acc : Nat → Nat → Nat → V) : Nat → Nat → Nat → V :=
  fun tid i j => (List.range 16).foldl (fun x kk =>
    e.fma x (e.load (sA ((t.ty tid * t.TM + i) * t.SA + kk))) (e.load (sB (kk * t.SB + t.col (t.tx tid) j)))) (acc tid i j)

/-- Executions of a sequence of steps by a thread block, `gemm.cuh:298-313` -/
def Runs {V : Type} (e : Elem V) (p : Launch) (A B : Nat → V) (m0 n0 : Nat) : List Step → State V → State V → Prop
  | [], s, s' => s' = s
  | st :: l, s, s' => ∃ wa wb : List (Nat × V),
      wa.Perm ((p.slabA m0 st).stores e.zero A) ∧ wb.Perm ((p.slabB n0 st).stores e.zero B) ∧
      Runs e p A B m0 n0 l
        ⟨apply wa s.sA, apply wb s.sB, compute e p.tile (apply wa s.sA) (apply wb s.sB) s.acc⟩ s'

/-- `interior`, `gemm.cuh:269` -/
def Launch.interior (p : Launch) (m0 n0 : Nat) : Bool := add32 m0 p.tile.BM ≤ p.M && add32 n0 p.tile.BM ≤ p.N

/-- `m_g`, `gemm.cuh:325,336` -/
def Launch.mG (p : Launch) (m0 tid i : Nat) : Nat := add32 (add32 m0 (p.tile.ty tid * p.tile.TM)) i
/-- `n_g`, `gemm.cuh:327,340`, for the vector that contains entry `j` -/
def Launch.nG (p : Launch) (n0 tid j : Nat) : Nat :=
  add32 (add32 n0 (j / p.tile.W * (p.tile.BM / p.tile.TM * p.tile.W))) (p.tile.tx tid * p.tile.W)

/-- The stores of thread block `(bx, by, z)` to the result, `gemm.cuh:218,320-346`: vector stores in the interior,
scalar stores otherwise -/
def Launch.out {V : Type} (e : Elem V) (p : Launch) (m0 n0 z : Nat) (acc : Nat → Nat → Nat → V) : List (Nat × V) :=
  (List.range 64).flatMap fun tid => (List.range p.tile.TM).flatMap fun i =>
    if p.interior m0 n0 then
      (List.range p.tile.TM).map fun j =>
        (z * p.M * p.N + add32 (mul32 (p.mG m0 tid i) p.N) (p.nG n0 tid j) + j % p.tile.W, e.store (acc tid i j))
    else if p.mG m0 tid i ≥ p.M then []
    else ((List.range p.tile.TM).filter fun j => add32 (p.nG n0 tid j) (j % p.tile.W) < p.N).map fun j =>
      (z * p.M * p.N + add32 (add32 (mul32 (p.mG m0 tid i) p.N) (p.nG n0 tid j)) (j % p.tile.W), e.store (acc tid i j))

/-- The addresses of the vector stores of a thread block, `gemm.cuh:331` -/
def Launch.vecStores (p : Launch) (m0 n0 z : Nat) : List Nat :=
  if p.interior m0 n0 then
    (List.range 64).flatMap fun tid => (List.range p.tile.TM).flatMap fun i =>
      ((List.range p.tile.TM).filter fun j => j % p.tile.W = 0).map fun j =>
        z * p.M * p.N + add32 (mul32 (p.mG m0 tid i) p.N) (p.nG n0 tid j)
  else []

/-- Grid of thread blocks: `grid_x`, `grid_y`, `grid_count` -/
structure Grid where
  x : Nat
  y : Nat
  z : Nat
deriving DecidableEq

/-- Thread blocks -/
def Grid.blocks (g : Grid) : List (Nat × Nat × Nat) :=
  (List.range g.z).flatMap fun z => (List.range g.y).flatMap fun y => (List.range g.x).map fun x => (x, y, z)

/-- Executions of a kernel, `gemm.cuh:191-347`: `C` and `C'` are the contents of the result before and after.
Shared memory initially contains anything; `m0`, `n0`: `gemm.cuh:265`, `acc`: `gemm.cuh:267`. -/
def Launch.Exec {V : Type} (e : Elem V) (p : Launch) (g : Grid) (A B C C' : Nat → V) : Prop :=
  ∃ (init final : Nat × Nat × Nat → State V) (ws : List (Nat × V)),
    (∀ b, (init b).acc = fun _ _ _ => e.zero) ∧
    (∀ b ∈ g.blocks, Runs e p A B (mul32 b.2.1 p.tile.BM) (mul32 b.1 p.tile.BM) (p.steps b.2.2) (init b) (final b)) ∧
    ws.Perm (g.blocks.flatMap fun b => p.out e (mul32 b.2.1 p.tile.BM) (mul32 b.1 p.tile.BM) b.2.2 (final b).acc) ∧
    C' = apply ws C

/-! ### Host side -/

/-- Size of an element type in bytes -/
def tsize : FType → Nat
  | .f16 => 2
  | .f32 => 4
  | _ => 8

/-- The loop that selects a tile, `cuda_ts.cpp:467-493`.  `avail l` says whether the kernel for `8 << l` exists,
`sm` is the number of multiprocessors, `sel` the current choice (0: none). -/
def selectTile (sm ts M N aInner bInner gridCount : Nat) (avail : Nat → Bool) : List Nat → Nat → Nat
  | [], sel => sel
  | l :: ls, sel =>
    let bm := 8 * 2 ^ l
    let v := vecWidth ts bm
    if aInner % v ≠ 0 ∨ bInner % v ≠ 0 ∨ N % v ≠ 0 then selectTile sm ts M N aInner bInner gridCount avail ls sel
    else if ceilDiv32 M bm > 65535 then selectTile sm ts M N aInner bInner gridCount avail ls sel
    else if !avail l then selectTile sm ts M N aInner bInner gridCount avail ls sel
    else
      let sel := if sel = 0 then bm else sel
      if bm ≥ mul32 2 (min M N) then selectTile sm ts M N aInner bInner gridCount avail ls sel
      else if ceilDiv32 M bm * ceilDiv32 N bm * gridCount % 2 ^ 64 ≥ (if bm = 64 then mul32 3 sm else sm) then
        selectTile sm ts M N aInner bInner gridCount avail ls bm
      else selectTile sm ts M N aInner bInner gridCount avail ls sel

/-- What a call does: an exception, nothing, or a launch -/
inductive Plan where
  | raise
  | nothing
  | launch (p : Launch) (g : Grid)

/-- `CUDAThreadState::batched_gemm`, `cuda_ts.cpp:400-526` -/
def cudaGemm (sm : Nat) (avail : Nat → Bool) (type : FType) (At Bt : Bool) (M N K : Nat) (grid red : List Dim) : Plan :=
  if At && Bt then .raise
  else
    match countPoints grid 1, countPoints red 1 with
    | some gridCount, some _ =>
      let bm := selectTile sm (tsize type) M N (if At then M else K) (if Bt then K else N) gridCount avail [0, 1, 2, 3] 0
      if bm = 0 then .raise
      else if gridCount > 65535 then .raise
      else .launch ⟨⟨bm, vecWidth (tsize type) bm⟩, At, Bt, M, N, K, grid, red⟩ ⟨ceilDiv32 N bm, ceilDiv32 M bm, gridCount⟩
    | _, _ => .nothing

/-- `jitc_batched_gemm`, `util.cpp:69-151`, on the CUDA backend -/
def batchedGemm (sm : Nat) (avail : Nat → Bool) (maxDims : Nat) (type : FType) (At Bt : Bool) (M N K : Nat)
    (batch : Option Batch) : Plan :=
  if M = 0 ∨ N = 0 ∨ K = 0 then .nothing
  else if batch.any (fun b => b.nb + b.nr > maxDims) then .raise
  else if type = .other then .raise
  else
    let b := dropOnes (batch.getD .none) 0
    let m := foldM At M K b
    let k := foldK At Bt m.1 N K m.2
    cudaGemm sm avail type At Bt m.1 N k.1 k.2.grid k.2.red

end Verif.CudaGemm
