import Verif.Par.Items
import Verif.Llvm.U32
import Verif.Gemm.Spec
/-!
# Model of batched matrix products

`jitc_batched_gemm()` (src/util.cpp:69-151), `LLVMThreadState::batched_gemm()` (src/llvm_ts.cpp:526-702)
and the kernels in src/llvm_gemm.h.

Memory is divided into buffers whose cells are elements; hence offsets in bytes are not modelled.
Products of the dimensions that the code computes as `size_t` do not wrap around (they are offsets into
memory that exists).  Arithmetic on `uint32_t` that involves M, N, K or extents wraps around
(`add32`, `mul32`) except for `i_start + r`, `kc0 + k`, `jc + idx * NR`, which are at most M, K, N + NR.
-/
namespace Verif.Gemm
open Verif.Par
open Verif.Llvm (add32 mul32 ceilDiv32)

/-- The buffers: the operands, the result, the packed part of the second operand (`packed_B`), partial
sums of half precision products (`C_scratch`), and the null pointer. -/
inductive Buf where
  | a | b | c | packed | scratch | null
deriving DecidableEq

abbrev Loc := Buf × Nat

/-- Constants: the size of a microtile, `GEMM_KC` and `GEMM_NC` (llvm_gemm.h:107-117, 164, 171), and the
number of threads. -/
structure Cfg where
  MR : Nat
  NR : Nat
  KC : Nat
  NC0 : Nat
  cores : Nat

variable {V : Type} (e : Elem V) (c : Cfg)

/-- Assignment to an entry of a local array -/
def setv (p : Nat → V) (i : Nat) (x : V) : Nat → V := fun j => if j = i then x else p j

/-- `for (i = lo; i < hi; ++i)` with assignments to local variables -/
def forAcc {α : Type} (lo hi : Nat) (p : α) (body : Nat → α → Prog Loc V α) : Prog Loc V α :=
  Prog.loop (hi - lo) p (fun t p => body (lo + t) p)

/-- `pack_a()` (llvm_gemm.h:205-233).  `A` is the offset of the operand; the local array initially
contains `p`. -/
def packA (At : Bool) (A M K iStart kc0 kcLen mValid : Nat) (p : Nat → V) : Prog Loc V (Nat → V) :=
  if !At then
    forAcc 0 c.MR p fun r p =>
      if r < mValid then
        forAcc 0 kcLen p fun k p =>
          (Prog.get (.a, A + (iStart + r) * K + kc0 + k)).bind fun x => .pure (setv p (k * c.MR + r) (e.load x))
      else forAcc 0 kcLen p fun k p => .pure (setv p (k * c.MR + r) e.zero)
  else
    forAcc 0 kcLen p fun k p =>
      (forAcc 0 mValid p fun r p =>
        (Prog.get (.a, A + (kc0 + k) * M + iStart + r)).bind fun x => .pure (setv p (k * c.MR + r) (e.load x))).bind fun p =>
      forAcc mValid c.MR p fun r p => .pure (setv p (k * c.MR + r) e.zero)

/-- `pack_b()` (llvm_gemm.h:238-268).  `B` is the offset of the operand, `dst` that of the slab in
`packed_B`. -/
def packB (Bt : Bool) (B dst N K jStart kc0 kcLen nValid : Nat) : Prog Loc V Unit :=
  if !Bt then
    forLt 0 kcLen fun k =>
      (forLt 0 nValid fun b =>
        (Prog.get (.b, B + (kc0 + k) * N + jStart + b)).bind fun x => Prog.put (.packed, dst + (k * c.NR + b)) (e.load x)).bind fun _ =>
      forLt nValid c.NR fun b => Prog.put (.packed, dst + (k * c.NR + b)) e.zero
  else
    forLt 0 c.NR fun b =>
      if b < nValid then
        forLt 0 kcLen fun k =>
          (Prog.get (.b, B + (jStart + b) * K + kc0 + k)).bind fun x => Prog.put (.packed, dst + (k * c.NR + b)) (e.load x)
      else forLt 0 kcLen fun k => Prog.put (.packed, dst + (k * c.NR + b)) e.zero

/-- The loop over `k` in `gemm_micro()` (llvm_gemm.h:307-317).  The vector registers `r[m][v]` are
represented by their lanes; `pb` is the offset of the slab in `packed_B`. -/
def microLoop (pA : Nat → V) (pb kcLen : Nat) (r : Nat → Nat → V) : Prog Loc V (Nat → Nat → V) :=
  forAcc 0 kcLen r fun k r =>
    (forAcc 0 c.NR (fun _ => e.zero) fun n bv =>
      (Prog.get (.packed, pb + (k * c.NR + n))).bind fun x => .pure (setv bv n x)).bind fun bv =>
    .pure fun m n => e.fma (r m n) (pA (k * c.MR + m)) (bv n)

/-- Read a tile (llvm_gemm.h:302-304, 380-382).  `addr r b` is the position of entry `(r, b)`; the local
array initially contains `q`. -/
def readTile (rows cols : Nat) (buf : Buf) (addr : Nat → Nat → Nat) (q : Nat → Nat → V) : Prog Loc V (Nat → Nat → V) :=
  forAcc 0 rows q fun r q => forAcc 0 cols q fun b q =>
    (Prog.get (buf, addr r b)).bind fun x => .pure fun r' b' => if r' = r ∧ b' = b then x else q r' b'

/-- Write a tile (llvm_gemm.h:319-321, 386-394). -/
def writeTile (rows cols : Nat) (buf : Buf) (addr : Nat → Nat → Nat) (v : Nat → Nat → V) : Prog Loc V Unit :=
  forLt 0 rows fun r => forLt 0 cols fun b => Prog.put (buf, addr r b) (v r b)

/-- `gemm_micro()` (llvm_gemm.h:279-322) on a tile in memory at offset `tile` of `buf`.  (The address of lane
`n` of row `m` is `m * ldc + n`, computed as `uint32_t`.) -/
def microMem (pA : Nat → V) (pb : Nat) (buf : Buf) (tile ldc kcLen : Nat) (first : Bool) : Prog Loc V Unit :=
  (if first then .pure fun _ _ => e.zero
   else readTile c.MR c.NR buf (fun m n => tile + add32 (mul32 m ldc) n) (fun _ _ => e.zero)).bind fun r =>
  (microLoop e c pA pb kcLen r).bind fun r =>
  writeTile c.MR c.NR buf (fun m n => tile + add32 (mul32 m ldc) n) r

/-- `gemm_micro()` on the local array `scratch[MR * NR]`, whose entry `r * NR + b` is written `q r b`. -/
def microLoc (pA : Nat → V) (pb kcLen : Nat) (first : Bool) (q : Nat → Nat → V) : Prog Loc V (Nat → Nat → V) :=
  microLoop e c pA pb kcLen (if first then fun _ _ => e.zero else q)

/-- Where the partial sums of a grid point are kept (`C_b`) -/
structure Target where
  buf : Buf
  base : Nat

/-- One iteration of the loop over column slabs in `gemm_row_sweep()` (llvm_gemm.h:367-397).  The
uninitialised array `scratch` contains `junk`. -/
def sweepTile (junk : Nat → Nat → V) (pA : Nat → V) (t : Target) (fin N iAbs jc kcLen mValid nSlabs nTail : Nat)
    (first narrowStore : Bool) (s : Nat) : Prog Loc V Unit :=
  let nValid := if nTail > 0 ∧ s = nSlabs - 1 then nTail else c.NR
  let pb := s * c.KC * c.NR
  let tile := t.base + (iAbs * N + jc) + s * c.NR
  let out := fin + (iAbs * N + jc) + s * c.NR
  if (mValid = c.MR ∧ nValid = c.NR) ∧ !narrowStore then microMem e c pA pb t.buf tile N kcLen first
  else
    (if first then .pure junk
     else readTile mValid nValid t.buf (fun r b => tile + add32 (mul32 r N) b) junk).bind fun q =>
    (microLoc e c pA pb kcLen first q).bind fun q =>
    if narrowStore then writeTile mValid nValid .c (fun r b => out + add32 (mul32 r N) b) (fun r b => e.store (q r b))
    else writeTile mValid nValid t.buf (fun r b => tile + add32 (mul32 r N) b) q

/-- `gemm_row_sweep()` (llvm_gemm.h:341-399).  The uninitialised array `packed_A` contains `junkA`. -/
def rowSweep (junkA : Nat → V) (junk : Nat → Nat → V) (At : Bool) (A : Nat) (t : Target) (fin M N K iAbs jc pc kcLen nSlabs nTail sLo sHi : Nat)
    (first narrowStore : Bool) : Prog Loc V Unit :=
  let mValid := min c.MR (M - iAbs)
  (packA e c At A M K iAbs pc kcLen mValid junkA).bind fun pA =>
  forLt sLo sHi (sweepTile e c junk pA t fin N iAbs jc kcLen mValid nSlabs nTail first narrowStore)

/-- The values of the variable of the loop `for (uint32_t x = x0; x < n; x += d)`; `none` if the loop does not
end after `fuel` iterations. -/
def steps (n d : Nat) : Nat → Nat → Option (List Nat)
  | 0, _ => none
  | fuel + 1, x => if x < n then (steps n d fuel (add32 x d)).map (x :: ·) else some []

/-- The dimensions of a column panel that starts at column `jc` (llvm_ts.cpp:627-634) -/
structure Panel where
  jc : Nat
  slabs : Nat
  tail : Nat
  chunks : Nat
  chunkSlabs : Nat

/-- The width of panels (llvm_ts.cpp:563-568) -/
def panelWidth (N : Nat) : Nat := min (ceilDiv32 N c.NR) ((c.NC0 + c.NR - 1) / c.NR) * c.NR

@[inherit_doc Panel]
def mkPanel (M N jc : Nat) : Panel :=
  let n := min (panelWidth c N) (N - jc)
  let slabs := (n + c.NR - 1) / c.NR
  let rowSlabs := ceilDiv32 M c.MR
  let chunks := min slabs ((c.cores + rowSlabs - 1) / rowSlabs)
  ⟨jc, slabs, n % c.NR, chunks, (slabs + chunks - 1) / chunks⟩

/-- The two submissions for one segment of the sum (llvm_ts.cpp:645-690).  `A` and `B` are the offsets of
the operands. -/
def segment (junkA : Nat → V) (junk : Nat → Nat → V) (At Bt : Bool) (A B : Nat) (t : Target) (fin M N K : Nat) (p : Panel) (pc kcLen : Nat)
    (first narrowStore : Bool) : List (Phase Loc V) :=
  [(p.slabs, fun idx =>
      packB e c Bt B (idx * c.KC * c.NR) N K (p.jc + idx * c.NR) pc kcLen
        (if p.tail > 0 ∧ idx = p.slabs - 1 then p.tail else c.NR)),
   (mul32 (ceilDiv32 M c.MR) p.chunks, fun idx =>
      let r := idx / p.chunks
      let cc := idx % p.chunks
      let sLo := cc * p.chunkSlabs
      let sHi := min (sLo + p.chunkSlabs) p.slabs
      if sLo ≥ sHi then .pure ()
      else rowSweep e c junkA junk At A t fin M N K (r * c.MR) p.jc pc kcLen p.slabs p.tail sLo sHi first narrowStore)]

/-- `gemm_reduce_decode()` (llvm_gemm.h:190-199) and the loop at llvm_ts.cpp:602-611: the offsets of both
operands that belong to a linear index -/
def decode : List Dim → Nat → Nat × Nat
  | [], _ => (0, 0)
  | d :: l, z =>
    let r := decode l (z / d.extent)
    (z % d.extent * d.aStride + r.1, z % d.extent * d.bStride + r.2)

/-- `jitc_gemm_batch_counts()` (util.h:56-75) for one kind of dimension: `none` if an extent is zero -/
def countPoints : List Dim → Nat → Option Nat
  | [], n => some n
  | d :: l, n => if d.extent = 0 then none else countPoints l (mul32 n d.extent)

/-- What a call does: submissions to the thread pool and temporary allocations (in elements), an
exception, or an infinite loop -/
inductive Plan (V : Type) where
  | ok (phases : List (Phase Loc V)) (packed scratch : Nat)
  | raise
  | diverge

/-- All submissions for one grid point (llvm_ts.cpp:600-693).  `panels` and `segments` are the values of the
loop variables `jc` and `pc`. -/
def gridPoint (junkA : Nat → V) (junk : Nat → Nat → V) (At Bt : Bool) (M N K : Nat) (grid red : List Dim) (reduceCount : Nat) (scratch : Buf)
    (panels segments : List Nat) (b : Nat) : List (Phase Loc V) :=
  let off := decode grid b
  let fin := b * (M * N)
  let t : Target := if e.wide then ⟨scratch, 0⟩ else ⟨.c, fin⟩
  panels.flatMap fun jc =>
    (List.range reduceCount).flatMap fun rb =>
      let roff := decode red rb
      segments.flatMap fun pc =>
        let kcLen := min c.KC (K - pc)
        segment e c junkA junk At Bt (off.1 + roff.1) (off.2 + roff.2) t fin M N K (mkPanel c M N jc) pc kcLen
          (rb = 0 ∧ pc = 0) (e.wide ∧ rb + 1 = reduceCount ∧ pc + kcLen = K)

/-- `LLVMThreadState::batched_gemm()` (llvm_ts.cpp:526-702) -/
def llvmGemm (junkA : Nat → V) (junk : Nat → Nat → V) (fuel : Nat) (At Bt : Bool) (M N K : Nat) (grid red : List Dim) : Plan V :=
  if At && Bt then .raise
  else
    match countPoints grid 1, countPoints red 1 with
    | some gridCount, some reduceCount =>
      if M = 0 ∨ N = 0 then .ok [] 0 0
      else if K = 0 then
        .ok [(1, fun _ => forLt 0 (gridCount * M * N) fun i => Prog.put (.c, i) e.zero)] 0 0
      else
        let needs := e.wide && (K > c.KC || reduceCount > 1)
        match steps N (panelWidth c N) fuel 0, steps K c.KC fuel 0 with
        | some panels, some segments =>
          .ok ((List.range gridCount).flatMap
              (gridPoint e c junkA junk At Bt M N K grid red reduceCount (if needs then .scratch else .null) panels segments))
            (c.KC * panelWidth c N) (if needs then M * N else 0)
        | _, _ => .diverge
    | _, _ => .ok [] 0 0

/-- The loop of the lambda function `drop` (util.cpp:119-123), for one array -/
def shift (n d : Nat) (f : Nat → Nat) : Nat → Nat :=
  (List.range (n - 1 - d)).foldl (fun f t i => if i = d + t then f (d + t + 1) else f i) f

/-- The lambda function `drop` (util.cpp:118-126) -/
def Batch.drop (b : Batch) (d : Nat) : Batch where
  nb := if d < b.nb then b.nb - 1 else b.nb
  nr := if d < b.nb then b.nr else b.nr - 1
  extent := shift (b.nb + b.nr) d b.extent
  aStride := shift (b.nb + b.nr) d b.aStride
  bStride := shift (b.nb + b.nr) d b.bStride

/-- Removal of dimensions of extent one (util.cpp:128-129) -/
def dropOnes (b : Batch) (d : Nat) : Batch :=
  if _h : d < b.nb + b.nr then
    if b.extent d = 1 then dropOnes (b.drop d) d else dropOnes b (d + 1)
  else b
termination_by b.nb + b.nr - d
decreasing_by
  · simp only [Batch.drop]; split <;> omega
  · omega

/-- The first loop (util.cpp:131-137) -/
def foldM (At : Bool) (M K : Nat) (b : Batch) : Nat × Batch :=
  if _h : !At ∧ b.nb > 0 ∧ b.bStride 0 = 0 ∧ b.aStride 0 = M * K ∧ M * b.extent 0 ≤ 2 ^ 32 - 1 then
    foldM At (mul32 M (b.extent 0)) K (b.drop 0)
  else (M, b)
termination_by b.nb
decreasing_by simp only [Batch.drop]; split <;> omega

/-- The second loop (util.cpp:139-145) -/
def foldK (At Bt : Bool) (M N K : Nat) (b : Batch) : Nat × Batch :=
  if _h : (At ∧ !Bt) ∧ b.nr > 0 ∧ b.aStride b.nb = K * M ∧ b.bStride b.nb = K * N ∧ K * b.extent b.nb ≤ 2 ^ 32 - 1 then
    foldK At Bt M N (mul32 K (b.extent b.nb)) (b.drop b.nb)
  else (K, b)
termination_by b.nr
decreasing_by simp only [Batch.drop]; split <;> omega

/-- Element types -/
inductive FType where
  | f16 | f32 | f64 | other
deriving DecidableEq

/-- `jitc_batched_gemm()` (util.cpp:69-151) on the LLVM backend.  `maxDims` is `DRJIT_GEMM_MAX_BDIMS`.
A null pointer for `batch` is represented by `none`.  The element type only matters for the check; its arithmetic is `e`. -/
def batchedGemm (junkA : Nat → V) (junk : Nat → Nat → V) (fuel maxDims : Nat) (type : FType) (At Bt : Bool) (M N K : Nat) (batch : Option Batch) : Plan V :=
  if M = 0 ∨ N = 0 ∨ K = 0 then .ok [] 0 0
  else if batch.any (fun b => b.nb + b.nr > maxDims) then .raise
  else if type = .other then .raise
  else
    let b := dropOnes (batch.getD .none) 0
    let m := foldM At M K b
    let k := foldK At Bt m.1 N K m.2
    llvmGemm e c junkA junk fuel At Bt m.1 N k.1 k.2.grid k.2.red

end Verif.Gemm
