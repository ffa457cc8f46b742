import Verif.Cuda.Reduce

/-!
# Dot products on CUDA devices

Models `CUDAThreadState::reduce_dot` (`/repo/src/cuda_ts.cpp:354-397`) and the kernel `reduce_2` (`/repo/resources/reduce_2.cuh:12-66`) with 1024 threads per thread block.

Simplifications: warps execute shuffles in lockstep.  `__syncthreads` separates phases; within a phase, the accesses of threads to shared memory are interleaved arbitrarily.
-/
namespace Verif.Cuda

open Verif.Par Verif.Arith

variable {T V : Type}

/-- `reduction_dot` (reduce_2.cuh:68-76), and the reduction used for the second step -/
structure DotOps (T V : Type) where
  /-- `fma_(a, b, accum)` -/
  fma : T → T → T → T
  /-- `add_` -/
  add : T → T → T
  zero : T
  /-- `ReduceOp::Add` of `block_reduce` -/
  R : Red T V

/-- `value` after an iteration (reduce_2.cuh:27-30) -/
def DotOps.acc (D : DotOps T V) (x1 x2 : Nat → T) (size i : Nat) (v : T) : T :=
  if u32 (i + 1024) < size then D.fma (x1 (u32 (i + 1024))) (x2 (u32 (i + 1024))) (D.fma (x1 i) (x2 i) v) else D.fma (x1 i) (x2 i) v

/-- The loop (reduce_2.cuh:26-31): started with index `i` and value `v`, it ends with the value `v'`. -/
inductive DotOps.Loop (D : DotOps T V) (x1 x2 : Nat → T) (size stride : Nat) : Nat → T → T → Prop
  | done (i : Nat) (v : T) : ¬ i < size → Loop D x1 x2 size stride i v v
  | step (i : Nat) (v v' : T) : i < size → Loop D x1 x2 size stride (u32 (i + stride)) (D.acc x1 x2 size i v) v' → Loop D x1 x2 size stride i v v'

/-- `shared[tid] = value` (reduce_2.cuh:34) -/
def dotInit (vals : Nat → T) (t : Nat) : Prog SLoc T Unit := (Prog.put (.reg t) (vals t)).bind fun _ => Prog.put (.sh t) (vals t)

/-- `if (tid < h) shared[tid] = value = red(value, shared[tid + h])` (reduce_2.cuh:38-39, 42-43, 46-47, 50-51) -/
def dotStep (add : T → T → T) (h t : Nat) : Prog SLoc T Unit :=
  if t < h then (Prog.get (.reg t)).bind fun v => (Prog.get (.sh (t + h))).bind fun w => (Prog.put (.reg t) (add v w)).bind fun _ => Prog.put (.sh t) (add v w)
  else Prog.pure ()

/-- The phases between barriers (reduce_2.cuh:33-52), with `n` steps -/
def dotPhases (add : T → T → T) (vals : Nat → T) : Nat → List (Phase SLoc T)
  | 0 => [(1024, dotInit vals)]
  | n + 1 => dotPhases add vals n ++ [(1024, dotStep add (2 ^ (9 - n)))]

/-- The value stored by thread 0 (reduce_2.cuh:54-64) -/
def dotLast (add : T → T → T) (m : SLoc → T) : T := butterfly add 5 (fun t => add (m (.reg t)) (m (.sh (t + 32)))) 0

/-- An execution of the kernel with `nb` thread blocks turns the memory `y` behind `out` into `y'`. -/
def DotOps.Runs (D : DotOps T V) (nb size : Nat) (x1 x2 y y' : Nat → T) : Prop :=
  ∃ (vals : Nat → Nat → T) (m : Nat → SLoc → T),
    (∀ c t, c < nb → t < 1024 → D.Loop x1 x2 size (u32 (2048 * nb)) (u32 (2048 * c + t)) D.zero (vals c t)) ∧
    (∀ c, c < nb → ∃ m0, Ends (dotPhases D.add (vals c) 4) m0 (m c)) ∧
    ∀ e, y' e = if e < nb then dotLast D.add (m e) else y e

/-- `block_count` (cuda_ts.cpp:368-370) -/
def dotBlocks (sm size : Nat) : Nat := min (u32 (sm * 4)) (sub32 (u32 (size + 2048)) 1 / 2048)

/-- Outcomes of `reduce_dot` -/
inductive DotOut (T : Type)
  /-- the driver rejects the launch (an empty grid) -/
  | fail
  | ok (o : PrefixOut T)

/-- `CUDAThreadState::reduce_dot` (cuda_ts.cpp:354-397) on a device with `sm` multiprocessors; the memory behind `out` is `y`.  Temporary memory `z` has the address `a`. -/
def Dot (D : DotOps T V) (tsize sm size : Nat) (x1 x2 y : Nat → T) (o : DotOut T) : Prop :=
  if dotBlocks sm size = 0 then o = .fail
  else if dotBlocks sm size = 1 then ∃ y', D.Runs 1 size x1 x2 y y' ∧ o = .ok (.ok y')
  else ∃ a z z' o', D.Runs (dotBlocks sm size) size x1 x2 z z' ∧ Reduce D.R tsize (dotBlocks sm size) (dotBlocks sm size) a z' y o' ∧ o = .ok o'

end Verif.Cuda
