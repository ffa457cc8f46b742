import Verif.CudaPerm.Model
import Verif.Llvm.Mem

/-!
# Launches on CUDA devices, and the helper kernels that fill and assemble memory

Sources: `src/internal.h:563-615` (`get_launch_config`), `src/cuda_ts.cpp:74-110` (launch of generated kernels),
`src/cuda_eval.cpp:126-149` (their prologue), `src/optix_core.cpp:486-511` (launches with OptiX), `src/cuda_ts.cpp:128-182, 977-1026` (`memset_async`, `memcpy_async`,
`poke`, `aggregate`), `resources/misc.cuh`.

Memory is a map from addresses to bytes, as in `Verif.Llvm.Mem` (C50).  `launchConfig` is the function of
`Verif.CudaPerm.Model`.  Simplifications: launches with OptiX: only the elements they process; CUDA's own functions
(`cuMemsetD8Async`, ...) do what their documentation says; addresses do not wrap around.
-/
namespace Verif.CudaLaunch
open Verif.CudaPerm (Config launchConfig u32)
open Verif.Llvm.Mem (Byte Entry aggStep putBytes)
open Verif.Par (Phase)

/-- The index that a thread computes: `mad.lo.u32 %r0, %ctaid.x, %ntid.x, %tid.x`, `cuda_eval.cpp:127-130`; also
`misc.cuh:29,43` -/
def threadIndex (c : Config) (b t : Nat) : Nat := u32 (u32 (b * c.threads) + t)

/-- All threads of a launch: thread block and thread -/
def threads (c : Config) : List (Nat × Nat) :=
  (List.range c.blocks).flatMap fun b => (List.range c.threads).map fun t => (b, t)

/-- The elements that the threads of a generated kernel evaluate: a thread exits if its index is not less than
the size (`setp.ge.u32 %p0, %r0, %r2; @%p0 ret`), `cuda_eval.cpp:139-142`.  `maxThreads` is the block size
of the kernel, `cuda_ts.cpp:100-106`. -/
def evaluated (sm size maxThreads : Nat) : List Nat :=
  let c := launchConfig sm size maxThreads 0
  ((threads c).map fun x => threadIndex c x.1 x.2).filter fun i => i < size

/-- `limit`, `optix_core.cpp:493` -/
def optixLimit (preemptable : Bool) : Nat := if preemptable then 2 ^ 30 else 2 ^ 21

theorem optixLimit_pos (preemptable : Bool) : 0 < optixLimit preemptable := by cases preemptable <;> decide

/-- The loop of `jitc_optix_launch`, `optix_core.cpp:495-511`: offset and size of every launch.  (The offset that the kernel
reads was stored before the launch, in the order of the stream; initially it is zero, since parameter 0 is the
size as a 64-bit number.) -/
def optixLaunches (preemptable : Bool) (size offset : Nat) : List (Nat × Nat) :=
  if h : 0 < size then
    let sub := if size < optixLimit preemptable then size else optixLimit preemptable
    (offset, sub) :: optixLaunches preemptable (size - sub) (u32 (offset + sub))
  else []
termination_by size
decreasing_by
  have := optixLimit_pos preemptable
  split <;> omega

/-- The elements that are evaluated in a launch with OptiX: launch index plus offset, `cuda_eval.cpp:144-148` -/
def optixEvaluated (preemptable : Bool) (size : Nat) : List Nat :=
  (optixLaunches preemptable size 0).flatMap fun x => (List.range x.2).map fun i => u32 (i + x.1)

/-! ### `fill_64` -/

/-- `Visits step size i l`: the loop `for (; i < size; i += step)` ends and visits `l`, `misc.cuh:29-30` -/
inductive Visits (step size : Nat) : Nat → List Nat → Prop
  | stop {i : Nat} : ¬ i < size → Visits step size i []
  | next {i : Nat} {l : List Nat} : i < size → Visits step size (u32 (i + step)) l → Visits step size i (i :: l)

/-- The stores of one element of `isize` bytes at index `i` -/
def storeBytes (p isize i : Nat) (src : Nat → Byte) : List (Nat × Byte) :=
  (List.range isize).map fun k => (p + i * isize + k, src k)

/-- Stores `ws`, executed from left to right (modelling device, no counterpart in the code) -/
def apply (ws : List (Nat × Byte)) (m : Nat → Byte) : Nat → Byte :=
  ws.foldl (fun m w => Function.update m w.1 w.2) m

/-- Executions of `fill_64`, `misc.cuh:28-32`: every thread ends, and the stores of all threads happen in some order.
CUDA refuses launches without thread blocks. -/
def FillExec (c : Config) (p size : Nat) (src : Nat → Byte) (m m' : Nat → Byte) : Prop :=
  0 < c.blocks ∧ ∃ vis : Nat × Nat → List Nat,
    (∀ x ∈ threads c, Visits (u32 (c.threads * c.blocks)) size (threadIndex c x.1 x.2) (vis x)) ∧
    ∃ ws : List (Nat × Byte), ws.Perm ((threads c).flatMap fun x => (vis x).flatMap fun i => storeBytes p 8 i src) ∧ m' = apply ws m

/-- What `CUDAThreadState::memset_async` does: an exception, nothing, a function of the driver that
fills `count` elements of `width` bytes, or a launch of `fill_64` -/
inductive Action where
  | raise
  | nothing
  | driver (width count : Nat)
  | fill (c : Config) (size : Nat)

/-- `CUDAThreadState::memset_async`, `cuda_ts.cpp:129-182`.  (`size_t` products do not wrap around.) -/
def memset (sm size isize : Nat) (src : Nat → Byte) : Action :=
  if isize ≠ 1 ∧ isize ≠ 2 ∧ isize ≠ 4 ∧ isize ≠ 8 then .raise
  else if size = 0 then .nothing
  else if (List.range isize).all fun k => src k = 0 then .driver 1 (size * isize)
  else if isize = 8 then .fill (launchConfig sm size 1024 0) size
  else .driver isize size

/-- Executions of an action for the region at `p` -/
def Action.Exec (p : Nat) (src : Nat → Byte) (m m' : Nat → Byte) : Action → Prop
  | .raise => False
  | .nothing => m' = m
  | .driver width count => m' = apply ((List.range count).flatMap fun i => storeBytes p width i src) m
  | .fill c size => FillExec c p size src m m'

/-! ### `poke`, `aggregate` -/

/-- `CUDAThreadState::poke`, `cuda_ts.cpp:988-1006`, and the kernels `poke_*`, `misc.cuh:12-26`: one thread; `none` if an
exception is raised -/
def poke (dst size : Nat) (src : Nat → Byte) : Option (Phase Nat Byte) :=
  if size = 1 ∨ size = 2 ∨ size = 4 ∨ size = 8 then some (1, fun _ => putBytes dst size src) else none

/-- `CUDAThreadState::aggregate`, `cuda_ts.cpp:1008-1026`, and the kernel `aggregate`, `misc.cuh:42-61`: one entry per
thread.  `aggStep` (see `Verif.Llvm.Mem`) is the same `switch` as that of the LLVM backend, here
`misc.cuh:47-60`.  `none` if CUDA refuses the launch. -/
def aggregate (sm dst size : Nat) (agg : Nat → Entry) : Option (Phase Nat Byte) :=
  let c := launchConfig sm size 1024 0
  if c.blocks = 0 then none
  else some (c.blocks * c.threads, fun n =>
    let idx := threadIndex c (n / c.threads) (n % c.threads)
    if idx ≥ size then .pure () else aggStep dst (agg idx))

end Verif.CudaLaunch
