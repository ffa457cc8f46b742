import Mathlib.Data.List.Basic
import Mathlib.Logic.Function.Basic

/-!
# Contexts with a subset of the multiprocessors of a CUDA device

Source: `src/cuda_green.cpp`, `src/common.h`.

Simplifications: handles are natural numbers; functions of the driver succeed, except for the destruction of a null handle, which is an error (`cuda_check` fails).  The mutex, log messages
and the check for missing functions of the driver are not modelled.
-/
namespace Verif.Green

/-- `CUdevResource`: `smCount`, `minSmPartitionSize`, `smCoscheduledAlignment` -/
structure SmRes where
  count : Nat
  minPart : Nat
  align : Nat

/-- `ceil_div`, `common.h:108-110`, on `uint32_t` -/
def ceilDiv (x a : Nat) : Nat := (x + a + (2 ^ 32 - 1)) % 2 ^ 32 / a

/-- `align_up`, `common.h:113-115`, on `uint32_t` -/
def alignUp (x a : Nat) : Nat := ceilDiv x a * a % 2 ^ 32

/-- Correction of values that the driver reports, `cuda_green.cpp:49-51` -/
def fixMin (r : SmRes) : Nat := if r.minPart = 0 ∨ r.minPart > r.count then 1 else r.minPart

/-- The alignment, `cuda_green.cpp:53-55` -/
def fixAlign (r : SmRes) : Nat := if r.align = 0 ∨ r.align > fixMin r then 1 else r.align

/-- Number of multiprocessors of the new context, `cuda_green.cpp:30-31, 45-47, 57-65`: `none` stands for an exception -/
def smCount (r : SmRes) (requested : Nat) : Option Nat :=
  if requested = 0 then none
  else if r.count = 0 then none
  else
    let rounded := alignUp (max requested (fixMin r)) (fixAlign r)
    if rounded > r.count then none else some rounded

/-- Fields of a thread's state that refer to a context, `ThreadStateBackup`, `cuda_green.cpp:15-21` -/
structure Dev where
  context : Nat
  stream : Nat
  event : Nat
  syncStreamEvent : Nat
deriving DecidableEq

/-- `CUDAGreenContext`, `cuda_green.cpp:7-12`; 0 is the null handle -/
structure Ctx where
  green1 : Nat
  green2 : Nat
  dev : Dev

/-- State of all threads -/
abbrev Threads := Nat → Dev

/-- `jitc_cuda_green_context_enter`, `cuda_green.cpp:160-184`, by the thread `t`; the token remembers the thread and what its state was -/
def enter (t : Nat) (ctx : Option Ctx) (s : Threads) : Threads × Option (Nat × Dev) :=
  match ctx with
  | none => (s, none)
  | some c => (Function.update s t ⟨c.dev.context, c.dev.stream, c.dev.event, c.dev.syncStreamEvent⟩,
      some (t, ⟨(s t).context, (s t).stream, (s t).event, (s t).syncStreamEvent⟩))

/-- `jitc_cuda_green_context_leave`, `cuda_green.cpp:186-201` -/
def leave (token : Option (Nat × Dev)) (s : Threads) : Threads :=
  match token with
  | none => s
  | some (t, b) => Function.update s t ⟨b.context, b.stream, b.event, b.syncStreamEvent⟩

/-- Handles that belong to the driver: multiset of those that have been created and not destroyed -/
abbrev Handles := List Nat

/-- Handles that `jitc_cuda_green_context_make` creates, `cuda_green.cpp:83-117`: `h` yields new handles, `haveOther` says whether multiprocessors are left -/
def make (h : Nat → Nat) (haveOther : Bool) (live : Handles) : Ctx × Handles :=
  let g1 := h 0
  let g2 := if haveOther then h 1 else 0
  (⟨g1, g2, ⟨h 2, h 3, h 4, h 5⟩⟩, h 5 :: h 4 :: h 3 :: ((if haveOther then [h 1] else []) ++ h 0 :: live))

/-- A function of the driver that destroys a handle: fails if it does not exist -/
def destroy (x : Nat) (live : Handles) : Option Handles := if x ∈ live then some (live.erase x) else none

/-- `jitc_cuda_green_context_release`, `cuda_green.cpp:137-158` -/
def release (c : Ctx) (live : Handles) : Option Handles :=
  (((destroy c.dev.stream live).bind (destroy c.dev.event)).bind (destroy c.dev.syncStreamEvent)).bind fun live =>
    (destroy c.green2 live).bind (destroy c.green1)

/-- What a user does: threads activate contexts (possibly null), leave the one that they have activated last and not left yet, and launch kernels -/
inductive Op where
  | enter (t : Nat) (ctx : Option Ctx)
  | leave (t : Nat)
  | launch (t kernel : Nat)

/-- Execution with the tokens that each thread holds; yields the kernels and where they are launched -/
def run : Threads → (Nat → List (Option (Nat × Dev))) → List Op → List (Nat × Dev)
  | _, _, [] => []
  | s, tk, .enter t ctx :: ops => run (enter t ctx s).1 (Function.update tk t ((enter t ctx s).2 :: tk t)) ops
  | s, tk, .leave t :: ops =>
    match tk t with
    | [] => run s tk ops
    | x :: xs => run (leave x s) (Function.update tk t xs) ops
  | s, tk, .launch t k :: ops => (k, s t) :: run s tk ops

end Verif.Green
