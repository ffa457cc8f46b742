import Mathlib.Data.Nat.Find

/-!
# Decoupled look-back between thread blocks

Models the communication between the thread blocks of the CUDA kernels `block_prefix_reduce` (`/repo/resources/block_prefix_reduce.cuh:144-202`) and
`compress_large` (`/repo/resources/compress.cuh:99-142`), and the tagged loads and stores (`/repo/resources/common.h:180-254`).

Each thread block processes one chunk; the chunks `r * cpb, ..., r * cpb + cpb - 1` form row `r`.  The steps of all warps are interleaved arbitrarily; the
lanes of a warp load independently of each other, and 64 bit values consist of two words that are stored and loaded separately.
-/
namespace Verif.Cuda

variable {V H : Type}

/-- The parameters of a launch -/
structure Cfg (V H : Type) where
  red : V → V → V
  init : V
  /-- number of words of a value -/
  nw : Nat
  /-- the words of a value -/
  part : Nat → V → H
  /-- the value with the given words -/
  join : (Nat → Option H) → V
  /-- warps per thread block -/
  warps : Nat
  /-- chunks per row -/
  cpb : Nat
  /-- number of chunks -/
  chunks : Nat
  /-- the value of each thread after the scan within its thread block -/
  val : Nat → Nat → V
  /-- the reduction across the lanes of a warp -/
  combine : (Nat → V) → Nat → V

/-- `rel_chunk` (block_prefix_reduce.cuh:86-90, 110) -/
def Cfg.rel (C : Cfg V H) (c : Nat) : Nat := c % C.cpb

/-- The thread that publishes results: the last one (`is_leader`, block_prefix_reduce.cuh:150; compress.cuh:98) -/
def Cfg.leader (C : Cfg V H) : Nat := 32 * C.warps - 1

/-- The scratch memory and the registers of all threads -/
structure LState (V H : Type) where
  /-- scratch memory: words of chunks, with their status -/
  word : Nat → Nat → H × Nat
  /-- leader: number of stores executed -/
  stage : Nat → Nat
  /-- leader: the complete value -/
  full : Nat → Option V
  /-- warp: iterations of the loop that moved on; `shift` is `lane - 32 * (round + 1)` -/
  round : Nat → Nat → Nat
  /-- lane: `prefix` -/
  pre : Nat → Nat → Nat → V
  /-- lane: words loaded in this iteration -/
  got : Nat → Nat → Nat → Nat → Option (H × Nat)
  /-- warp: has left the loop -/
  done : Nat → Nat → Bool

/-- The scratch memory is cleared before the launch (cuda_ts.cpp:661-667, compress.cuh:150-155); `prefix` is initialised. -/
def LState.start (C : Cfg V H) : LState V H :=
  { word := fun _ k => (C.part k C.init, 0), stage := fun _ => 0, full := fun _ => none, round := fun _ _ => 0, pre := fun _ _ _ => C.init
    got := fun _ _ _ _ => none, done := fun _ _ => false }

/-- `status` of a loaded value (common.h:210-254): the common status of its words, 0 if they differ -/
def status (nw : Nat) (g : Nat → Option (H × Nat)) : Nat :=
  if ∀ k, k < nw → (g k).map Prod.snd = (g 0).map Prod.snd then ((g 0).map Prod.snd).getD 0 else 0

/-- What a lane reads (block_prefix_reduce.cuh:165-171).  In `compress_large`, chunks before the first one are the padding of the scratch
memory, which `compress_large_init` sets to the value 0 with status 2. -/
def Cfg.fetch (C : Cfg V H) (s : LState V H) (c w l k : Nat) : H × Nat :=
  if 32 * (s.round c w + 1) ≤ C.rel c + l then s.word (c + l - 32 * (s.round c w + 1)) k else (C.part k C.init, 2)

/-- The status and the value that a lane has loaded -/
def Cfg.st (C : Cfg V H) (s : LState V H) (c w l : Nat) : Nat := status C.nw (s.got c w l)
@[inherit_doc Cfg.st]
def Cfg.pred (C : Cfg V H) (s : LState V H) (c w l : Nat) : V := C.join fun k => (s.got c w l k).map Prod.fst

/-- The iteration after the loads (block_prefix_reduce.cuh:173-191): `__any_sync`, `__ballot_sync`, and the update of `prefix` -/
def Cfg.sync (C : Cfg V H) (s : LState V H) (c w : Nat) : LState V H :=
  if (List.range 32).any fun l => C.st s c w l = 0 then
    { s with got := fun c' w' => if c' = c ∧ w' = w then fun _ _ => none else s.got c' w' }
  else if (List.range 32).all fun l => C.st s c w l ≠ 2 then
    { s with
      got := fun c' w' => if c' = c ∧ w' = w then fun _ _ => none else s.got c' w'
      pre := fun c' w' => if c' = c ∧ w' = w then fun l => C.red (s.pre c w l) (C.pred s c w l) else s.pre c' w'
      round := fun c' w' => if c' = c ∧ w' = w then s.round c w + 1 else s.round c' w' }
  else
    -- `index` is `31 - __clz(mask)`: the highest lane whose predecessor is complete
    { s with
      pre := fun c' w' => if c' = c ∧ w' = w then
          fun l => if Nat.findGreatest (fun l => C.st s c w l = 2) 31 ≤ l then C.red (s.pre c w l) (C.pred s c w l) else s.pre c w l
        else s.pre c' w'
      done := fun c' w' => if c' = c ∧ w' = w then true else s.done c' w' }

/-- The steps of the threads of chunk `c` -/
inductive LStep (C : Cfg V H) (c : Nat) : LState V H → LState V H → Prop
  /-- the leader stores a word of the partial result (block_prefix_reduce.cuh:152-153; common.h:180-208) -/
  | store1 (s : LState V H) : s.stage c < C.nw →
      LStep C c s { s with
        word := fun c' k => if c' = c ∧ k = s.stage c then (C.part k (C.val c C.leader), 1) else s.word c' k
        stage := fun c' => if c' = c then s.stage c + 1 else s.stage c' }
  /-- a lane loads a word; the leader does so after its stores -/
  | load (s : LState V H) (w l k : Nat) : w < C.warps → l < 32 → k < C.nw → s.done c w = false → s.got c w l k = none → (32 * w + l = C.leader → C.nw ≤ s.stage c) →
      LStep C c s { s with got := fun c' w' l' k' => if c' = c ∧ w' = w ∧ l' = l ∧ k' = k then some (C.fetch s c w l k) else s.got c' w' l' k' }
  /-- all lanes of a warp have loaded their words -/
  | sync (s : LState V H) (w : Nat) : w < C.warps → s.done c w = false → (∀ l k, l < 32 → k < C.nw → (s.got c w l k).isSome) → LStep C c s (C.sync s c w)
  /-- the leader computes its result (block_prefix_reduce.cuh:194-198) -/
  | finish (s : LState V H) : s.done c (C.warps - 1) = true → s.full c = none →
      LStep C c s { s with full := fun c' => if c' = c then some (C.red (C.val c C.leader) (C.combine (s.pre c (C.warps - 1)) 31)) else s.full c' }
  /-- the leader stores a word of the complete result (block_prefix_reduce.cuh:200-201) -/
  | store2 (s : LState V H) (v : V) : C.nw ≤ s.stage c → s.stage c < 2 * C.nw → s.full c = some v →
      LStep C c s { s with
        word := fun c' k => if c' = c ∧ k = s.stage c - C.nw then (C.part k v, 2) else s.word c' k
        stage := fun c' => if c' = c then s.stage c + 1 else s.stage c' }

/-- Steps of the chunks for which `on` holds -/
inductive LRun (C : Cfg V H) (on : Nat → Prop) : LState V H → LState V H → Prop
  | refl (s : LState V H) : LRun C on s s
  | tail {s t u : LState V H} (c : Nat) : LRun C on s t → c < C.chunks → on c → LStep C c t u → LRun C on s u

/-- `prefix` of a thread after the look-back (block_prefix_reduce.cuh:194-196) -/
def Cfg.prefixOf (C : Cfg V H) (s : LState V H) (c t : Nat) : V := C.combine (s.pre c (t / 32)) (t % 32)

/-- All threads of the chunk have terminated. -/
def Cfg.Terminated (C : Cfg V H) (s : LState V H) (c : Nat) : Prop := (∀ w, w < C.warps → s.done c w = true) ∧ s.stage c = 2 * C.nw

end Verif.Cuda
