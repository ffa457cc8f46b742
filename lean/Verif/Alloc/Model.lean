import Verif.Arith.Model
/-!
# Model of `src/malloc.h` and `src/malloc.cpp`: the caching allocator

Addresses are natural numbers, `0` is the null pointer.  What the operating system / GPU driver
answers to an allocation request is an input of the operation (`none` = failure), so that all
theorems quantify over every possible answer.  The hash map `alloc_used` is an association
list, `alloc_free` (a map from descriptors to stacks) is one list with the most recently
released block first.  The byte counters are integers (they are `size_t` in C++, that is, the
model ignores wrap-around beyond 2^64 bytes).
-/
namespace Verif.Alloc
open Verif.Arith

/-- `JitBackend` (include/drjit-core/jit.h): None = 0, CUDA = 1, LLVM = 2, Metal = 3. -/
inductive Backend where
  | none | cuda | llvm | metal
deriving DecidableEq, Repr

def Backend.code : Backend → Nat
  | .none => 0 | .cuda => 1 | .llvm => 2 | .metal => 3

def Backend.ofCode : Nat → Backend
  | 0 => .none | 1 => .cuda | 2 => .llvm | _ => .metal

/-- `jitc_is_gpu`. -/
def Backend.isGpu : Backend → Bool
  | .cuda | .metal => true
  | _ => false

/-- The four fields that `AllocInfo` packs into 64 bits (src/malloc.h:17-26). -/
structure Info where
  size : Nat
  backend : Backend
  shared : Bool
  device : Nat
deriving DecidableEq, Repr

/-- `alloc_info_encode` (src/malloc.h:20-26), on 64-bit words. -/
def encode (i : Info) : BitVec 64 :=
  (BitVec.ofNat 64 i.size <<< 11) ||| (BitVec.ofNat 64 i.shared.toNat <<< 10) |||
  (BitVec.ofNat 64 i.backend.code <<< 8) ||| BitVec.ofNat 64 i.device

/-- `alloc_info_decode` (src/malloc.h:28-34). -/
def decode (v : BitVec 64) : Info where
  size := (v >>> 11).toNat
  backend := Backend.ofCode ((v >>> 8) &&& 3#64).toNat
  shared := ((v >>> 10) &&& 1#64) != 0#64
  device := (v &&& 0xFF#64).toNat

/-- A block of memory owned by the allocator. -/
structure Block where
  ptr : Nat
  info : Info
deriving DecidableEq, Repr

/-- Allocator state: `alloc_used`, `alloc_free`, the per-thread lists `free_later` and
`free_next` (src/internal.h:814-820), the batches attached to in-flight work
(src/init.cpp:880-887, src/llvm_ts.cpp:80-92), blocks leaked after shutdown
(src/malloc.cpp:286-287), and the three byte counters. -/
structure State where
  used : List Block := []
  free : List Block := []
  later : List (Nat × Block) := []
  next : List (Nat × Block) := []
  inflight : List (Nat × List Block) := []
  leaked : List Block := []
  usage : Backend → Int := fun _ => 0
  allocated : Backend → Int := fun _ => 0
  watermark : Backend → Int := fun _ => 0

/-- Parameters of the machine: `jitc_llvm_vector_width`. -/
structure Cfg where
  width : Nat := 8
deriving DecidableEq, Repr

def upd (f : Backend → Int) (b : Backend) (v : Int) : Backend → Int :=
  fun x => if x = b then v else f x

/-- Rounding of the request (src/malloc.cpp:110-124), 64-bit arithmetic. -/
def roundSize (cfg : Cfg) (backend : Backend) (size : Nat) : Nat :=
  let hostAlloc := backend = .none ∨ backend = .llvm
  let size :=
    if ¬ hostAlloc ∨ cfg.width < 16 then
      ((size + 63) % 2 ^ 64) / 64 * 64
    else
      let packet := cfg.width * 8
      ((size + packet - 1) % 2 ^ 64) / packet * packet
  roundPow2_64 size

/-- `DRJIT_HUGEPAGE_SIZE` (src/malloc.cpp:31). -/
def HUGEPAGE : Nat := 2 * 1024 * 1024

/-- `MAP_FAILED`, that is `(void *) -1`. -/
def MAP_FAILED : Nat := 2 ^ 64 - 1

/-- `aligned_malloc` on POSIX systems (src/malloc.cpp:55-88): small requests use
`posix_memalign` and return null on failure; big requests use `mmap` and return its
result **unchecked**, i.e. `MAP_FAILED` on failure. -/
def alignedMalloc (size : Nat) (os : Option Nat) : Option Nat :=
  match os with
  | some p => some p
  | none => if size < HUGEPAGE then none else some MAP_FAILED

/-- One allocation attempt (src/malloc.cpp:166-193): host allocations go through
`aligned_malloc`, GPU allocations through the driver (null on failure). -/
def rawAlloc (backend : Backend) (size : Nat) (os : Option Nat) : Option Nat :=
  if backend.isGpu then os else alignedMalloc size os

def sizeOf (b : Backend) (l : List Block) : Int :=
  ((l.filter fun x => x.info.backend = b).map fun x => (x.info.size : Int)).sum

inductive Res where
  | ptr (p : Nat)
  | unit
  | raise
deriving DecidableEq, Repr

/-- `jitc_flush_malloc_cache` (src/malloc.cpp:438-540).  `freezing` tells whether
the `FreezingScope` flag is set.  Returns `none` when it raises.  Before the lists are taken,
`jitc_sync_all_devices` waits for outstanding work; completions are separate
operations in this model. -/
def State.flush (s : State) (freezing : Bool) : Option State :=
  if freezing then none
  else some { s with free := [], allocated := fun b => s.allocated b - sizeOf b s.free }

/-- Inserting a new block in `alloc_used` (`emplace` keeps an existing entry,
src/malloc.cpp:219-220). -/
def State.use (s : State) (p : Nat) (i : Info) : State :=
  { s with used := if s.used.any (fun b => b.ptr == p) then s.used else ⟨p, i⟩ :: s.used
           usage := upd s.usage i.backend (s.usage i.backend + i.size) }

/-- Circumstances of a call.  `freezing`: the `FreezingScope` flag is set.  `stale`: the lookup
in the cache missed, although the cache holds a suitable block when the allocation is
finally entered in the table.  That happens when other threads free memory while
`jitc_malloc` has released the lock around the OS call (src/malloc.cpp:171,
`unlock_guard`); operations of other threads in that window are ordered before this call. -/
structure Env where
  freezing : Bool := false
  stale : Bool := false
deriving DecidableEq, Repr

/-- `jitc_malloc` (src/malloc.cpp:102-234).  `device` is the device of the calling
thread (0 for host and LLVM); `os1`, `os2` are the operating system's answers to
the two attempts. -/
def State.malloc (cfg : Cfg) (s : State) (backend : Backend) (size : Nat) (shared : Bool)
    (device : Nat) (os1 os2 : Option Nat) (env : Env) : Res × State :=
  if size = 0 then (.ptr 0, s)
  else
    let shared := if backend = .none then false else shared
    let sz := roundSize cfg backend size
    let device := if backend.isGpu then device else 0
    let ai : Info := ⟨sz, backend, shared, device⟩
    match (if env.stale then none else s.free.find? (fun b => b.info = ai)) with
    | some b => (.ptr b.ptr, { s with free := s.free.erase b }.use b.ptr ai)
    | none =>
      let bump (s : State) : State :=
        let a := s.allocated backend + sz
        { s with allocated := upd s.allocated backend a
                 watermark := upd s.watermark backend (max a (s.watermark backend)) }
      match rawAlloc backend sz os1 with
      | some p => (.ptr p, (bump s).use p ai)
      | none => match s.flush env.freezing with
        | none => (.raise, s)
        | some s1 => match rawAlloc backend sz os2 with
          | some p => (.ptr p, (bump s1).use p ai)
          | none => (.raise, bump s1)

/-- `jitc_free` (src/malloc.cpp:252-306) on behalf of thread `t`; `hasTs` tells whether the
calling thread has a `ThreadState` of the block's backend. -/
def State.release (s : State) (p : Nat) (t : Nat) (hasTs : Bool) : Res × State :=
  if p = 0 then (.unit, s)
  else match s.used.find? (fun b => b.ptr == p) with
    | none => (.raise, s)
    | some b =>
      let i := b.info
      let s1 := { s with used := s.used.erase b
                         usage := upd s.usage i.backend (s.usage i.backend - i.size) }
      let ts := hasTs && (i.backend != .none)
      if i.shared && !ts then (.unit, { s1 with leaked := b :: s1.leaked })
      else
        let submitDeferred := !i.shared && i.backend == .metal && ts
        if i.backend == .none || (!i.shared && !submitDeferred) then
          (.unit, { s1 with free := b :: s1.free })
        else if i.shared then (.unit, { s1 with later := (t, b) :: s1.later })
        else (.unit, { s1 with next := (t, b) :: s1.next })

/-- Submission of the work of thread `t`: the `free_later` blocks become a batch that is
attached to the in-flight work (`take_deferred_free`, src/init.cpp:880-887;
`flush_deferred_free`, src/llvm_ts.cpp:80-92, src/cuda_ts.cpp:1040-1045) and the
`free_next` blocks go to the cache (src/metal_ts.mm:95-100). -/
def State.submit (s : State) (t : Nat) : State :=
  let batch := (s.later.filter fun x => x.1 == t).map (·.2)
  let nxt := (s.next.filter fun x => x.1 == t).map (·.2)
  { s with later := s.later.filter fun x => !(x.1 == t)
           next := s.next.filter fun x => !(x.1 == t)
           free := nxt ++ s.free
           inflight := (t, batch) :: s.inflight }

/-- Completion of the `n`-th in-flight batch: `jitc_malloc_release_batch`
(src/malloc.cpp:242-250). -/
def State.complete (s : State) (n : Nat) : State :=
  match s.inflight[n]? with
  | none => s
  | some (_, batch) => { s with inflight := s.inflight.eraseIdx n, free := batch.reverse ++ s.free }

/-- Destruction of the thread state (src/init.cpp:867-875): parked blocks are returned
synchronously. -/
def State.threadExit (s : State) (t : Nat) : State :=
  let batch := (s.later.filter fun x => x.1 == t).map (·.2)
  let nxt := (s.next.filter fun x => x.1 == t).map (·.2)
  { s with later := s.later.filter fun x => !(x.1 == t)
           next := s.next.filter fun x => !(x.1 == t)
           free := nxt ++ (batch ++ s.free) }

/-- `jitc_malloc_clear_statistics` (src/malloc.cpp:308-311). -/
def State.clearStats (s : State) : State := { s with watermark := s.allocated }

/-- Retagging of a host/LLVM block (src/malloc.cpp:335-342). -/
def State.retag (s : State) (b : Block) (dst : Backend) : State :=
  let i := b.info
  let u1 := upd s.usage i.backend (s.usage i.backend - i.size)
  let a1 := upd s.allocated i.backend (s.allocated i.backend - i.size)
  { s with usage := upd u1 dst (u1 dst + i.size)
           allocated := upd a1 dst (a1 dst + i.size)
           used := ⟨b.ptr, ⟨i.size, dst, false, 0⟩⟩ :: s.used.erase b }

/-- Answers of the operating system to up to two `jitc_malloc` calls of a migration. -/
structure OsAnswers where
  a1 : Option Nat
  a2 : Option Nat
  b1 : Option Nat
  b2 : Option Nat
deriving DecidableEq, Repr

/-- `jitc_malloc_migrate` (src/malloc.cpp:314-431); memory contents are not part of this
model.  `device` is the calling thread's device. -/
def State.migrate (cfg : Cfg) (s : State) (p : Nat) (dst : Backend) (move : Bool) (t : Nat)
    (device : Nat) (os : OsAnswers) (env : Env) : Res × State :=
  if p = 0 then (.ptr 0, s)
  else match s.used.find? (fun b => b.ptr == p) with
  | none => (.raise, s)
  | some b =>
    let i := b.info
    let src := i.backend
    if src ≠ dst ∧ src ≠ .none ∧ dst ≠ .none then (.raise, s)
    else if !src.isGpu && !dst.isGpu then
      if move then (.ptr p, s.retag b dst)
      else
        let dst := if src = .llvm then .llvm else dst
        let shared := src == .none && dst == .llvm
        s.malloc cfg dst i.size shared 0 os.a1 os.a2 env
    else
      let gpu := if src.isGpu then src else dst
      let sameDevice := !dst.isGpu || i.device == device
      if src = dst ∧ i.shared = false ∧ sameDevice = true then
        if move then (.ptr p, s)
        else s.malloc cfg dst i.size false device os.a1 os.a2 env
      else
        let allocBackend := if dst = .none then gpu else dst
        match s.malloc cfg allocBackend i.size (dst = .none) device os.a1 os.a2 env with
        | (.ptr q, s1) =>
          if src = .none then
            -- stage host -> device copies through a temporary shared buffer
            match s1.malloc cfg gpu i.size true device os.b1 os.b2 env with
            | (.ptr tmp, s2) =>
              let s3 := (s2.release tmp t true).2
              (.ptr q, if move then (s3.release p t true).2 else s3)
            | (r, s2) => (r, s2)
          else (.ptr q, if move then (s1.release p t true).2 else s1)
        | (r, s1) => (r, s1)

/-- The operations of the allocator. -/
inductive Op where
  | malloc (backend : Backend) (size : Nat) (shared : Bool) (device : Nat) (os1 os2 : Option Nat)
      (env : Env)
  | free (p t : Nat) (hasTs : Bool)
  | migrate (p : Nat) (dst : Backend) (move : Bool) (t device : Nat) (os : OsAnswers)
      (env : Env)
  | flush (freezing : Bool)
  | submit (t : Nat)
  | complete (n : Nat)
  | threadExit (t : Nat)
  | clearStats
deriving DecidableEq, Repr

def State.step (cfg : Cfg) (s : State) : Op → Res × State
  | .malloc b n sh d o1 o2 fz => s.malloc cfg b n sh d o1 o2 fz
  | .free p t h => s.release p t h
  | .migrate p dst mv t d os fz => s.migrate cfg p dst mv t d os fz
  | .flush fz => match s.flush fz with
    | none => (.raise, s)
    | some s' => (.unit, s')
  | .submit t => (.unit, s.submit t)
  | .complete n => (.unit, s.complete n)
  | .threadExit t => (.unit, s.threadExit t)
  | .clearStats => (.unit, s.clearStats)

def State.run (cfg : Cfg) (s : State) : List Op → State
  | [] => s
  | o :: os => State.run cfg (s.step cfg o).2 os

end Verif.Alloc
