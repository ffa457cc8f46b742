/-!
# Model of `src/lock.h` and of log delivery in `src/log.cpp`

A small-step model with arbitrary interleaving of any number of threads.  Each atomic access to
`Lock::owner` is one step.  `Lock::recursion_count` is an ordinary field; every access to it is
also a step of its own.  Relaxed loads may return stale values: a load of `owner` by thread
`self` returns an arbitrary value `v`, subject only to cache coherence with the thread's own stores,
`v = self ↔ owner = self` (the argument made in the comment src/lock.h:36-49).

The client program of each thread is arbitrary; it uses the lock through guard objects, i.e. it
never releases more often than it acquired (the debug-mode assertion src/lock.h:203-211).

Modelled: `lock_acquire`, `lock_release`, `lock_set_pending`, `unlock_guard`,
`lock_release_pending`, `jitc_log_postpone`, `jit_log_flush`, `jitc_log_deliver` (spin-lock variant).
Not modelled: the `std::mutex` variant, `jitc_vfail` (which aborts), a log callback that is
changed or unset while messages are queued, exceptions thrown by it.
-/
namespace Verif.Lock

abbrev Msg := Nat

/-- `LOCK_PENDING` (src/lock.h:131). -/
def PENDING : Nat := 2 ^ 63

/-- `recursion_count |= LOCK_PENDING` (src/lock.h:272-274) for a 64-bit value. -/
def setPending (c : Nat) : Nat := if c < PENDING then c + PENDING else c

/-- Program counter of a thread.  `k` is the continuation of `lock_acquire`: `none` for a plain
acquisition, `some p` for the destructor of an `unlock_guard` that saved the flag `p`. -/
inductive Pc where
  /-- in client code (or in a log callback) -/
  | run
  /-- `lock_acquire`: before the load of `owner` (src/lock.h:168-169) -/
  | acqLoad (k : Option Bool)
  /-- before the strong compare-exchange (src/lock.h:189) -/
  | acqTry (k : Option Bool)
  /-- in the spin loop (src/lock.h:193) -/
  | acqSpin (k : Option Bool)
  /-- before the weak compare-exchange (src/lock.h:196) -/
  | acqWeak (k : Option Bool)
  /-- exchange succeeded, before `recursion_count = 1` (src/lock.h:202) -/
  | acqGot (k : Option Bool)
  /-- `~unlock_guard`: before restoring the pending flag (src/lock.h:310) -/
  | restore (p : Bool)
  /-- `lock_release`: before `recursion_count--` (src/lock.h:219) -/
  | relDec
  /-- before the tests of the decremented counter (src/lock.h:220-226) -/
  | relCheck
  /-- before `owner.store(0)`; `flush`: called from `lock_release_pending` -/
  | relStore (flush : Bool)
  /-- `lock_release_pending`, before `recursion_count = 1` (src/log.cpp:109) -/
  | pendReset
  /-- before the decrement in the nested `lock_release` (src/log.cpp:110) -/
  | pendDec
  /-- `jitc_log_postpone`: message queued, before the load of `owner` (src/log.cpp:121) -/
  | logPushed
  /-- `jit_log_flush` (src/log.cpp:96) -/
  | flush
  /-- `jitc_log_deliver`, before swapping the queue (src/log.cpp:76-79) -/
  | deliver
deriving DecidableEq, Repr

/-- Open scopes of a thread: an `unlock_guard` with its saved flag, or a delivery loop with
the messages it still has to hand out and the lock depth with which it was entered. -/
inductive Frame where
  | unl (pending : Bool)
  | del (todo : List Msg) (base : Nat)
deriving DecidableEq, Repr

/-- A thread.  `depth` is a ghost counter: completed acquisitions minus releases. -/
structure Th where
  pc : Pc := .run
  depth : Nat := 0
  frames : List Frame := []
deriving DecidableEq, Repr

/-- Global state.  Thread `i` has the identifier `i + 1` (nonzero).  `logged`, `delivered` and
`deferred` (a flush was suppressed by the client hook since the last delivery) are
ghost variables. -/
structure St where
  owner : Nat := 0
  count : Nat := 0
  queue : List Msg := []
  threads : List Th := []
  logged : List Msg := []
  delivered : List (Nat × Msg) := []
  deferred : Bool := false
deriving DecidableEq, Repr

/-- Actions of a thread: decisions of its program, and steps of the library with their
nondeterministic outcome. -/
inductive Act where
  | acquire | release | log (m : Msg) | unlockBegin | unlockEnd | flushApi
  /-- the running callback returned (or none was running yet): continue the delivery loop -/
  | next
  /-- a load of `owner` returns `v` -/
  | load (v : Nat)
  /-- compare-exchange; `spurious` failure is possible for the weak form -/
  | cas (spurious : Bool)
  /-- deterministic step -/
  | go
  /-- answer of the client's defer hook -/
  | defer (d : Bool)
deriving DecidableEq, Repr

def St.upd (s : St) (i : Nat) (th : Th) : St := { s with threads := s.threads.set i th }

def acqDone (k : Option Bool) : Pc :=
  match k with
  | none => .run
  | some p => .restore p

/-- One step of thread `i`; `none` if the action is not enabled. -/
def step (s : St) (i : Nat) (a : Act) : Option St :=
  match s.threads[i]? with
  | none => none
  | some th =>
    match th.pc, a with
    -- client decisions
    | .run, .acquire => some (s.upd i { th with pc := .acqLoad none })
    | .run, .release => if th.depth = 0 then none else some (s.upd i { th with pc := .relDec })
    | .run, .log m =>
      -- src/log.cpp:116-119
      some ({ s with queue := s.queue ++ [m], logged := s.logged ++ [m] }.upd i
        { th with pc := .logPushed })
    | .run, .unlockBegin =>
      -- src/lock.h:299-303
      if th.depth = 0 then none
      else some ({ s with count := s.count % PENDING }.upd i
        { th with pc := .relDec, frames := .unl (decide (PENDING ≤ s.count)) :: th.frames })
    | .run, .unlockEnd =>
      -- src/lock.h:305-314
      match th.frames with
      | .unl p :: fs => some (s.upd i { th with pc := .acqLoad (some p), frames := fs })
      | _ => none
    | .run, .flushApi => if th.depth = 0 then some (s.upd i { th with pc := .flush }) else none
    | .run, .next =>
      -- src/log.cpp:82-93; callbacks release what they acquire
      match th.frames with
      | .del (m :: todo) base :: fs =>
        if th.depth = base then
          some ({ s with delivered := s.delivered ++ [(i, m)] }.upd i
            { th with frames := .del todo base :: fs })
        else none
      | .del [] base :: fs =>
        if th.depth = base then some (s.upd i { th with frames := fs }) else none
      | _ => none
    -- lock_acquire
    | .acqLoad k, .load v =>
      if (v = i + 1) ↔ (s.owner = i + 1) then
        if v = i + 1 then
          -- recursive acquisition (at most 2^63 - 1 levels)
          if th.depth + 1 < PENDING then
            some ({ s with count := s.count + 1 }.upd i
              { th with pc := acqDone k, depth := th.depth + 1 })
          else none
        else if v = 0 then some (s.upd i { th with pc := .acqTry k })
        else some (s.upd i { th with pc := .acqSpin k })
      else none
    | .acqTry k, .cas _ =>
      if s.owner = 0 then some ({ s with owner := i + 1 }.upd i { th with pc := .acqGot k })
      else some (s.upd i { th with pc := .acqSpin k })
    | .acqSpin k, .load v =>
      if (v = i + 1) ↔ (s.owner = i + 1) then
        if v = 0 then some (s.upd i { th with pc := .acqWeak k }) else some s
      else none
    | .acqWeak k, .cas spurious =>
      if s.owner = 0 ∧ spurious = false then
        some ({ s with owner := i + 1 }.upd i { th with pc := .acqGot k })
      else some (s.upd i { th with pc := .acqSpin k })
    | .acqGot k, .go =>
      some ({ s with count := 1 }.upd i { th with pc := acqDone k, depth := 1 })
    | .restore p, .go =>
      some ({ s with count := if p then setPending s.count else s.count }.upd i
        { th with pc := .run })
    -- lock_release
    | .relDec, .go =>
      some ({ s with count := s.count - 1 }.upd i { th with pc := .relCheck, depth := th.depth - 1 })
    | .relCheck, .go =>
      if s.count = 0 then some (s.upd i { th with pc := .relStore false })
      else if s.count = PENDING then some (s.upd i { th with pc := .pendReset })
      else some (s.upd i { th with pc := .run })
    | .relStore f, .go =>
      some ({ s with owner := 0 }.upd i { th with pc := if f then .flush else .run })
    -- lock_release_pending (src/log.cpp:108-112)
    | .pendReset, .go => some ({ s with count := 1 }.upd i { th with pc := .pendDec })
    | .pendDec, .go => some ({ s with count := s.count - 1 }.upd i { th with pc := .relStore true })
    -- jitc_log_postpone (src/log.cpp:121-124)
    | .logPushed, .load v =>
      if (v = i + 1) ↔ (s.owner = i + 1) then
        if v = i + 1 then some ({ s with count := setPending s.count }.upd i { th with pc := .run })
        else some (s.upd i { th with pc := .flush })
      else none
    -- jit_log_flush (src/log.cpp:96-102)
    | .flush, .defer d =>
      if d then some ({ s with deferred := true }.upd i { th with pc := .run })
      else some (s.upd i { th with pc := .deliver })
    -- jitc_log_deliver (src/log.cpp:73-80)
    | .deliver, .go =>
      some ({ s with queue := [], deferred := false }.upd i
        { th with pc := .run, frames := .del s.queue th.depth :: th.frames })
    | _, _ => none

/-- The initial state with `n` threads (`lock_init`). -/
def init (n : Nat) : St := { threads := List.replicate n {} }

/-- Reachable states of the system with `n` threads, under every schedule. -/
inductive Reach (n : Nat) : St → Prop
  | init : Reach n (init n)
  | step {s s' : St} {i : Nat} {a : Act} : Reach n s → step s i a = some s' → Reach n s'

end Verif.Lock
