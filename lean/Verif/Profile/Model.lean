import Mathlib.Data.List.Basic
import Mathlib.Logic.Function.Basic

/-!
# Ranges in the profiler (macOS)

Source: `src/profile.cpp`.

Simplifications: handles of logs and identifiers of intervals are numbers; a new one is different from all others (`os_log_create`, `os_signpost_id_generate`).  The variant for NVTX
passes calls on to the profiler and is not modelled.
-/
namespace Verif.Profile

/-- State: `jitc_signpost_log` and one `jitc_signpost_stack` per thread, `profile.cpp:28-33` -/
structure St where
  log : Option Nat
  nextLog : Nat
  nextId : Nat
  stacks : Nat → List Nat

/-- What the profiler sees: `os_signpost_interval_begin`, `os_signpost_interval_end` -/
inductive Ev where
  | start (log id thread msg : Nat)
  | stop (log id : Nat)
deriving DecidableEq

/-- Calls by threads -/
inductive Op where
  | init (enabled : Bool)
  | shutdown (t : Nat)
  | push (t msg : Nat)
  | pop (t : Nat)

/-- One call; `none` stands for `jitc_fail` -/
def step (s : St) : Op → Option (St × List Ev)
  /- `jitc_profile_init`, `profile.cpp:36-47` -/
  | .init enabled => some ({ s with log := if enabled then some s.nextLog else none, nextLog := s.nextLog + 1 }, [])
  /- `jitc_profile_shutdown`, `profile.cpp:49-58`: clears the stack of the calling thread -/
  | .shutdown t => some ({ s with log := none, stacks := Function.update s.stacks t [] }, [])
  /- `jitc_profile_range_push`, `profile.cpp:107-115` -/
  | .push t msg =>
    match s.log with
    | none => some (s, [])
    | some l => some ({ s with nextId := s.nextId + 1, stacks := Function.update s.stacks t (s.nextId :: s.stacks t) }, [.start l s.nextId t msg])
  /- `jitc_profile_range_pop`, `profile.cpp:142-150` -/
  | .pop t =>
    match s.log with
    | none => some (s, [])
    | some l =>
      match s.stacks t with
      | [] => none
      | id :: ids => some ({ s with stacks := Function.update s.stacks t ids }, [.stop l id])

def run : St → List Op → Option (St × List Ev)
  | s, [] => some (s, [])
  | s, op :: ops =>
    match step s op with
    | none => none
    | some (s1, e1) =>
      match run s1 ops with
      | none => none
      | some (s2, e2) => some (s2, e1 ++ e2)

end Verif.Profile
