import Verif.FreeSlots.Model
/-!
# Model of `src/registry.cpp`: the instance registry

Pointers are natural numbers, `0` is the null pointer.  Hash maps are modelled as functions
into `Option`.  A `(variant, domain)` pair of C strings is compared by content
(src/registry.cpp:22-27) and modelled as a pair of strings.
-/
namespace Verif.Registry
open Verif.FreeSlots

abbrev Key := String × String

/-- Outcome of a call: normal return, C++ exception (`jitc_raise`), process abort
(`jitc_fail`), or undefined behaviour (out-of-bounds access). -/
inductive Res (α : Type) where
  | ok (a : α)
  | raise
  | abort
  | ub
deriving Repr, DecidableEq

/-- `struct Ptr` (src/registry.cpp:36-40). -/
structure Entry where
  ptr : Nat
  active : Bool
deriving Repr, DecidableEq

/-- `struct Domain` (src/registry.cpp:43-49); `name`/`variant` are merged in `key`. -/
structure Domain where
  key : Key
  idBound : Nat := 0
  fwd : List Entry := []
  free : FreeSlots := {}
deriving Repr, DecidableEq

/-- `struct Registry` (src/registry.cpp:57-61).  A reverse entry is
`(domain_id, index)` as in `struct ReverseKey` (lines 51-54). -/
structure Registry where
  domainIds : Key → Option Nat := fun _ => none
  domains : List Domain := []
  rev : Nat → Option (Nat × Nat) := fun _ => none

/-- `UINT32_MAX`, the index of cleared entries (src/registry.cpp:124,236). -/
def CLEARED : Nat := 4294967295

def upd {α β} [DecidableEq α] (f : α → β) (a : α) (b : β) : α → β :=
  fun x => if x = a then b else f x

/-- Lookup or creation of the domain (src/registry.cpp:76-86).  Returns the domain id. -/
def Registry.domainFor (r : Registry) (k : Key) : Nat × Registry :=
  match r.domainIds k with
  | some d => (d, r)
  | none => (r.domains.length,
      { r with domainIds := upd r.domainIds k (some r.domains.length)
               domains := r.domains ++ [{ key := k }] })

/-- Allocation of the lowest index in a domain (src/registry.cpp:89-99).  `none`
is undefined behaviour of `pop()` or of the vector access. -/
def Domain.alloc (D : Domain) (p : Nat) : Option (Nat × Domain) :=
  if !D.free.empty then
    match D.free.pop with
    | none => none
    | some (i, f) =>
      if i < D.fwd.length then
        some (i, { D with free := f, fwd := D.fwd.set i ⟨p, true⟩, idBound := max D.idBound (i + 1) })
      else none
  else
    let i := D.fwd.length
    some (i, { D with fwd := D.fwd ++ [⟨p, true⟩], idBound := max D.idBound (i + 1) })

/-- `jitc_registry_put` (src/registry.cpp:66-108).  When the pointer is already registered,
`try_emplace` does not modify the map (lines 69-73).  The reverse mapping is inserted before
the forward mapping in C++ and completed in line 105; nothing can observe the
intermediate state as the registry is protected by the state lock. -/
def Registry.put (r : Registry) (k : Key) (p : Nat) : Res Nat × Registry :=
  match r.rev p with
  | some _ => (.raise, r)
  | none =>
    let (d, r1) := r.domainFor k
    match r1.domains[d]? with
    | none => (.ub, r1)
    | some D => match D.alloc p with
      | none => (.ub, r1)
      | some (i, D') =>
        (.ok (i + 1), { r1 with domains := r1.domains.set d D', rev := upd r1.rev p (some (d, i)) })

/-- The loop `while (id_bound > 0 && !fwd_map[id_bound - 1].ptr) id_bound--`
(src/registry.cpp:137-138). -/
def shrink (fwd : List Entry) : Nat → Nat
  | 0 => 0
  | b + 1 => if (fwd.getD b ⟨0, false⟩).ptr = 0 then shrink fwd b else b + 1

/-- `jitc_registry_remove` (src/registry.cpp:111-143). -/
def Registry.remove (r : Registry) (p : Nat) : Res Unit × Registry :=
  match r.rev p with
  | none => (.abort, r)
  | some (d, i) =>
    let r1 := { r with rev := upd r.rev p none }
    if i = CLEARED then (.ok (), r1)
    else match r1.domains[d]? with
      | none => (.ub, r1)
      | some D =>
        let free := D.free.push i
        match D.fwd[i]? with
        | none => (.ub, r1)
        | some e =>
          if e.ptr ≠ p then (.abort, r1)
          else
            let fwd := D.fwd.set i ⟨0, false⟩
            let b := if D.idBound = i + 1 then shrink fwd D.idBound else D.idBound
            (.ok (), { r1 with domains := r1.domains.set d { D with free, fwd, idBound := b } })

/-- `jitc_registry_id` (src/registry.cpp:145-159). -/
def Registry.id (r : Registry) (p : Nat) : Res Nat :=
  if p = 0 then .ok 0
  else match r.rev p with
    | none => .raise
    | some (_, i) => if i = CLEARED then .ok 0 else .ok (i + 1)

/-- `jitc_registry_id_bound` (src/registry.cpp:161-170). -/
def Registry.idBound (r : Registry) (k : Key) : Res Nat :=
  match r.domainIds k with
  | none => .ok 0
  | some d => match r.domains[d]? with
    | none => .ub
    | some D => .ok D.idBound

/-- `jitc_registry_ptr` (src/registry.cpp:191-211). -/
def Registry.ptr (r : Registry) (k : Key) (id : Nat) : Res Nat :=
  if id = 0 then .ok 0
  else match r.domainIds k with
    | none => .ok 0
    | some d => match r.domains[d]? with
      | none => .ub
      | some D => match D.fwd[id - 1]? with
        | none => .raise
        | some e => if e.active then .ok e.ptr else .ok 0

/-- `jitc_registry_peek` (src/registry.cpp:213-228). -/
def Registry.peek (r : Registry) (k : Key) : Res Nat :=
  match r.domainIds k with
  | none => .ok 0
  | some d => match r.domains[d]? with
    | none => .ub
    | some D =>
      if D.idBound > 0 then
        match D.fwd[D.idBound - 1]? with
        | none => .ub
        | some e => .ok e.ptr
      else .ok 0

/-- `jitc_registry_get_pointers` (src/registry.cpp:172-189): the list of
assignments `dest[i] = ptr` performed on the caller's array, in order. -/
def Registry.getPointers (r : Registry) (k : Key) : Res (List (Nat × Nat)) :=
  match r.domainIds k with
  | none => .ok []
  | some d => match r.domains[d]? with
    | none => .ub
    | some D => .ok ((List.range D.fwd.length).filterMap fun i =>
        match D.fwd[i]? with
        | some e => if e.active then some (i, e.ptr) else none
        | none => none)

/-- `jitc_registry_clear` (src/registry.cpp:230-244). -/
def Registry.clear (r : Registry) : Registry :=
  { r with rev := fun p => (r.rev p).map fun e => (e.1, CLEARED)
           domains := r.domains.map fun D => { D with fwd := [], free := {}, idBound := 0 } }

/-- `jitc_registry_shutdown` (src/registry.cpp:246-267), without the leak report. -/
def Registry.shutdown (r : Registry) : Registry :=
  { r with domainIds := fun _ => none, domains := [] }

/-- State-changing calls. -/
inductive Op where
  | put (k : Key) (p : Nat)
  | remove (p : Nat)
  | clear
  | shutdown
deriving Repr, DecidableEq

/-- One call; the result of `put` is the new ID, other calls return `0`. -/
def Registry.step (r : Registry) : Op → Res Nat × Registry
  | .put k p => r.put k p
  | .remove p => match r.remove p with
    | (.ok _, r') => (.ok 0, r')
    | (.raise, r') => (.raise, r')
    | (.abort, r') => (.abort, r')
    | (.ub, r') => (.ub, r')
  | .clear => (.ok 0, r.clear)
  | .shutdown => (.ok 0, r.shutdown)

/-- State after a history (starting from an empty registry) together with the results. -/
def Registry.run (r : Registry) : List Op → List (Res Nat) × Registry
  | [] => ([], r)
  | o :: os =>
    let (x, r1) := r.step o
    let (xs, r2) := r1.run os
    (x :: xs, r2)

end Verif.Registry
