import Mathlib.Data.List.Basic
import Mathlib.Logic.Function.Basic

/-!
# Reordering of threads

Source: `src/reorder.cpp`, `src/var.cpp` (creation of nodes and reference counts).  Variables are stored in an array that moves when it grows; pointers to variables that were obtained
before are then no longer valid.

Simplifications: the values are distinct, so that value numbering has no effect (the nodes are in a new scope).  Evaluation removes the pending writes of all variables but those
given by `still`, and does not move the array.  Contents of evaluated variables are not modelled.  Numbers are unbounded.
-/
namespace Verif.Reorder

inductive Kind where
  | other
  | reorderThread
  | bitcast
deriving DecidableEq

/-- `Variable`, `internal.h` (fields that matter); `ty = 0` stands for `UInt32` -/
structure Var where
  kind : Kind
  cuda : Bool
  ty : Nat
  size : Nat
  symbolic : Bool
  dirty : Bool
  dep0 : Nat
  dep1 : Nat
  literal : Nat
  scope : Nat
deriving DecidableEq

/-- State: variables, their reference counts, length and capacity of the array, how many times it has moved, free slots, scope of the thread -/
structure St where
  vars : Nat → Var
  rc : Nat → Nat
  used : Nat
  cap : Nat
  gen : Nat
  free : List Nat
  scope : Nat

/-- `jitc_var_new`, `var.cpp:781-795`: takes a free slot or extends the array, which moves if its capacity is exhausted -/
def alloc (v : Var) (s : St) : Nat × St :=
  match s.free with
  | i :: rest => (i, { s with vars := Function.update s.vars i v, rc := Function.update s.rc i 1, free := rest })
  | [] => (s.used, { s with
      vars := Function.update s.vars s.used v, rc := Function.update s.rc s.used 1, used := s.used + 1,
      cap := if s.used = s.cap then 2 * s.cap + 1 else s.cap, gen := if s.used = s.cap then s.gen + 1 else s.gen })

/-- `jitc_var_inc_ref(index, v)`, `var.cpp:514-518`, where the pointer `v` was obtained when the array had moved `p` times: it has no effect on the variable if the array has moved since -/
def incRef (i p : Nat) (s : St) : St := if p = s.gen then { s with rc := Function.update s.rc i (s.rc i + 1) } else s

/-- `jitc_var_dec_ref(index, v)`, `var.cpp:572-584`; freeing is not modelled -/
def decRef (i p : Nat) (s : St) : St := if p = s.gen then { s with rc := Function.update s.rc i (s.rc i - 1) } else s

/-- `jitc_new_scope`, `var.cpp:1157-1162` -/
def newScope (s : St) : St := { s with scope := s.scope + 1 }

/-- The node that represents a value after reordering, `reorder.cpp:74-77` -/
def bitcastNode (v : Var) (x r scope : Nat) : Var := ⟨.bitcast, true, v.ty, v.size, v.symbolic, false, x, r, 0, scope⟩

/-- The loop over values, `reorder.cpp:67-78`, with `jitc_var_new_node_2`, `var.cpp:1241-1254`: the pointer to the value is new, that to the reordering was obtained when the array had moved
`p` times -/
def loop (r p : Nat) : List Nat → St → List Nat × St
  | [], s => ([], s)
  | x :: xs, s =>
    let s1 := incRef r p (incRef x s.gen s)
    let a := alloc (bitcastNode (s.vars x) x r s.scope) s1
    let l := loop r p xs a.2
    (a.1 :: l.1, l.2)

/-- Outcome: exception, fatal error or the indices in `out` -/
inductive Res where
  | raise
  | fail
  | ok (out : List Nat) (s : St)

/-- Evaluation -/
def evalVars (still : Nat → Bool) (s : St) : St := { s with vars := fun i => { s.vars i with dirty := (s.vars i).dirty && still i } }

/-- Size of the reordering, `reorder.cpp:22-31` -/
def maxSize (s : St) (is : List Nat) : Nat := is.foldl (fun m i => max m (s.vars i).size) 0

/-- Creation of the nodes, `reorder.cpp:55-80` -/
def create (key bits size : Nat) (symbolic : Bool) (values : List Nat) (s : St) : List Nat × St :=
  let s1 := newScope s
  let a := alloc ⟨.reorderThread, true, 1, size, symbolic, false, key, 0, bits, s1.scope⟩ (incRef key s1.gen s1)
  let l := loop a.1 a.2.gen values (newScope a.2)
  (l.1, decRef a.1 a.2.gen l.2)

/-- `jitc_reorder`, `reorder.cpp:7-81` -/
def reorder (still : Nat → Bool) (key bits : Nat) (values : List Nat) (s : St) : Res :=
  if (s.vars key).cuda = false then .ok values { s with rc := fun i => s.rc i + values.count i }
  else if (s.vars key).ty ≠ 0 then .raise
  else
    let all := values ++ [key]
    let size := maxSize s all
    if all.any fun i => (s.vars i).size ≠ 1 ∧ (s.vars i).size ≠ size then .raise
    else
      let dirty := all.any fun i => (s.vars i).dirty
      let s1 := if dirty then evalVars still s else s
      if dirty && values.any fun i => (s1.vars i).dirty then .raise
      else if bits < 1 then .fail
      else if bits > 16 then .fail
      else if (s1.vars key).dirty then .raise
      else
        let c := create key bits size (all.any fun i => (s.vars i).symbolic) values s1
        .ok c.1 c.2

end Verif.Reorder
