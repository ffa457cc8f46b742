import Verif.Var.Scope
/-!
# Specification: histories of API calls on variables

A caller performs a sequence of calls and keeps track of the references it owns: every
constructor returns one reference, `inc_ref` adds one and `dec_ref` gives one back.  A call is
legal if the caller owns a reference to every operand.
-/
namespace Verif.Var
set_option linter.dupNamespace false

/-- The calls.  Sizes, types, kinds and payloads of nodes are arbitrary. -/
inductive Call where
  | literal (backend : Nat) (type : VType) (value : BitVec 64) (size : Nat)
  | undefined (backend : Nat) (type : VType) (size : Nat)
  | counter (backend size : Nat)
  | memMap (backend : Nat) (type : VType) (ptr : BitVec 64) (size : Nat) (free : Bool)
  | pointer (backend : Nat) (value : BitVec 64) (dep : Nat) (write : Bool)
  | node0 (backend : Nat) (kind : Kind) (type : VType) (size : Nat) (sym : Bool) (p : BitVec 64)
  | node1 (backend : Nat) (kind : Kind) (type : VType) (size : Nat) (sym : Bool) (a0 : Nat)
      (p : BitVec 64)
  | node2 (backend : Nat) (kind : Kind) (type : VType) (size : Nat) (sym : Bool) (a0 a1 : Nat)
      (p : BitVec 64)
  | node3 (backend : Nat) (kind : Kind) (type : VType) (size : Nat) (sym : Bool) (a0 a1 a2 : Nat)
      (p : BitVec 64)
  | node4 (backend : Nat) (kind : Kind) (type : VType) (size : Nat) (sym : Bool)
      (a0 a1 a2 a3 : Nat) (p : BitVec 64)
  | resize (i size : Nat)
  | incRef (i : Nat)
  | decRef (i : Nat)
  | markSideEffect (i : Nat)
  | eval
  | newScope
  | advanceScope (n : Nat)
  | setScope (c : Nat)

/-- Execution of a call; the result is the variable to which the caller obtains a reference
(0: none). -/
def Call.exec (ev : M Unit) : Call → M Nat
  | .literal b t x n => varLiteral b t x n
  | .undefined b t n => varUndefined b t n
  | .counter b n => varCounter b n true
  | .memMap b t p n f => varMemMap b t p n f
  | .pointer b x d w => varPointer b x d w false false
  | .node0 b k t n sy p => newNode0 b k t n sy p
  | .node1 b k t n sy a0 p => newNode1 ev b k t n sy a0 p
  | .node2 b k t n sy a0 a1 p => newNode2 ev b k t n sy a0 a1 p
  | .node3 b k t n sy a0 a1 a2 p => newNode3 ev b k t n sy a0 a1 a2 p
  | .node4 b k t n sy a0 a1 a2 a3 p => newNode4 ev b k t n sy a0 a1 a2 a3 p
  | .resize i n => varResize ev i n
  | .incRef i => do Verif.Var.incRef i; pure i
  | .decRef i => do Verif.Var.decRef i; pure 0
  | .markSideEffect i => do Verif.Var.markSideEffect i; pure 0
  | .eval => do ev; pure 0
  | .newScope => do let _ ← Verif.Var.newScope; pure 0
  | .advanceScope n => do let _ ← Verif.Var.advanceScope n; pure 0
  | .setScope c => do Verif.Var.setScope c; pure 0

/-- Operands to which the caller must own a reference. -/
def Call.operands : Call → List Nat
  | .pointer _ _ d _ => if d = 0 then [] else [d]
  | .node1 _ _ _ _ _ a0 _ => [a0]
  | .node2 _ _ _ _ _ a0 a1 _ => [a0, a1]
  | .node3 _ _ _ _ _ a0 a1 a2 _ => [a0, a1, a2]
  | .node4 _ _ _ _ _ a0 a1 a2 a3 _ => [a0, a1, a2, a3]
  | .resize i _ => [i]
  | .incRef i => [i]
  | .decRef i => [i]
  | .markSideEffect i => [i]
  | _ => []

def Call.legal (c : Call) (u : Nat → Nat) : Prop := ∀ i ∈ c.operands, 0 < u i

instance (c : Call) (u : Nat → Nat) : Decidable (c.legal u) := by unfold Call.legal; infer_instance

/-- The references owned by the caller after the call returned `r`. -/
def Call.after (c : Call) (u : Nat → Nat) (r : Nat) : Nat → Nat := fun k =>
  (match c with
   | .decRef i => if k = i then u k - 1 else u k
   | .markSideEffect i => if k = i then u k - 1 else u k
   | _ => u k) + (if r ≠ 0 ∧ k = r then 1 else 0)

/-- One call that returns normally or with an exception. -/
inductive Step (ev : M Unit) : Store → (Nat → Nat) → Store → (Nat → Nat) → Prop
  | ok {s s' : Store} {u : Nat → Nat} {c : Call} {r : Nat} :
      c.legal u → c.exec ev s = .ok r s' → Step ev s u s' (c.after u r)
  | raise {s s' : Store} {u : Nat → Nat} {c : Call} :
      c.legal u → c.exec ev s = .raise s' → Step ev s u s' u

/-- Any number of calls; `Q` holds of the caller's references in every state. -/
inductive Steps (ev : M Unit) (Q : (Nat → Nat) → Prop) :
    Store → (Nat → Nat) → Store → (Nat → Nat) → Prop
  | refl {s : Store} {u : Nat → Nat} : Q u → Steps ev Q s u s u
  | step {s s' s'' : Store} {u u' u'' : Nat → Nat} :
      Steps ev Q s u s' u' → Step ev s' u' s'' u'' → Q u'' → Steps ev Q s u s'' u''

/-- The states of the library, paired with the references owned by the caller.  Any
combination of flags may be set. -/
inductive Reachable (ev : M Unit) : Store → (Nat → Nat) → Prop
  | init (mem : BitVec 64 → Nat → BitVec 64) (vn ri cp fm ss : Bool) :
      Reachable ev { mem := mem, valueNumbering := vn, reuseIndices := ri, constProp := cp,
                     fastMath := fm, symbolicScope := ss } (fun _ => 0)
  | step {s s' : Store} {u u' : Nat → Nat} :
      Reachable ev s u → Step ev s u s' u' → Reachable ev s' u'

/-- Execute a list of calls, all of which must be legal and return normally (used to exhibit
reachable states). -/
def runAll (ev : M Unit) : List Call → Store → (Nat → Nat) → Option (Store × (Nat → Nat))
  | [], s, u => some (s, u)
  | c :: l, s, u =>
    if c.legal u then
      match c.exec ev s with
      | .ok r s' => runAll ev l s' (c.after u r)
      | _ => none
    else none

/-- `jitc_var(i)` finds a variable. -/
def Live (s : Store) (i : Nat) : Prop := getVar i s = .ok (s.vars i) s

instance (s : Store) (i : Nat) : Decidable (Live s i) :=
  decidable_of_iff
    (¬ (i = 0 ∨ i ≥ s.len ∨ ((s.vars i).refCount = 0 ∧ (s.vars i).refCountSe = 0))) (by
      unfold Live getVar
      split
      · rename_i h; exact ⟨fun h' => absurd h h', fun h' => by cases h'⟩
      · rename_i h; exact ⟨fun _ => rfl, fun _ => h⟩)

/-- The attributes requested by a call that creates an unevaluated variable. -/
structure Request where
  backend : Nat
  kind : Kind
  type : VType
  size : Nat
  operands : List Nat
  payload : BitVec 64

def Call.request : Call → Option Request
  | .literal b t x n => some ⟨b, .literal, t, n, [], t.mask x⟩
  | .node0 b k t n _ p => some ⟨b, k, t, n, [], p⟩
  | .node1 b k t n _ a0 p => some ⟨b, k, t, n, [a0], p⟩
  | .node2 b k t n _ a0 a1 p => some ⟨b, k, t, n, [a0, a1], p⟩
  | .node3 b k t n _ a0 a1 a2 p => some ⟨b, k, t, n, [a0, a1, a2], p⟩
  | .node4 b k t n _ a0 a1 a2 a3 p => some ⟨b, k, t, n, [a0, a1, a2, a3], p⟩
  | _ => none

/-- `v` has the requested attributes and belongs to the given scope. -/
structure Request.Matches (q : Request) (scope : Nat) (v : Var) : Prop where
  backend : v.backend = q.backend
  kind : v.kind = q.kind
  type : v.type = q.type
  size : v.size = q.size
  payload : v.literal = q.payload
  operands : [v.d0, v.d1, v.d2, v.d3] = q.operands ++ List.replicate (4 - q.operands.length) 0
  scope : v.scope = scope

end Verif.Var
