import Verif.Gather.MaskSpec
import Verif.Gather.Part
/-!
# Specification of gathers
-/
namespace Verif.Gather
open Verif.Var Verif.Ops

/-- Lane `l` of an array with `m` entries exists; arrays with one entry are broadcast. -/
def Covers (m l : Nat) : Prop := l < m ∨ m = 1

/-- An array with one entry has the same value in all lanes.  (The exception are expressions of the
thread index with one entry.) -/
def Uniform (s : Store) (i : Nat) : Prop :=
  (s.vars i).size = 1 → ∀ l l' x, Val s i l x → Val s i l' x

/-- Computing variable `i` involves variable `k`. -/
inductive Reads (s : Store) (i : Nat) : Nat → Prop
  | root : Reads s i i
  | dep {k d : Nat} : Reads s i k → (s.vars k).kind ≠ .literal → d ∈ (s.vars k).refs → d ≠ 0 → Reads s i d

/-- Lane `l` of variable `i` is `x`, and all variables that are involved have an entry `l`. -/
def Entry (s : Store) (i l : Nat) (x : BitVec 64) : Prop :=
  Val s i l x ∧ ∀ k, Reads s i k → Covers (s.vars k).size l

/-- The variables involved in computing `i` have the size of `i`, or are broadcast. -/
def Shaped (s : Store) (i : Nat) : Prop :=
  ∀ k, Reads s i k → (s.vars k).size = 1 ∨ (s.vars k).size = (s.vars i).size

/-- What a step keeps about the variables `u`: their type; their size, except that a variable of size
1 may have been replaced by its broadcast to `n` entries; and the values of all lanes. -/
structure Keeps (n : Nat) (u : Nat → Nat) (s s' : Store) : Prop where
  type : ∀ k, 0 < u k → (s'.vars k).type = (s.vars k).type
  size : ∀ k, 0 < u k → (s'.vars k).size = (s.vars k).size ∨
    ((s.vars k).size = 1 ∧ (s'.vars k).size = n)
  clean : ∀ k, 0 < u k → (s.vars k).isDirty = false → (s'.vars k).isDirty = false
  lit : ∀ k, 0 < u k → LitOK (s.vars k) → LitOK (s'.vars k)
  val : ∀ k, 0 < u k → ∀ l x, Covers (s'.vars k).size l →
    ((s.vars k).size = 1 → ∀ l', Entry s k l' x) → Entry s k l x → Entry s' k l x

/-- Evaluation of variable `i` (src/eval.cpp:880-1230), as seen by a caller that holds the references
`u`: the variable is stored in memory afterwards, and neither sizes nor values have changed. -/
structure Evaluates (u : Nat → Nat) (i : Nat) (s s' : Store) : Prop where
  done : (s'.vars i).kind = .evaluated
  keeps : Keeps 1 u s s'
  literal : ∀ k, 0 < u k → k ≠ i → (s.vars k).kind = .literal →
    (s'.vars k).kind = .literal ∧ (s'.vars k).literal = (s.vars k).literal
  size : ∀ k, 0 < u k → (s'.vars k).size = (s.vars k).size
  writes : WritesOK s'

/-- The operand `t` is the mask at the top of the stack and applies to arrays of size `n`. -/
def Top (s : Store) (stack : List Nat) (n t : Nat) : Prop :=
  stack.head? = some t ∧ (n = 1 ∨ (s.vars t).size = 1 ∨ (s.vars t).size = n)

/-- Entry `l` of a gather of size `n` is `z`.  If the mask is set, and the mask at the top of the
stack, if any, is set as well, then the index is a position of the source, and `z` is the entry at
this position.  If the mask is not set, then `z` is zero; this requires that the operations of the
source are defined for all operands, so that no harm is done by evaluating them in masked lanes.
(Lanes that are only disabled by the mask stack are not specified.) -/
def GatherVal (s : Store) (stack : List Nat) (src idx mask n l : Nat) (z : BitVec 64) : Prop :=
  l < n ∧ ∃ x, Val s idx l x ∧
    ((Val s mask l 1#64 ∧ (∀ t, Top s stack n t → Val s t l 1#64) ∧
        ∃ p : Nat, cInt (s.vars idx).type x = p ∧ p < (s.vars src).size ∧ Val s src p z) ∨
      (Val s mask l 0#64 ∧ (∀ t, Top s stack n t → ∃ w, Val s t l w) ∧ Total s src ∧ z = 0#64))

/-- Admissible arguments of `jit_var_gather()`: the source is an expression of literals, counters,
masks, gathers, arithmetic and arrays in memory; the index is an integer and the mask a boolean.  If
the source is not in memory yet, then no side effects are pending. -/
structure GatherArgs (s : Store) (u : Nat → Nat) (stack : List Nat) (src idx mask : Nat) : Prop where
  osrc : Operand s u src
  stype : (s.vars src).type.isInt = true ∨ (s.vars src).type.isFloat = true ∨ (s.vars src).type = .bool
  typed : Typed s src
  usrc : Uniform s src
  hsrc : Shaped s src
  quiet : (s.vars src).kind ≠ .evaluated → s.sideEffects = []
  ssize : (s.vars src).size < 2 ^ 32
  oidx : Operand s u idx
  itype : (s.vars idx).type.isInt = true
  ictr : (s.vars idx).kind = .counter → (s.vars idx).type = .u32
  uidx : Uniform s idx
  hidx : Shaped s idx
  isize : (s.vars idx).size < 2 ^ 32
  omask : Operand s u mask
  mtype : (s.vars mask).type = .bool
  umask : Uniform s mask
  hmask : Shaped s mask
  msize : (s.vars mask).size < 2 ^ 32
  otop : ∀ t, stack.head? = some t → Operand s (holders u stack) t ∧ (s.vars t).type = .bool ∧ Uniform s t ∧
    Shaped s t

/-- The size of a gather. -/
def gatherSize (s : Store) (idx mask : Nat) : Nat := max (s.vars idx).size (s.vars mask).size

/-- The size including the mask at the top of the stack (larger only if a scalar gather is masked by
an array). -/
def gatherMax (s : Store) (stack : List Nat) (idx mask : Nat) : Nat :=
  max (gatherSize s idx mask) (match stack with
    | [] => 0
    | t :: _ => if gatherSize s idx mask = 1 then (s.vars t).size else 0)

/-- The call turned `s` into `s'` and returned `r`, a variable of the type of the source that has
exactly the specified values; other variables are kept. -/
structure Gathers (s : Store) (u : Nat → Nat) (stack : List Nat) (src idx mask : Nat) (s' : Store)
    (r : Nat) : Prop where
  live : Live s' r
  type : (s'.vars r).type = (s.vars src).type
  size : (s'.vars r).size = gatherSize s idx mask ∨ (s'.vars r).size = gatherMax s stack idx mask
  value : ∀ l z, GatherVal s stack src idx mask (gatherSize s idx mask) l z → ∀ x, Val s' r l x ↔ x = z
  operand : ∀ v, Operand s' v r ↔ 0 < v r
  held : ∀ k, 0 < holders u stack k → Live s' k
  keeps : Keeps (gatherMax s stack idx mask) (holders u stack) s s'

/-- Assumption about the evaluation of variables: an expression without side effects, while no side
effects of others are pending, is stored in memory.  (`Verif.Jit` contains a model of evaluation for
which this is a theorem.) -/
def EvalOK (evalVar : Nat → M Unit) : Prop :=
  ∀ s U u i, IInv s U u → WritesOK s → s.sideEffects = [] → 0 < u i → (s.vars i).isNode = true →
    Typed s i → ((s.vars i).size = 1 → ∀ l l' x, Entry s i l x → Entry s i l' x) →
    ∀ s', evalVar i s = .ok () s' → (∃ U', IInv s' U' u) ∧ Evaluates u i s s'

/-- Assumption about the allocation of memory: the buffer is not in use by any variable that the
caller has access to, hence writing to it does not change their values. -/
def AllocOK (alloc : M (BitVec 64)) : Prop :=
  ∀ s U u, IInv s U u → ∀ p s', alloc s = .ok p s' → s' = s ∧
    ∀ k, 0 < u k → ∀ l x v, Val s k l v → Val (s.poke p x) k l v

end Verif.Gather
