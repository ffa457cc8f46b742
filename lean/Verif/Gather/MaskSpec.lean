import Verif.Gather.Model
import Verif.Ops.Spec
/-!
# Specification: histories with a mask stack

A history consists of the calls of `Verif.Var.Call`, the arithmetic operations and the functions
that operate on the mask stack of the thread.  Next to the references `u` that are owned by the
caller, the stack owns one reference per entry.
-/
namespace Verif.Gather
open Verif.Var Verif.Ops

inductive MOp where
  | call (c : Call)
  | op (c : OpCall)
  /-- `jit_var_mask_push` -/
  | push (i : Nat)
  /-- `jit_var_mask_pop` -/
  | pop
  /-- `jit_var_mask_peek` -/
  | peek
  /-- `jit_var_mask_apply` -/
  | apply (i n : Nat)
  /-- `jit_eval_scope_enter` -/
  | enter (backend : Nat)
  /-- `jit_eval_scope_leave` -/
  | leave (scope : Nat)

/-- The caller obtains a reference to `r` (0: none). -/
def gain (u : Nat → Nat) (r : Nat) : Nat → Nat := fun k => u k + if r ≠ 0 ∧ k = r then 1 else 0

/-- All references that are held from the outside: those of the caller and one for each entry of
the stack. -/
def holders (u : Nat → Nat) (stack : List Nat) : Nat → Nat := fun k => u k + stack.count k

/-- A step of a history: from store `s`, references `u` and stack `st` to `s'`, `u'` and `st'`. -/
inductive MStep (ev : M Unit) : Store → (Nat → Nat) → List Nat → MOp →
    Store → (Nat → Nat) → List Nat → Prop
  | call {s s' : Store} {u : Nat → Nat} {st : List Nat} {c : Call} {r : Nat} :
      c.legal u → c.exec ev s = .ok r s' → MStep ev s u st (.call c) s' (c.after u r) st
  | callRaise {s s' : Store} {u : Nat → Nat} {st : List Nat} {c : Call} :
      c.legal u → c.exec ev s = .raise s' → MStep ev s u st (.call c) s' u st
  | op {s s' : Store} {u : Nat → Nat} {st : List Nat} {c : OpCall} {r : Nat} :
      WritesOK s → c.Valid s u → c.exec ev s = .ok r s' → MStep ev s u st (.op c) s' (gain u r) st
  | push {s s' : Store} {u : Nat → Nat} {st st' : List Nat} {i : Nat} :
      0 < u i → maskPush st i s = .ok st' s' → MStep ev s u st (.push i) s' u st'
  | pop {s s' : Store} {u : Nat → Nat} {st st' : List Nat} :
      maskPop st s = .ok st' s' → MStep ev s u st .pop s' u st'
  | popRaise {s s' : Store} {u : Nat → Nat} {st : List Nat} :
      maskPop st s = .raise s' → MStep ev s u st .pop s' u st
  | peek {s s' : Store} {u : Nat → Nat} {st : List Nat} {r : Nat} :
      maskPeek st s = .ok r s' → MStep ev s u st .peek s' (gain u r) st
  | apply {s s' : Store} {u : Nat → Nat} {st : List Nat} {i n r : Nat} :
      WritesOK s → Operand s u i → 0 < n → (s.vars i).size = 1 ∨ (s.vars i).size = n →
      (∀ t, st.head? = some t → Operand s (holders u st) t ∧ (s.vars t).type = .bool) →
      maskApply ev st i n s = .ok r s' → MStep ev s u st (.apply i n) s' (gain u r) st
  | enter {s s' : Store} {u : Nat → Nat} {st st' : List Nat} {b tok : Nat} :
      WritesOK s → evalScopeEnter ev b st s = .ok (tok, st') s' → MStep ev s u st (.enter b) s' u st'
  | leave {s s' : Store} {u : Nat → Nat} {st st' : List Nat} {tok : Nat} :
      evalScopeLeave st tok s = .ok st' s' → MStep ev s u st (.leave tok) s' u st'
  | leaveRaise {s s' : Store} {u : Nat → Nat} {st : List Nat} {tok : Nat} :
      evalScopeLeave st tok s = .raise s' → MStep ev s u st (.leave tok) s' u st

/-- A sequence of steps. -/
inductive MSteps (ev : M Unit) : Store → (Nat → Nat) → List Nat → List MOp →
    Store → (Nat → Nat) → List Nat → Prop
  | nil {s : Store} {u : Nat → Nat} {st : List Nat} : MSteps ev s u st [] s u st
  | cons {s s' s'' : Store} {u u' u'' : Nat → Nat} {st st' st'' : List Nat} {o : MOp} {l : List MOp} :
      MStep ev s u st o s' u' st' → MSteps ev s' u' st' l s'' u'' st'' →
      MSteps ev s u st (o :: l) s'' u'' st''

/-- The states reached by any history that begins with an empty stack. -/
def MReachable (ev : M Unit) (s : Store) (u : Nat → Nat) (st : List Nat) : Prop :=
  ∃ s0 u0 l, OReachable ev s0 u0 ∧ MSteps ev s0 u0 [] l s u st

/-- Calls that do not push or pop masks. -/
def MOp.plain : MOp → Bool
  | .call _ | .op _ | .peek | .apply _ _ => true
  | _ => false

/-- Sequences of calls in which every mask that is pushed is popped again, and no other. -/
inductive Balanced : List MOp → Prop
  | nil : Balanced []
  | plain {o : MOp} {l : List MOp} : o.plain = true → Balanced l → Balanced (o :: l)
  | nest {i : Nat} {l m : List MOp} : Balanced l → Balanced m → Balanced (.push i :: l ++ .pop :: m)

/-- The mask that is combined with a mask for `n` threads: the innermost one, unless its size does
not fit. -/
def active (s : Store) (stack : List Nat) (n : Nat) : Option Nat :=
  stack.head?.filter (fun t => n = 1 ∨ (s.vars t).size = 1 ∨ (s.vars t).size = n)

end Verif.Gather
