import Verif.Gather.MaskProps
/-!
# Concrete histories with a mask stack

The hypotheses of the theorems of `Verif.Gather.MaskProps` are met by histories that are executed
here.
-/
namespace Verif.Gather
open Verif.Var Verif.Ops

/-- Writes are pending on evaluated variables only (decidable version). -/
def writesB (s : Store) : Bool :=
  (List.range s.len).all (fun i => !(s.vars i).isDirty || (s.vars i).kind == .evaluated)

theorem writesB_ok {s : Store} (h : writesB s = true) : WritesOK s := by
  refine writesOK_of_len (fun i hi hd => ?_)
  have := List.all_eq_true.1 h i (List.mem_range.2 hi)
  rw [hd] at this
  simpa using this

def headOK (s : Store) (u : Nat → Nat) (st : List Nat) : Bool :=
  match st with
  | [] => true
  | t :: _ => decide (Operand s (holders u st) t ∧ (s.vars t).type = .bool)

theorem headOK_ok {s : Store} {u : Nat → Nat} {st : List Nat} (h : headOK s u st = true) :
    ∀ t, st.head? = some t → Operand s (holders u st) t ∧ (s.vars t).type = .bool := by
  intro t ht
  cases st with
  | nil => cases ht
  | cons a l =>
    cases ht
    simpa [headOK] using h

/-- Execute a list of calls that return normally. -/
def runM (ev : M Unit) : List MOp → Store → (Nat → Nat) → List Nat →
    Option (Store × (Nat → Nat) × List Nat)
  | [], s, u, st => some (s, u, st)
  | .call c :: l, s, u, st =>
    if c.legal u then
      match c.exec ev s with
      | .ok r s' => runM ev l s' (c.after u r) st
      | _ => none
    else none
  | .op _ :: _, _, _, _ => none
  | .push i :: l, s, u, st =>
    if 0 < u i then
      match maskPush st i s with
      | .ok st' s' => runM ev l s' u st'
      | _ => none
    else none
  | .pop :: l, s, u, st =>
    match maskPop st s with
    | .ok st' s' => runM ev l s' u st'
    | _ => none
  | .peek :: l, s, u, st =>
    match maskPeek st s with
    | .ok r s' => runM ev l s' (gain u r) st
    | _ => none
  | .apply i n :: l, s, u, st =>
    if writesB s = true ∧ Operand s u i ∧ 0 < n ∧ ((s.vars i).size = 1 ∨ (s.vars i).size = n) ∧
        headOK s u st = true then
      match maskApply ev st i n s with
      | .ok r s' => runM ev l s' (gain u r) st
      | _ => none
    else none
  | .enter b :: l, s, u, st =>
    if writesB s = true then
      match evalScopeEnter ev b st s with
      | .ok (_, st') s' => runM ev l s' u st'
      | _ => none
    else none
  | .leave tok :: l, s, u, st =>
    match evalScopeLeave st tok s with
    | .ok st' s' => runM ev l s' u st'
    | _ => none

theorem runM_steps {ev : M Unit} (l : List MOp) {s s' : Store} {u u' : Nat → Nat} {st st' : List Nat}
    (h : runM ev l s u st = some (s', u', st')) : MSteps ev s u st l s' u' st' := by
  induction l generalizing s u st with
  | nil => simp only [runM, Option.some.injEq, Prod.mk.injEq] at h; obtain ⟨rfl, rfl, rfl⟩ := h; exact .nil
  | cons o l ih =>
    cases o with
    | call c =>
      simp only [runM] at h
      split at h
      · cases hx : c.exec ev s <;> rw [hx] at h <;> try cases h
        exact .cons (.call ‹_› hx) (ih h)
      · cases h
    | op c => cases h
    | push i =>
      simp only [runM] at h
      split at h
      · cases hx : maskPush st i s <;> rw [hx] at h <;> try cases h
        exact .cons (.push ‹_› hx) (ih h)
      · cases h
    | pop =>
      simp only [runM] at h
      cases hx : maskPop st s <;> rw [hx] at h <;> try cases h
      exact .cons (.pop hx) (ih h)
    | peek =>
      simp only [runM] at h
      cases hx : maskPeek st s <;> rw [hx] at h <;> try cases h
      exact .cons (.peek hx) (ih h)
    | apply i n =>
      simp only [runM] at h
      split at h
      · rename_i hc
        obtain ⟨h1, h2, h3, h4, h5⟩ := hc
        cases hx : maskApply ev st i n s <;> rw [hx] at h <;> try cases h
        exact .cons (.apply (writesB_ok h1) h2 h3 h4 (headOK_ok h5) hx) (ih h)
      · cases h
    | enter b =>
      simp only [runM] at h
      split at h
      · rename_i hc
        cases hx : evalScopeEnter ev b st s <;> rw [hx] at h <;> try cases h
        exact .cons (.enter (writesB_ok hc) hx) (ih h)
      · cases h
    | leave tok =>
      simp only [runM] at h
      cases hx : evalScopeLeave st tok s <;> rw [hx] at h <;> try cases h
      exact .cons (.leave hx) (ih h)

/-- A property of a state that is reached by a concrete history. -/
theorem mreach (ss : Bool) (l : List MOp) (P : Store → (Nat → Nat) → List Nat → Prop)
    [∀ s u st, Decidable (P s u st)]
    (h : (runM noEval l { mem := memIdx, symbolicScope := ss } (fun _ => 0) []).any (fun p =>
      writesB p.1 && decide (P p.1 p.2.1 p.2.2)) = true) :
    ∃ s u st, MReachable noEval s u st ∧ WritesOK s ∧ P s u st := by
  cases hr : runM noEval l { mem := memIdx, symbolicScope := ss } (fun _ => 0) [] with
  | none => rw [hr] at h; cases h
  | some p =>
    rw [hr] at h
    have h' : writesB p.1 = true ∧ P p.1 p.2.1 p.2.2 := by simpa using h
    obtain ⟨s, u, st⟩ := p
    exact ⟨s, u, st, ⟨_, _, l, .init (.init memIdx true true true false ss), runM_steps l hr⟩,
      writesB_ok h'.1, h'.2⟩

/-- Arrays of the numbers 0 .. 9 (1) and the literals 3 (2) and 7 (3); the masks `x < 3` (4) and
`x < 7` (5). -/
def maskDemo (b : Nat) : List MOp :=
  [.call (.memMap b .u32 64#64 10 false), .call (.literal b .u32 3#64 1),
   .call (.literal b .u32 7#64 1), .call (.node2 b .lt .bool 10 false 1 2 0#64),
   .call (.node2 b .lt .bool 10 false 1 3 0#64)]

/-- C44: two masks are pushed and the caller gives up the reference to the second; the stack keeps
it alive. -/
example : ∃ s u st, MReachable noEval s u st ∧ WritesOK s ∧ (st = [5, 4] ∧ u 5 = 0 ∧ Live s 5 ∧
    (s.vars 5).refCount = 1 ∧ u 4 + st.count 4 = 2 ∧ (s.vars 4).refCount = 2) :=
  mreach false (maskDemo 1 ++ [.push 4, .push 5, .call (.decRef 5)])
    (fun s u st => st = [5, 4] ∧ u 5 = 0 ∧ Live s 5 ∧ (s.vars 5).refCount = 1 ∧
      u 4 + st.count 4 = 2 ∧ (s.vars 4).refCount = 2) (by decide +kernel)

/-- C44: the same entry twice holds two references. -/
example : ∃ s u st, MReachable noEval s u st ∧ WritesOK s ∧ (st = [4, 4] ∧ u 4 = 0 ∧ (s.vars 4).refCount = 2) :=
  mreach false (maskDemo 1 ++ [.push 4, .push 4, .call (.decRef 4)])
    (fun s u st => st = [4, 4] ∧ u 4 = 0 ∧ (s.vars 4).refCount = 2) (by decide +kernel)

/-- C44: the hypotheses of `C44_apply` are met on the LLVM backend with a mask that is combined with
the innermost one; the result is a conjunction. -/
example : ∃ s u st, MReachable noEval s u st ∧ WritesOK s ∧ (st = [4] ∧ Operand s u 5 ∧
    (s.vars 5).size = 10 ∧ headOK s u st = true ∧ active s st 10 = some 4 ∧
    got (maskApply noEval st 5 10 s) (fun r s' => (s'.vars r).kind == .and &&
      (s'.vars r).size == 10) = true) :=
  mreach false (maskDemo 2 ++ [.push 4])
    (fun s u st => st = [4] ∧ Operand s u 5 ∧
    (s.vars 5).size = 10 ∧ headOK s u st = true ∧ active s st 10 = some 4 ∧
    got (maskApply noEval st 5 10 s) (fun r s' => (s'.vars r).kind == .and &&
      (s'.vars r).size == 10) = true) (by decide +kernel)

/-- C44: a mask with another size is not applied. -/
example : ∃ s u st, MReachable noEval s u st ∧ WritesOK s ∧ (st = [4] ∧ Operand s u 6 ∧
    (s.vars 6).size = 1 ∧ headOK s u st = true ∧ active s st 20 = none ∧
    got (maskApply noEval st 6 20 s) (fun r s' => (s'.vars r).size == 20) = true) :=
  mreach false (maskDemo 1 ++ [.push 4, .call (.literal 1 .bool 1#64 1)])
    (fun s u st => st = [4] ∧ Operand s u 6 ∧
    (s.vars 6).size = 1 ∧ headOK s u st = true ∧ active s st 20 = none ∧
    got (maskApply noEval st 6 20 s) (fun r s' => (s'.vars r).size == 20) = true) (by decide +kernel)

/-- C44: a balanced sequence. -/
example : Balanced [.push 4, .apply 5 10, .push 5, .peek, .pop, .call (.decRef 4), .pop] :=
  .nest (l := [.apply 5 10, .push 5, .peek, .pop, .call (.decRef 4)]) (m := [])
    (.plain rfl (.nest (l := [.peek]) (m := [.call (.decRef 4)]) (.plain rfl .nil) (.plain rfl .nil))) .nil

example : ∃ s u st, MReachable noEval s u st ∧ WritesOK s ∧ (st = [] ∧ u 4 = 0 ∧ u 5 = 2 ∧ Live s 5) :=
  mreach false (maskDemo 2 ++ [.push 4, .apply 5 10, .push 5, .peek, .pop, .call (.decRef 4), .pop])
    (fun s u st => st = [] ∧ u 4 = 0 ∧ u 5 = 2 ∧ Live s 5) (by decide +kernel)

/-- C44: in a symbolic region, an evaluation scope is entered (token 2) and left again. -/
example : ∃ s u st, MReachable noEval s u st ∧ WritesOK s ∧
    (s.symbolicScope = false ∧ st.tail = [4] ∧ s.scope = 3) :=
  mreach true (maskDemo 2 ++ [.push 4, .enter 2])
    (fun s _ st => s.symbolicScope = false ∧ st.tail = [4] ∧ s.scope = 3) (by decide +kernel)

example : ∃ s u st, MReachable noEval s u st ∧ WritesOK s ∧
    (s.symbolicScope = true ∧ st = [4] ∧ s.scope = 2) :=
  mreach true (maskDemo 2 ++ [.push 4, .enter 2, .push 5, .pop, .leave 2])
    (fun s _ st => s.symbolicScope = true ∧ st = [4] ∧ s.scope = 2) (by decide +kernel)

/-- **Finding (C44).** The token 0 means "nothing to do", but it is also the token of a symbolic
region with scope number 0 (which `jit_set_scope` permits): then the scope that was entered cannot
be left, and the stack keeps the additional mask. -/
theorem C44_zero_scope_counterexample : ∃ s u st, MReachable noEval s u st ∧
    (st.length = 1 ∧ s.symbolicScope = false ∧ s.scope ≠ 0) :=
  let ⟨s, u, st, h, _, h'⟩ := mreach true [.call (.setScope 0), .enter 2, .leave 0]
    (fun s _ st => st.length = 1 ∧ s.symbolicScope = false ∧ s.scope ≠ 0) (by decide +kernel)
  ⟨s, u, st, h, h'⟩

end Verif.Gather
