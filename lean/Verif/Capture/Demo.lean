import Verif.Capture.Props
import Mathlib.Tactic.FinCases

/-!
# C71: a program that satisfies the hypotheses, and one that is aborted
-/

namespace Verif.Capture

open Verif.Eval (SV TS Act Reach edges Dead Acyclic Idle InputsAtOneDepth)
open Verif.Eval (Gen.St idle_init reach_within visitsOf visitsOf_complete)

/-- A graph given by a list of nodes, variable 0 being unused. -/
def ofL (l : List Node) (i : Nat) : Option Node := if i = 0 then none else l[i - 1]?

theorem ofL_cases {l : List Node} {i : Nat} {nd : Node} (hi : ofL l i = some nd) :
    ∃ p ∈ l.zipIdx, i = p.2 + 1 ∧ nd = p.1 := by
  unfold ofL at hi
  by_cases h0 : i = 0
  · rw [if_pos h0] at hi; simp at hi
  · rw [if_neg h0] at hi
    exact ⟨(nd, i - 1), List.mem_zipIdx_iff_getElem?.2 hi, by dsimp only; omega, rfl⟩

theorem acyclic_of {g : Graph} {N : Nat} (hN : ∀ i, N ≤ i → view g i = none)
    (h : ∀ i < N, ∀ nd, view g i = some nd → ∀ k ∈ visitsOf nd, k < i) :
    Acyclic (view g) id := by
  intro i nd d k e hi hk
  refine h i ?_ nd hi k (visitsOf_complete hk)
  by_contra hc
  rw [hN i (by omega)] at hi
  simp at hi

/-- The variables that a function refers to stay in a set that is closed under
references. -/
theorem within_sub {g : Graph} {roots W : List Nat} (h0 : ∀ i ∈ roots, i ∈ W)
    (h1 : ∀ i ∈ W, ∀ nd, g i = some nd → ∀ j ∈ refersTo g nd, j ∈ W) {i : Nat}
    (h : Within g roots i) : i ∈ W := by
  induction h with
  | root h => exact h0 _ h
  | step _ hg hj ih => exact h1 _ ih _ hg _ hj

/-- The nested call of the first function: `y ↦ y + v15`. -/
def callB : CallData where
  optimize := true
  outerIn := [13]
  innerIn := [14]
  outerOut := [some 18]
  innerOut := [[16]]
  sideEffects := [[]]
  uses := {}
  slots := [[15]]

/-- A call with two instances. The first function contains a loop, a counter, the
nested call and a memory access; the second one returns `x + v1`. -/
def callA : CallData where
  optimize := true
  outerIn := [3]
  innerIn := [4]
  outerOut := [some 21]
  innerOut := [[19], [7]]
  sideEffects := [[], []]
  uses := ⟨true, true, false, true⟩
  slots := [[2, 1], [1]]

def demoL : List Node :=
  [ { kind := .evaluated },                                             -- 1
    { kind := .literal, ptr := true, dep := [0, 0, 0, 1] },             -- 2: pointer to an array
    { kind := .plain, size := 8, scope := 2 },                          -- 3: x
    { kind := .callInput, dep := [3, 0, 0, 0], size := 8, scope := 3 }, -- 4
    { kind := .callSelf, size := 8, scope := 3 },                       -- 5
    { kind := .counter, size := 8, scope := 3 },                        -- 6
    { kind := .plain, dep := [4, 1, 0, 0], size := 8, scope := 3 },     -- 7: x + v1
    { kind := .loopStart (some [⟨7, 9, 10⟩]), size := 8, scope := 3 },  -- 8
    { kind := .loopPhi 0, dep := [8, 0, 0, 0], size := 8, scope := 4 }, -- 9
    { kind := .plain, dep := [9, 6, 0, 0], size := 8, scope := 4 },     -- 10
    { kind := .loopCond, dep := [8, 10, 0, 0], size := 8, scope := 4 }, -- 11
    { kind := .plain, dep := [11, 0, 0, 0], size := 8, scope := 5 },    -- 12: end of the loop
    { kind := .loopOutput 0, dep := [8, 12, 0, 0], size := 8, scope := 5 }, -- 13
    { kind := .callInput, dep := [13, 0, 0, 0], size := 8, scope := 6 },  -- 14
    { kind := .evaluated },                                             -- 15
    { kind := .plain, dep := [14, 15, 0, 0], size := 8, scope := 6 },   -- 16
    { kind := .call callB, dep := [5, 0, 0, 0], size := 8, scope := 7 },  -- 17
    { kind := .callOutput 0, dep := [17, 0, 0, 0], size := 8, scope := 7 }, -- 18
    { kind := .plain, dep := [2, 18, 0, 0], size := 8, scope := 7 },    -- 19: gather
    { kind := .call callA, dep := [3, 0, 0, 0], size := 8, scope := 8 },  -- 20
    { kind := .callOutput 0, dep := [20, 0, 0, 0], size := 8, scope := 8 } ] -- 21

def demoG : Graph := ofL demoL

theorem demo_high (i : Nat) (h : 22 ≤ i) : demoG i = none := by
  unfold demoG ofL
  rw [if_neg (by omega), List.getElem?_eq_none]
  have : demoL.length = 21 := rfl
  omega

theorem demo_wf : Wf demoG where
  zero := rfl
  phi := by
    intro i nd k hg hk
    obtain ⟨p, hp, rfl, rfl⟩ := ofL_cases hg
    fin_cases hp <;> simp at hk
    subst hk
    exact ⟨rfl, [⟨7, 9, 10⟩], ⟨7, 9, 10⟩, rfl, rfl, by decide⟩
  output := by
    intro i nd k hg hk
    obtain ⟨p, hp, rfl, rfl⟩ := ofL_cases hg
    fin_cases hp <;> simp at hk
    subst hk
    exact ⟨[⟨7, 9, 10⟩], ⟨7, 9, 10⟩, rfl, rfl, by decide, 12, _, 11, _, by decide, rfl, rfl,
      by decide, rfl, rfl, rfl⟩
  cond := by
    intro i nd  hg hk
    obtain ⟨p, hp, rfl, rfl⟩ := ofL_cases hg
    fin_cases hp <;> simp at hk
    decide
  state := by
    intro i nd l e hg hk he hne
    obtain ⟨p, hp, rfl, rfl⟩ := ofL_cases hg
    fin_cases hp <;> simp at hk
    subst hk
    simp only [List.mem_singleton] at he
    subst he
    exact ⟨_, 0, rfl, rfl, rfl⟩
  callOutput := by
    intro i nd k hg hk
    obtain ⟨p, hp, rfl, rfl⟩ := ofL_cases hg
    fin_cases hp <;> simp at hk
    · subst hk
      exact ⟨by decide, callB, rfl, by decide⟩
    · subst hk
      exact ⟨by decide, callA, rfl, by decide⟩
  arrayWrite := by
    intro i nd b hg hk
    obtain ⟨p, hp, rfl, rfl⟩ := ofL_cases hg
    fin_cases hp <;> simp at hk

theorem demo_cas : NoCas demoG := by
  intro i nd m hg
  obtain ⟨p, hp, rfl, rfl⟩ := ofL_cases hg
  fin_cases hp <;> simp

/-- Membership in the body of a function can be checked on a closed set. -/
theorem body_of {g : Graph} {inputs roots W : List Nat}
    (h0 : ∀ i ∈ roots, i ∈ W)
    (h1 : ∀ i ∈ W, ∀ nd, g i = some nd → ∀ j ∈ refersTo g nd, j ∈ W)
    (h2 : ∀ i ∈ W, ∀ nd, g i = some nd → nd.kind = .callInput → i ∈ inputs)
    (h3 : ∀ i ∈ W, ∀ nd k, g i = some nd → nd.kind = .loopPhi k →
      ∃ c ndc, Within g roots c ∧ g c = some ndc ∧ ndc.kind = .loopCond ∧
        ndc.dep.headD 0 = nd.dep.headD 0) : BodyOk g inputs roots where
  loops i nd k hi := h3 i (within_sub h0 h1 hi) nd k
  inputs i nd hi := h2 i (within_sub h0 h1 hi) nd

instance {g : Graph} {i : Nat} {P : Node → Prop} [DecidablePred P] :
    Decidable (∀ nd, g i = some nd → P nd) :=
  match h : g i with
  | none => isTrue (by simp)
  | some nd => if hp : P nd then isTrue (by rintro _ ⟨⟩; exact hp)
    else isFalse fun hc => hp (hc nd rfl)

theorem demo_bodyA (inst : Nat) : BodyOk demoG callA.innerIn (instRoots callA inst) := by
  match inst with
  | 0 =>
    refine body_of (W := [19, 18, 17, 13, 12, 11, 10, 9, 8, 7, 6, 5, 4, 2, 1]) (by decide)
      (by decide +kernel) (by decide +kernel) ?_
    intro i hi nd k hg hk
    have h19 : Within demoG (instRoots callA 0) 19 := .root (by decide)
    have h18 : Within demoG (instRoots callA 0) 18 := .step h19 rfl (by decide +kernel)
    have h17 : Within demoG (instRoots callA 0) 17 := .step h18 rfl (by decide +kernel)
    have h13 : Within demoG (instRoots callA 0) 13 := .step h17 rfl (by decide +kernel)
    have h12 : Within demoG (instRoots callA 0) 12 := .step h13 rfl (by decide +kernel)
    have h11 : Within demoG (instRoots callA 0) 11 := .step h12 rfl (by decide +kernel)
    refine ⟨11, _, h11, rfl, rfl, ?_⟩
    obtain ⟨p, hp, rfl, rfl⟩ := ofL_cases hg
    fin_cases hp <;> simp at hk
    rfl
  | 1 =>
    refine body_of (W := [7, 4, 1]) (by decide) (by decide +kernel) (by decide +kernel) ?_
    intro i hi nd k hg hk
    exfalso
    fin_cases hi
    all_goals
      have := Option.some.inj hg
      subst this
      simp at hk
  | n + 2 =>
    refine body_of (W := []) ?_ (by simp) (by simp) (by simp)
    intro i hi
    simp [instRoots, callA] at hi

theorem demo_bodyB (inst : Nat) : BodyOk demoG callB.innerIn (instRoots callB inst) := by
  match inst with
  | 0 =>
    refine body_of (W := [16, 15, 14]) (by decide) (by decide +kernel) (by decide +kernel) ?_
    intro i hi nd k hg hk
    exfalso
    fin_cases hi
    all_goals
      have := Option.some.inj hg
      subst this
      simp at hk
  | n + 1 =>
    refine body_of (W := []) ?_ (by simp) (by simp) (by simp)
    intro i hi
    simp [instRoots, callB] at hi

theorem demo_calls : CallsOk demoG := by
  intro c nd d hg hk
  obtain ⟨p, hp, rfl, rfl⟩ := ofL_cases hg
  fin_cases hp <;> simp at hk
  · subst hk
    refine ⟨rfl, ?_, demo_bodyB⟩
    intro k i nd hi hgi _
    match k with
    | 0 =>
      have := Option.some.inj hi
      subst this
      have := Option.some.inj hgi
      subst this
      rfl
    | k + 1 => simp [callB] at hi
  · subst hk
    refine ⟨rfl, ?_, demo_bodyA⟩
    intro k i nd hi hgi _
    match k with
    | 0 =>
      have := Option.some.inj hi
      subst this
      have := Option.some.inj hgi
      subst this
      rfl
    | k + 1 => simp [callA] at hi

theorem demo_recorded : Recorded demoG callA :=
  ⟨rfl, 30, Gen.St.init, _, _, Eval.Gen.inv_init, by simp, by decide +kernel⟩

theorem demo_caller : CallerOk demoG (fun _ => 2) 20 callA where
  results := by
    intro k o h
    match k with
    | 0 =>
      have : o = 21 := by simpa [callA] using h.symm
      subst this
      exact ⟨_, rfl, Or.inr ⟨rfl, rfl⟩⟩
    | k + 1 => simp [callA] at h
  literals := by
    intro _ k i o nd ndo _ _ _ ho hgo
    match k with
    | 0 =>
      have := Option.some.inj ho
      subst this
      have := Option.some.inj hgo
      subst this
      simp
    | k + 1 => simp [callA] at ho
  values := by
    intro o ho
    simp only [callA, List.mem_singleton] at ho
    subst ho
    exact ⟨_, rfl, by simp⟩
  counted := by simp

theorem demo_acyclic : Acyclic (view demoG) id :=
  acyclic_of (N := 22) (fun i hi => by unfold view; rw [demo_high i hi])
    (by
      intro i hi
      have : ∀ i < 22, ∀ nd, view demoG i = some nd → ∀ k ∈ visitsOf nd, k < i := by
        intro i hi nd hg
        have hall : ((List.range 22).all fun i => match view demoG i with
          | none => true
          | some nd => (visitsOf nd).all (· < i)) = true := by decide +kernel
        rw [List.all_eq_true] at hall
        have := hall i (List.mem_range.2 hi)
        rw [hg] at this
        simpa using this
      exact this i hi)

/-- What the caller needs, with the nesting depth. -/
def demoReach : List (Nat × Nat) :=
  [(21, 0), (20, 0), (3, 0), (19, 1), (7, 1), (2, 1), (18, 1), (4, 1), (1, 1), (17, 1), (16, 2),
   (5, 1), (14, 2), (15, 2), (13, 1), (10, 1), (9, 1), (8, 1), (12, 1), (11, 1), (6, 1)]

theorem demo_reach {cut : Nat → Prop} {i d : Nat} (h : Reach (view demoG) cut [21] i d) :
    (i, d) ∈ demoReach := by
  refine reach_within (C := fun i d => (i, d) ∈ demoReach) (by decide) ?_ h
  intro i d nd a hi hg ha
  have hall : (demoReach.all fun p => match view demoG p.1 with
      | none => true
      | some nd => (edges nd p.2).all fun a => demoReach.contains (a.index, a.depth)) = true := by
    decide +kernel
  rw [List.all_eq_true] at hall
  have := hall (i, d) hi
  dsimp only at this
  rw [hg] at this
  dsimp only at this
  rw [List.all_eq_true] at this
  simpa using this a ha

theorem demo_one : InputsAtOneDepth (view demoG) [21] := by
  intro i nd _ _ d e hd he
  have h1 := demo_reach hd
  have h2 := demo_reach he
  have : ∀ p ∈ demoReach, ∀ q ∈ demoReach, p.1 = q.1 → p.2 = q.2 := by decide +kernel
  exact this _ h1 _ h2 rfl

/-- The variables of the caller's kernel. -/
theorem demo_sched : ∃ s0, Eval.travGroup (view demoG) (fun _ => 2) 8 60 [21]
    ⟨Gen.St.init, [], []⟩ = .ok s0 ∧ s0.sched = [⟨8, 2, 3⟩, ⟨8, 8, 20⟩, ⟨8, 8, 21⟩] := by
  have h : (match Eval.travGroup (view demoG) (fun _ => 2) 8 60 [21] ⟨Gen.St.init, [], []⟩ with
    | .ok s => some s.sched
    | .error _ => none) = some [⟨8, 2, 3⟩, ⟨8, 8, 20⟩, ⟨8, 8, 21⟩] := by decide +kernel
  cases hs : Eval.travGroup (view demoG) (fun _ => 2) 8 60 [21] ⟨Gen.St.init, [], []⟩ with
  | error e => rw [hs] at h; simp at h
  | ok s => rw [hs] at h; exact ⟨s, rfl, Option.some.inj h⟩

theorem demo_body (inst : Nat) (hi : inst < 2) : ∃ s, Eval.travGroup (view demoG) (fun _ => 2) 1 60
    (funcRoots demoG (fun i => decide (i ∈ [3, 20, 21])) callA inst) ⟨Gen.St.init, [], []⟩ = .ok s := by
  have h : ∀ inst < 2, (match Eval.travGroup (view demoG) (fun _ => 2) 1 60
      (funcRoots demoG (fun i => decide (i ∈ [3, 20, 21])) callA inst) ⟨Gen.St.init, [], []⟩ with
    | .ok _ => true
    | .error _ => false) = true := by decide +kernel
  have := h inst hi
  split at this
  · rename_i s hs
    exact ⟨s, hs⟩
  · simp at this

/-- The hypotheses of `C71_functions_complete_partial` hold for both functions of the
example, with the slots of the first one laid out in a different order, and with a
nested call that overwrites the positions of all other variables. -/
example (inst : Nat) (hi : inst < 2) : ∃ L,
    assembleFunc demoG id (fun _ _ _ => 0) (fun _ => 2) 60
      (fun i => decide (i ∈ [3, 20, 21])) callA inst 5 ((callA.slots.getD inst []).reverse)
      (fun _ => 77) Gen.St.init = .ok L := by
  obtain ⟨s0, h0, hS⟩ := demo_sched
  obtain ⟨s, hs⟩ := demo_body inst hi
  exact ⟨_, C71_functions_complete_partial (c := 20) (d := callA) (size := 8) (refs0 := fun _ => 2)
    (base := []) (S := [⟨8, 2, 3⟩, ⟨8, 8, 20⟩, ⟨8, 8, 21⟩]) demo_wf demo_calls demo_cas rfl rfl
    demo_recorded demo_acyclic idle_init demo_one ⟨by simp, by simp⟩ (by simp) h0 hS (by decide)
    demo_caller (by simp) hi ⟨by simp, by simp⟩ (fun _ => List.Perm.refl _)
    (List.reverse_perm _) idle_init hs⟩

/-- The code of the first function. -/
example : (assembleFunc demoG id (fun _ _ _ => 0) (fun _ => 2) 60
    (fun i => decide (i ∈ [3, 20, 21])) callA 0 5 [1, 2] (fun _ => 77) Gen.St.init).toOption.map
      (·.map SV.index) = some [2, 4, 1, 7, 8, 9, 6, 10, 11, 12, 13, 5, 17, 18, 19] := by
  decide +kernel

/-! ## The mask of a compare-exchange operation

`jitc_var_call_analyze` does not visit the mask of a `ScatterCAS` variable, which is
not among its operands but referenced out-of-band. -/

/-- A function that performs a compare-exchange with an evaluated scalar mask. -/
def casCall : CallData where
  optimize := true
  outerIn := []
  innerIn := []
  outerOut := []
  innerOut := [[]]
  sideEffects := [[7]]
  uses := {}
  slots := [[2]]

def casL : List Node :=
  [ { kind := .evaluated },                                   -- 1: a scalar mask
    { kind := .literal, ptr := true },                        -- 2: target
    { kind := .plain },                                       -- 3: index, old and new value
    { kind := .plain },                                       -- 4: mask of the call
    { kind := .plain, dep := [1, 4, 0, 0] },                  -- 5: conjunction of the masks
    { kind := .scatterCas 5, dep := [2, 3, 3, 3] },           -- 6
    { kind := .plain, dep := [6, 0, 0, 0] },                  -- 7: side effect
    { kind := .call casCall } ]                               -- 8

/-- **C71 (counterexample).** The analysis accepts the function and determines its
captured variables, but the code generation step aborts the process: the variable from
which the mask of the compare-exchange operation is computed has no slot. -/
theorem C71_cas_mask_counterexample :
    Recorded (ofL casL) casCall ∧
    (match Eval.travGroup (view (ofL casL)) (fun _ => 2) 1 20
      (funcRoots (ofL casL) (fun i => decide (i = 8)) casCall 0) ⟨Gen.St.init, [], []⟩ with
      | .ok s => s.sched.map SV.index
      | .error _ => []) = [1, 4, 5, 2, 3, 6, 7] ∧
    assembleFunc (ofL casL) id (fun _ _ _ => 0) (fun _ => 2) 20 (fun i => decide (i = 8)) casCall 0
      0 [2] (fun _ => 0) Gen.St.init = .error .fail :=
  ⟨⟨rfl, 20, Gen.St.init, _, _, Eval.Gen.inv_init, by simp, by decide +kernel⟩,
    by decide +kernel, by decide +kernel⟩

/-! ## A call in the scope of its arguments -/

/-- A function with two arguments and two results: `(a, b) ↦ (a, b)`. -/
def swapCall : CallData where
  optimize := true
  outerIn := [1, 2]
  innerIn := [3, 4]
  outerOut := [some 8, some 9]
  innerOut := [[5, 6]]
  sideEffects := [[]]
  uses := {}
  slots := [[]]

def scopeL : List Node :=
  [ { kind := .plain }, { kind := .plain },                   -- 1, 2: a, b
    { kind := .callInput, dep := [1, 0, 0, 0] },              -- 3
    { kind := .callInput, dep := [2, 0, 0, 0] },              -- 4
    { kind := .plain, dep := [3, 0, 0, 0] },                  -- 5
    { kind := .plain, dep := [4, 0, 0, 0] },                  -- 6
    { kind := .call swapCall },                               -- 7
    { kind := .callOutput 0, dep := [7, 0, 0, 0] },           -- 8
    { kind := .callOutput 1, dep := [7, 0, 0, 0] } ]          -- 9

/-- **C71 (the scope matters).** Without a new scope for the call, its second argument
may be computed after the call, although it is passed. -/
theorem C71_scope_counterexample :
    Recorded (ofL scopeL) swapCall ∧ ∃ s0,
      Eval.travGroup (view (ofL scopeL)) (fun _ => 2) 1 30 [8, 9] ⟨Gen.St.init, [], []⟩ = .ok s0 ∧
      (Eval.insSort Eval.SV.key s0.sched).map SV.index = [1, 7, 8, 2, 9] ∧
      inActive (ofL scopeL) (fun _ => 2)
        (fun i => decide (i ∈ s0.sched.map SV.index)) swapCall = [true, true] := by
  refine ⟨⟨rfl, 20, Gen.St.init, _, _, Eval.Gen.inv_init, by simp, by decide +kernel⟩, ?_⟩
  have h : (match Eval.travGroup (view (ofL scopeL)) (fun _ => 2) 1 30 [8, 9]
      ⟨Gen.St.init, [], []⟩ with
    | .ok s => some s.sched
    | .error _ => none) = some [⟨1, 2, 1⟩, ⟨1, 2, 7⟩, ⟨1, 2, 8⟩, ⟨1, 2, 2⟩, ⟨1, 2, 9⟩] := by
    decide +kernel
  cases hs : Eval.travGroup (view (ofL scopeL)) (fun _ => 2) 1 30 [8, 9]
      ⟨Gen.St.init, [], []⟩ with
  | error e => rw [hs] at h; simp at h
  | ok s =>
    rw [hs] at h
    refine ⟨s, rfl, ?_⟩
    rw [Option.some.inj h]
    decide +kernel

end Verif.Capture
