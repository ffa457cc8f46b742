import Verif.Capture.Minimal
import Mathlib.Data.Finset.Card
import Mathlib.Data.Finset.Filter
import Mathlib.Data.Finset.Range

/-!
# What a recorded function call captures (C71): all instances

The analysis of all instances, and its termination.
-/

namespace Verif.Capture

open Verif.Eval (Gen.St)

variable {g : Graph}

/-- The stamps are those of an analysis in progress. -/
def GenOk (s : Gen.St) : Prop :=
  ∃ m, Eval.Gen.Inv s m true ∧ (∀ i, m i ≠ .stashed) ∧ ∀ i, m i ≠ .outer

theorem GenOk.enter {i : Nat} {nd : Node} {s : St} (h : GenOk s.gen) :
    GenOk (enter i nd s).gen := by
  obtain ⟨m, hI, hs, ho⟩ := h
  refine ⟨_, Eval.Gen.step_inv hI (.analyze i) ⟨rfl, hs i, ho⟩, ?_, ?_⟩
  · intro j
    simp only [Eval.Gen.see]
    split
    · simp
    · exact hs j
  · intro j
    simp only [Eval.Gen.see]
    split
    · simp
    · exact ho j

theorem GenOk.newGen {s : Gen.St} (h : ∃ m st, Eval.Gen.Inv s m st ∧ ∀ i, m i ≠ .stashed) :
    GenOk (Eval.Gen.newGen s) := by
  obtain ⟨m, st, hI, hs⟩ := h
  have hm : ∀ i, Eval.Gen.see i m .newGen = .no := by
    intro i
    simp [Eval.Gen.see, hs i]
  exact ⟨_, Eval.Gen.step_inv hI .newGen trivial, by simp [hm], by simp [hm]⟩

theorem visitAll_gen {rec : Nat → St → Except Err St}
    (hrec : ∀ i s s', GenOk s.gen → rec i s = .ok s' → GenOk s'.gen) {l : List Nat} {s s' : St}
    (hs : GenOk s.gen) (h : visitAll rec l s = .ok s') : GenOk s'.gen := by
  induction l generalizing s with
  | nil =>
    simp only [visitAll, Except.ok.injEq] at h
    exact h ▸ hs
  | cons i l ih =>
    unfold visitAll at h
    cases hr : rec i s with
    | error e => rw [hr] at h; simp at h
    | ok s1 =>
      rw [hr] at h
      exact ih (hrec i s s1 hs hr) h

theorem ana_gen (f : Nat) : ∀ i s s', GenOk s.gen → ana g f i s = .ok s' → GenOk s'.gen := by
  induction f with
  | zero => intro i s s' _ h; simp [ana] at h
  | succ f ih =>
    intro i s s' hs h
    unfold ana at h
    cases hg : g i with
    | none => rw [hg] at h; simp at h
    | some nd =>
      rw [hg] at h
      dsimp only at h
      split at h
      · simp only [Except.ok.injEq] at h
        exact h ▸ hs
      · split at h
        · simp only [Except.ok.injEq] at h
          exact h ▸ hs.enter
        · split at h
          · simp at h
          · split at h
            · simp at h
            · exact visitAll_gen ih hs.enter h

/-- The analysis of all instances of a call: each of them is complete, and the flags
of the call account for all of them. -/
theorem anaCall_spec (hcas : NoCas g) {fuel : Nat} {insts : List (List Nat × List Nat)} :
    ∀ {gen : Gen.St} {u : Uses} {sl : List (List Nat)} {u' : Uses},
    (∃ m st, Eval.Gen.Inv gen m st ∧ ∀ i, m i ≠ .stashed) →
    anaCall g fuel insts gen u = .ok (sl, u') →
    sl.length = insts.length ∧ UsesLe u u' ∧
      ∀ (k : Nat) (p : List Nat × List Nat), insts[k]? = some p → ∃ u1 u2,
        Analyzed g (p.1 ++ p.2) (sl.getD k []) u1 u2 ∧ UsesLe u2 u' := by
  induction insts with
  | nil =>
    intro gen u sl u' _ h
    simp only [anaCall, Except.ok.injEq, Prod.mk.injEq] at h
    obtain ⟨rfl, rfl⟩ := h
    exact ⟨rfl, UsesLe.refl _, by simp⟩
  | cons p rest ih =>
    obtain ⟨outs, ses⟩ := p
    intro gen u sl u' hgen h
    unfold anaCall at h
    cases h1 : anaInst g fuel outs ses gen u with
    | error e => rw [h1] at h; simp at h
    | ok s =>
      rw [h1] at h
      dsimp only at h
      cases h2 : anaCall g fuel rest s.gen s.uses with
      | error e => rw [h2] at h; simp at h
      | ok q =>
        obtain ⟨sl2, u2⟩ := q
        rw [h2] at h
        simp only [Except.ok.injEq, Prod.mk.injEq] at h
        obtain ⟨rfl, rfl⟩ := h
        have hA := anaInst_spec hcas hgen h1
        have hg2 : GenOk s.gen := by
          unfold anaInst at h1
          exact visitAll_gen (ana_gen fuel) (GenOk.newGen hgen) h1
        obtain ⟨m, hI, hst, _⟩ := hg2
        obtain ⟨e1, e2, e3⟩ := ih ⟨m, true, hI, hst⟩ h2
        refine ⟨by simp [e1], hA.uses.trans e2, ?_⟩
        intro k q hk
        cases k with
        | zero =>
          simp only [List.getElem?_cons_zero, Option.some.injEq] at hk
          subst hk
          exact ⟨u, s.uses, by simpa using hA, e2⟩
        | succ k =>
          rw [List.getElem?_cons_succ] at hk
          simpa using e3 k q hk

/-! ## Termination -/

/-- Number of variables below `N` that have not been visited. -/
noncomputable def unseen (N : Nat) (s : St) : Nat :=
  ((Finset.range N).filter fun i => Eval.Gen.analyzeSkips s.gen i = false).card

theorem unseen_mono {N : Nat} {s s' : St} (h : ∀ j, Vis s j → Vis s' j) :
    unseen N s' ≤ unseen N s := by
  apply Finset.card_le_card
  intro i hi
  rw [Finset.mem_filter] at hi ⊢
  refine ⟨hi.1, ?_⟩
  cases hv : Eval.Gen.analyzeSkips s.gen i with
  | false => rfl
  | true =>
    have := h i hv
    unfold Vis at this
    rw [hi.2] at this
    simp at this

theorem unseen_enter {N i : Nat} {nd : Node} {s : St} (hi : i < N)
    (hs : Eval.Gen.analyzeSkips s.gen i = false) : unseen N (enter i nd s) < unseen N s := by
  apply Finset.card_lt_card
  rw [Finset.ssubset_iff_of_subset]
  · refine ⟨i, ?_, ?_⟩
    · simp [hi, hs]
    · rw [Finset.mem_filter]
      rintro ⟨_, h⟩
      have := (vis_enter (i := i) (nd := nd) (s := s) i).2 (Or.inl rfl)
      unfold Vis at this
      rw [h] at this
      simp at this
  · intro j hj
    rw [Finset.mem_filter] at hj ⊢
    refine ⟨hj.1, ?_⟩
    cases hv : Eval.Gen.analyzeSkips s.gen j with
    | false => rfl
    | true =>
      have := (vis_enter (i := i) (nd := nd) (s := s) j).2 (Or.inr hv)
      unfold Vis at this
      rw [hj.2] at this
      simp at this

theorem visitAll_term {rec : Nat → St → Except Err St} {N f : Nat}
    (hrec : ∀ i s, unseen N s < f → rec i s ≠ .error .fuel ∧
      ∀ s', rec i s = .ok s' → ∀ j, Vis s j → Vis s' j) {l : List Nat} :
    ∀ {s : St}, unseen N s < f → visitAll rec l s ≠ .error .fuel ∧
      ∀ s', visitAll rec l s = .ok s' → ∀ j, Vis s j → Vis s' j := by
  induction l with
  | nil =>
    intro s _
    refine ⟨by simp [visitAll], ?_⟩
    intro s' h
    simp only [visitAll, Except.ok.injEq] at h
    subst h
    exact fun j hj => hj
  | cons i l ih =>
    intro s hs
    obtain ⟨h1, h2⟩ := hrec i s hs
    unfold visitAll
    cases hr : rec i s with
    | error e =>
      dsimp only
      refine ⟨?_, by simp⟩
      rw [hr] at h1
      exact h1
    | ok s1 =>
      dsimp only
      have hm := h2 s1 hr
      obtain ⟨h3, h4⟩ := ih (s := s1) (Nat.lt_of_le_of_lt (unseen_mono hm) hs)
      exact ⟨h3, fun s' h j hj => h4 s' h j (hm j hj)⟩

theorem ana_term {N : Nat} (hN : ∀ i, N ≤ i → g i = none) (f : Nat) :
    ∀ i s, unseen N s < f → ana g f i s ≠ .error .fuel ∧
      ∀ s', ana g f i s = .ok s' → ∀ j, Vis s j → Vis s' j := by
  induction f with
  | zero => intro i s h; omega
  | succ f ih =>
    intro i s hs
    unfold ana
    cases hg : g i with
    | none => simp
    | some nd =>
      have hi : i < N := by
        by_contra hc
        rw [hN i (by omega)] at hg
        simp at hg
      dsimp only
      by_cases hv : Eval.Gen.analyzeSkips s.gen i = true
      · rw [if_pos hv]
        refine ⟨by simp, ?_⟩
        intro s' h
        simp only [Except.ok.injEq] at h
        subst h
        exact fun j hj => hj
      · rw [if_neg hv]
        have hlt := unseen_enter (nd := nd) hi (by simpa using hv)
        have hmono : ∀ j, Vis s j → Vis (enter i nd s) j :=
          fun j hj => (vis_enter j).2 (Or.inr hj)
        by_cases hc : nd.kind = .callInput
        · rw [if_pos hc]
          refine ⟨by simp, ?_⟩
          intro s' h
          simp only [Except.ok.injEq] at h
          subst h
          exact hmono
        · rw [if_neg hc]
          by_cases hz : captured nd = true ∧ nd.size ≠ 1
          · rw [if_pos hz]; simp
          · rw [if_neg hz]
            cases hx : extraVisits g nd with
            | error e =>
              dsimp only
              refine ⟨?_, by simp⟩
              unfold extraVisits at hx
              cases hk : nd.kind <;> rw [hk] at hx <;> simp at hx
              split at hx <;> simp at hx <;> subst hx <;> simp
            | ok l =>
              dsimp only
              obtain ⟨h1, h2⟩ := visitAll_term (N := N) (f := f) ih (l := l ++ nd.deps)
                (s := enter i nd s) (by omega)
              exact ⟨h1, fun s' h j hj => h2 s' h j (hmono j hj)⟩

/-- The analysis of the instances of a call ends: a recursion depth of the number of
variables suffices. -/
theorem ana_terminates {N : Nat} (hN : ∀ i, N ≤ i → g i = none)
    {insts : List (List Nat × List Nat)} {fuel : Nat} (hf : N < fuel) :
    ∀ {gen : Gen.St} {u : Uses}, anaCall g fuel insts gen u ≠ .error .fuel := by
  induction insts with
  | nil => intro gen u; simp [anaCall]
  | cons p rest ih =>
    obtain ⟨outs, ses⟩ := p
    intro gen u
    have hb : ∀ s, unseen N s < fuel := by
      intro s
      have h1 : unseen N s ≤ N := (Finset.card_filter_le _ _).trans (by simp)
      omega
    unfold anaCall
    have h1 : anaInst g fuel outs ses gen u ≠ .error .fuel := by
      unfold anaInst
      exact (visitAll_term (ana_term hN fuel) (hb _)).1
    cases h2 : anaInst g fuel outs ses gen u with
    | error e =>
      dsimp only
      rw [h2] at h1
      simpa using h1
    | ok s =>
      dsimp only
      have h3 := ih (gen := s.gen) (u := s.uses)
      cases h4 : anaCall g fuel rest s.gen s.uses with
      | error e =>
        dsimp only
        rw [h4] at h3
        simpa using h3
      | ok q => simp

end Verif.Capture
