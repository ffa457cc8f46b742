import Verif.Capture.Spec

/-!
# What a recorded function call captures (C71): the analysis
-/

namespace Verif.Capture

variable {g : Graph}

/-- Visited by the analysis. -/
def Vis (s : St) (i : Nat) : Prop := Eval.Gen.analyzeSkips s.gen i = true

theorem vis_enter {i : Nat} {nd : Node} {s : St} (j : Nat) :
    Vis (enter i nd s) j ↔ j = i ∨ Vis s j := by
  show Eval.Gen.analyzeSkips (Eval.Gen.analyze s.gen i) j = true ↔
    j = i ∨ Eval.Gen.analyzeSkips s.gen j = true
  unfold Eval.Gen.analyze
  by_cases h : Eval.Gen.analyzeSkips s.gen i = true
  · rw [if_pos h]
    constructor
    · exact Or.inr
    · rintro (rfl | h1)
      · exact h
      · exact h1
  · rw [if_neg h]
    unfold Eval.Gen.analyzeSkips
    simp only [decide_eq_true_iff]
    by_cases hj : j = i
    · subst hj; simp
    · rw [Function.update_of_ne hj]
      simp [hj]

theorem loopVisits_eq (es : List Entry) :
    loopVisits es = (es.filter fun e => decide (e.outerIn ≠ e.innerIn)).flatMap
      fun e => [e.innerOut, e.outerIn] := by
  unfold loopVisits
  induction es with
  | nil => rfl
  | cons e es ih =>
    rw [List.flatMap_cons, ih]
    by_cases he : e.outerIn = e.innerIn
    · rw [if_pos he, List.filter_cons_of_neg (by simpa using he)]
      rfl
    · rw [if_neg he, List.filter_cons_of_pos (by simpa using he)]
      rfl

/-- The variables visited by a step are those the specification asks for. -/
theorem refersTo_eq {nd : Node} {l : List Nat} (h : extraVisits g nd = .ok l)
    (h1 : nd.kind ≠ .callInput) (h2 : ∀ m, nd.kind ≠ .scatterCas m) :
    refersTo g nd = l ++ nd.deps := by
  by_cases hc : nd.kind = .loopCond
  · unfold extraVisits at h
    unfold refersTo
    rw [hc] at h ⊢
    dsimp only at h ⊢
    cases hl : loopOf g nd with
    | none => rw [hl] at h; simp at h
    | some o =>
      cases o with
      | none => rw [hl] at h; simp at h
      | some es =>
        rw [hl] at h
        simp only [Except.ok.injEq] at h
        rw [← h, loopVisits_eq]
  · unfold extraVisits at h
    unfold refersTo
    cases hk : nd.kind <;> rw [hk] at h h1 h2 hc <;> dsimp only at h ⊢ <;>
      first
      | exact absurd rfl h1
      | exact absurd rfl (h2 _)
      | exact absurd rfl hc
      | (simp only [Except.ok.injEq] at h; subst h; rfl)

/-- The flags that a kind of variable sets are set. -/
def UsesLe (u v : Uses) : Prop :=
  (u.self = true → v.self = true) ∧ (u.index = true → v.index = true) ∧
    (u.thread = true → v.thread = true) ∧ (u.nested = true → v.nested = true)

theorem UsesLe.refl (u : Uses) : UsesLe u u := ⟨id, id, id, id⟩

theorem UsesLe.trans {u v w : Uses} (h1 : UsesLe u v) (h2 : UsesLe v w) : UsesLe u w :=
  ⟨fun h => h2.1 (h1.1 h), fun h => h2.2.1 (h1.2.1 h), fun h => h2.2.2.1 (h1.2.2.1 h),
    fun h => h2.2.2.2 (h1.2.2.2 h)⟩

theorem noteUses_le (u : Uses) (k : Kind) : UsesLe u (noteUses u k) := by
  unfold noteUses UsesLe
  cases k <;> simp_all

theorem noteUses_mono (u : Uses) (k : Kind) : UsesLe (noteUses {} k) (noteUses u k) := by
  unfold noteUses UsesLe
  cases k <;> simp_all

/-- Variable `j` has been processed. -/
structure Done (g : Graph) (s : St) (j : Nat) (nd : Node) : Prop where
  sub : ∀ k ∈ refersTo g nd, Vis s k
  slot : captured nd = true → j ∈ s.slots
  size : captured nd = true → nd.size = 1
  uses : UsesLe (noteUses {} nd.kind) s.uses

/-- What a (sequence of) steps of the analysis does. `R` are the variables that may
be visited. -/
structure Step (g : Graph) (R : Nat → Prop) (s s' : St) : Prop where
  mono : ∀ j, Vis s j → Vis s' j
  new : ∀ j, Vis s' j → Vis s j ∨ R j ∧ ∃ nd, g j = some nd ∧ Done g s' j nd
  slots : ∃ N, s'.slots = s.slots ++ N ∧ N.Nodup ∧
    ∀ j ∈ N, ¬ Vis s j ∧ Vis s' j ∧ ∃ nd, g j = some nd ∧ captured nd = true
  uses : UsesLe s.uses s'.uses

theorem Step.refl {R : Nat → Prop} {s : St} : Step g R s s :=
  ⟨fun _ h => h, fun _ h => Or.inl h, ⟨[], by simp, by simp, by simp⟩, UsesLe.refl _⟩

theorem Step.trans {R : Nat → Prop} {s1 s2 s3 : St} (h1 : Step g R s1 s2)
    (h2 : Step g R s2 s3) : Step g R s1 s3 := by
  obtain ⟨N1, e1, n1, p1⟩ := h1.slots
  obtain ⟨N2, e2, n2, p2⟩ := h2.slots
  refine ⟨fun j hj => h2.mono j (h1.mono j hj), ?_, ?_, h1.uses.trans h2.uses⟩
  · intro j hj
    rcases h2.new j hj with h | h
    · rcases h1.new j h with h | ⟨hr, nd, hg, hd⟩
      · exact Or.inl h
      · refine Or.inr ⟨hr, nd, hg, fun k hk => h2.mono k (hd.sub k hk), ?_, hd.size,
          hd.uses.trans h2.uses⟩
        intro hc
        rw [e2]
        exact List.mem_append_left _ (hd.slot hc)
    · exact Or.inr h
  · refine ⟨N1 ++ N2, by rw [e2, e1, List.append_assoc], ?_, ?_⟩
    · refine List.nodup_append.2 ⟨n1, n2, ?_⟩
      intro a ha b hb hab
      subst hab
      exact (p2 a hb).1 (p1 a ha).2.1
    · intro j hj
      rcases List.mem_append.1 hj with hj | hj
      · obtain ⟨a, b, c⟩ := p1 j hj
        exact ⟨a, h2.mono j b, c⟩
      · obtain ⟨a, b, c⟩ := p2 j hj
        exact ⟨fun h => a (h1.mono j h), b, c⟩

theorem visitAll_spec {R : Nat → Prop} {rec : Nat → St → Except Err St}
    (hrec : ∀ i s s', R i → rec i s = .ok s' → Step g R s s' ∧ Vis s' i) {l : List Nat}
    (hl : ∀ i ∈ l, R i) {s s' : St} (h : visitAll rec l s = .ok s') :
    Step g R s s' ∧ ∀ i ∈ l, Vis s' i := by
  induction l generalizing s with
  | nil =>
    simp only [visitAll, Except.ok.injEq] at h
    subst h
    exact ⟨Step.refl, by simp⟩
  | cons i is ih =>
    unfold visitAll at h
    cases h1 : rec i s with
    | error e => rw [h1] at h; simp at h
    | ok s1 =>
      rw [h1] at h
      dsimp only at h
      obtain ⟨hs1, hv1⟩ := hrec i s s1 (hl i (by simp)) h1
      obtain ⟨hs2, hv2⟩ := ih (fun j hj => hl j (by simp [hj])) h
      refine ⟨hs1.trans hs2, ?_⟩
      intro j hj
      rcases List.mem_cons.1 hj with rfl | hj
      · exact hs2.mono _ hv1
      · exact hv2 j hj

theorem ana_spec (hcas : NoCas g) {R : Nat → Prop}
    (hR : ∀ i nd j, R i → g i = some nd → j ∈ refersTo g nd → R j) (f : Nat) :
    ∀ i s s', R i → ana g f i s = .ok s' → Step g R s s' ∧ Vis s' i := by
  induction f with
  | zero => intro i s s' _ h; simp [ana] at h
  | succ f ih =>
    intro i s s' hRi h
    unfold ana at h
    cases hg : g i with
    | none => rw [hg] at h; simp at h
    | some nd =>
      rw [hg] at h
      dsimp only at h
      by_cases hs : Eval.Gen.analyzeSkips s.gen i = true
      · rw [if_pos hs] at h
        simp only [Except.ok.injEq] at h
        subst h
        exact ⟨Step.refl, hs⟩
      · rw [if_neg hs] at h
        have hcasi := fun m => hcas i nd m hg
        have hent : ∀ {l : List Nat} {s' : St}, refersTo g nd = l →
            (captured nd = true → nd.size = 1) →
            Step g R (enter i nd s) s' → (∀ k ∈ l, Vis s' k) → Step g R s s' ∧ Vis s' i := by
          intro l s' hl hsz hst hv
          have hvi : Vis s' i := hst.mono i ((vis_enter i).2 (Or.inl rfl))
          refine ⟨⟨fun j hj => hst.mono j ((vis_enter j).2 (Or.inr hj)), ?_, ?_, ?_⟩, hvi⟩
          · intro j hj
            rcases hst.new j hj with h | h
            · rcases (vis_enter j).1 h with rfl | h
              · refine Or.inr ⟨hRi, nd, hg, fun k hk => hv k (hl ▸ hk), ?_, hsz, ?_⟩
                · intro hc
                  obtain ⟨N, e, _, _⟩ := hst.slots
                  rw [e]
                  apply List.mem_append_left
                  unfold enter
                  rw [hc]
                  simp
                · exact (noteUses_mono _ _).trans hst.uses
              · exact Or.inl h
            · exact Or.inr h
          · obtain ⟨N, e, hn, hp⟩ := hst.slots
            by_cases hc : captured nd = true
            · refine ⟨i :: N, ?_, ?_, ?_⟩
              · rw [e]
                simp [enter, hc]
              · refine List.nodup_cons.2 ⟨fun hi => (hp i hi).1 ((vis_enter i).2 (Or.inl rfl)), hn⟩
              · intro j hj
                rcases List.mem_cons.1 hj with rfl | hj
                · exact ⟨hs, hvi, nd, hg, hc⟩
                · obtain ⟨a, b, c⟩ := hp j hj
                  exact ⟨fun h => a ((vis_enter j).2 (Or.inr h)), b, c⟩
            · refine ⟨N, ?_, hn, ?_⟩
              · rw [e]
                simp [enter, hc]
              · intro j hj
                obtain ⟨a, b, c⟩ := hp j hj
                exact ⟨fun h => a ((vis_enter j).2 (Or.inr h)), b, c⟩
          · exact (noteUses_le _ _).trans hst.uses
        by_cases hci : nd.kind = .callInput
        · rw [if_pos hci] at h
          simp only [Except.ok.injEq] at h
          subst h
          refine hent (l := []) ?_ ?_ Step.refl (by simp)
          · unfold refersTo; rw [hci]
          · intro hc
            unfold captured at hc
            rw [hci] at hc
            simp [Kind.other] at hc
        · rw [if_neg hci] at h
          by_cases hsz : captured nd = true ∧ nd.size ≠ 1
          · rw [if_pos hsz] at h; simp at h
          · rw [if_neg hsz] at h
            cases hx : extraVisits g nd with
            | error e => rw [hx] at h; simp at h
            | ok l =>
              rw [hx] at h
              dsimp only at h
              have hl := refersTo_eq hx hci hcasi
              obtain ⟨h1, h2⟩ := visitAll_spec (ih) (l := l ++ nd.deps)
                (fun k hk => hR i nd k hRi hg (hl ▸ hk)) h
              refine hent hl ?_ h1 h2
              intro hc
              by_contra hne
              exact hsz ⟨hc, hne⟩

/-- Result of the analysis of one instance. -/
structure Analyzed (g : Graph) (roots : List Nat) (slots : List Nat) (u0 u : Uses) : Prop where
  /-- no variable is captured twice -/
  once : slots.Nodup
  /-- nothing is captured that the function does not contain -/
  sound : ∀ j ∈ slots, Within g roots j ∧ ∃ nd, g j = some nd ∧ captured nd = true ∧ nd.size = 1
  /-- everything is captured, and its uses are noted -/
  complete : ∀ j, Within g roots j → ∃ nd, g j = some nd ∧
    (captured nd = true → j ∈ slots ∧ nd.size = 1) ∧ UsesLe (noteUses {} nd.kind) u
  uses : UsesLe u0 u

theorem anaInst_spec (hcas : NoCas g) {fuel : Nat} {outs ses : List Nat} {gen : Eval.Gen.St}
    (hgen : ∃ m st, Eval.Gen.Inv gen m st ∧ ∀ i, m i ≠ .stashed) {u : Uses} {s : St}
    (h : anaInst g fuel outs ses gen u = .ok s) :
    Analyzed g (outs ++ ses) s.slots u s.uses := by
  have hno : ∀ i, ¬ Vis ⟨Eval.Gen.newGen gen, [], u⟩ i := by
    obtain ⟨m, st, hI, hst⟩ := hgen
    have hnew := Eval.Gen.step_inv hI .newGen trivial
    have hm : ∀ i, Eval.Gen.see i m .newGen = .no := by
      intro i
      simp [Eval.Gen.see, hst i]
    intro i hv
    unfold Vis at hv
    rw [Eval.Gen.analyzeSkips_eq (m := fun i => Eval.Gen.see i m .newGen) (s := Eval.Gen.newGen gen)
      hnew (by rw [hm]; simp) (by rw [hm]; simp)] at hv
    rw [decide_eq_true_iff, hm] at hv
    simp at hv
  unfold anaInst at h
  obtain ⟨hs, hv⟩ := visitAll_spec
    (ana_spec hcas (R := Within g (outs ++ ses)) (fun i nd j hi hg hj => .step hi hg hj) fuel)
    (fun i hi => Within.root hi) h
  have hvis : ∀ j, Within g (outs ++ ses) j → Vis s j := by
    intro j hj
    induction hj with
    | root hi => exact hv _ hi
    | step _ hg hk ih =>
      rcases hs.new _ ih with h | ⟨_, nd, hg', hd⟩
      · exact absurd h (hno _)
      · rw [hg] at hg'
        exact hd.sub _ (Option.some.inj hg' ▸ hk)
  obtain ⟨N, e, hn, hp⟩ := hs.slots
  have e' : s.slots = N := by rw [e]; simp
  refine ⟨e' ▸ hn, ?_, ?_, hs.uses⟩
  · intro j hj
    obtain ⟨_, hvj, nd, hg, hc⟩ := hp j (e' ▸ hj)
    rcases hs.new j hvj with h | ⟨hr, nd', hg', hd⟩
    · exact absurd h (hno _)
    · rw [hg] at hg'
      have := Option.some.inj hg'
      subst this
      exact ⟨hr, nd, hg, hc, hd.size hc⟩
  · intro j hj
    rcases hs.new j (hvis j hj) with h | ⟨_, nd, hg, hd⟩
    · exact absurd h (hno _)
    · exact ⟨nd, hg, fun hc => ⟨hd.slot hc, hd.size hc⟩, hd.uses⟩

end Verif.Capture
