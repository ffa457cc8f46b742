import Verif.Eval.Traverse

/-!
# Graph traversal of `jit_eval()`: invariant
-/

namespace Verif.Eval

open Gen (Visit Seen see)

variable {g : Nat → Option Node} {refs : Nat → Nat} {size : Nat}

/-- Stamp variable `i` at depth `d`. -/
def TS.mark (s : TS) (i d : Nat) : TS := { s with gen := Gen.traverse s.gen i d }

/-- The visits made by the code are those that the specification asks for. -/
theorem edges_eq {nd : Node} (h1 : nd.kind ≠ .callInput) (h2 : nd.kind ≠ .loopPhi none)
    (h3 : nd.kind ≠ .loopOutput none) (d : Nat) :
    edges nd d = kindActs nd.kind d ++ depActs nd d := by
  have ho : operands nd d = depActs nd d := rfl
  unfold edges
  split <;> rename_i hk <;> rw [hk] at h1 h2 h3 ⊢ <;> simp_all [kindActs]

/-- A successful step of the traversal: skip, elide, or expand all edges and
schedule at depth 0. -/
theorem trav_cases {f i d : Nat} {s s' : TS} (h : trav g refs size (f + 1) i d s = .ok s') :
    ∃ nd, g i = some nd ∧
      ((Gen.skips s.gen i d = true ∧ s' = s) ∨
       (Gen.skips s.gen i d = false ∧
        ((∃ t, nd.kind = .scatter t ∧ elides refs s.sched t = true ∧ s' = s.mark i d) ∨
         ∃ s2, doActs (trav g refs size f) (s.mark i d) (edges nd d) = .ok s2 ∧
           s' = (if d = 0 then push size nd i s2 else s2) ∧
           (nd.kind ≠ .callInput → nd.consumed = false)))) := by
  unfold trav at h
  cases hg : g i with
  | none => rw [hg] at h; simp at h
  | some nd =>
    rw [hg] at h
    refine ⟨nd, rfl, ?_⟩
    dsimp only at h
    by_cases hs : Gen.skips s.gen i d = true
    · rw [if_pos hs] at h
      left
      exact ⟨hs, by simpa using h.symm⟩
    · rw [if_neg hs] at h
      right
      refine ⟨by simpa using hs, ?_⟩
      have hexp : expand (trav g refs size f) size nd i d (s.mark i d) = .ok s' →
          edges nd d = kindActs nd.kind d ++ depActs nd d →
          ∃ s2, doActs (trav g refs size f) (s.mark i d) (edges nd d) = .ok s2 ∧
            s' = (if d = 0 then push size nd i s2 else s2) ∧
            (nd.kind ≠ .callInput → nd.consumed = false) := by
        intro he hed
        unfold expand at he
        rw [← hed] at he
        cases hda : doActs (trav g refs size f) (s.mark i d) (edges nd d) with
        | error e => rw [hda] at he; simp at he
        | ok s2 =>
          rw [hda] at he
          refine ⟨s2, rfl, ?_⟩
          dsimp only [finish] at he
          split_ifs at he with h1 h2
          · rw [if_pos h2]; exact ⟨by simpa using he.symm, fun _ => by simpa using h1⟩
          · rw [if_neg h2]; exact ⟨by simpa using he.symm, fun _ => by simpa using h1⟩
      cases hk : nd.kind with
      | scatter t =>
        rw [hk] at h
        dsimp only at h
        split_ifs at h with he
        · left
          exact ⟨t, rfl, he, by simpa [TS.mark] using h.symm⟩
        · right
          exact hk ▸ hexp h (edges_eq (by simp [hk]) (by simp [hk]) (by simp [hk]) d)
      | callInput =>
        rw [hk] at h
        dsimp only at h
        right
        split_ifs at h with hd
        · refine ⟨s.mark i d, ?_, ?_, fun hc => absurd rfl hc⟩
          · simp only [edges, hk, if_pos hd, doActs]
          · rw [if_pos hd]; simpa [TS.mark] using h.symm
        · refine ⟨s', ?_, by rw [if_neg hd], fun hc => absurd rfl hc⟩
          simp only [edges, hk, if_neg hd, doActs, doAct]
          have h' : trav g refs size f (nd.dep.headD 0) (d - 1) (s.mark i d) = .ok s' := h
          rw [h']
      | loopPhi o =>
        rw [hk] at h
        cases o with
        | none => simp at h
        | some p => right; exact hk ▸ hexp h (edges_eq (by simp [hk]) (by simp [hk]) (by simp [hk]) d)
      | loopOutput o =>
        rw [hk] at h
        cases o with
        | none => simp at h
        | some p => right; exact hk ▸ hexp h (edges_eq (by simp [hk]) (by simp [hk]) (by simp [hk]) d)
      | plain => rw [hk] at h; right; exact hk ▸ hexp h (edges_eq (by simp [hk]) (by simp [hk]) (by simp [hk]) d)
      | arrayWrite b => rw [hk] at h; right; exact hk ▸ hexp h (edges_eq (by simp [hk]) (by simp [hk]) (by simp [hk]) d)
      | call a b c e => rw [hk] at h; right; exact hk ▸ hexp h (edges_eq (by simp [hk]) (by simp [hk]) (by simp [hk]) d)
      | callOutput a => rw [hk] at h; right; exact hk ▸ hexp h (edges_eq (by simp [hk]) (by simp [hk]) (by simp [hk]) d)
      | coopVecPack a => rw [hk] at h; right; exact hk ▸ hexp h (edges_eq (by simp [hk]) (by simp [hk]) (by simp [hk]) d)
      | extra a => rw [hk] at h; right; exact hk ▸ hexp h (edges_eq (by simp [hk]) (by simp [hk]) (by simp [hk]) d)

/-! ## Invariant -/

/-- Progress of a visit status. -/
def VLe (a b : Visit) : Prop := a = .no ∨ a = b ∨ b = .outer

theorem VLe.refl (a : Visit) : VLe a a := Or.inr (Or.inl rfl)

theorem VLe.trans {a b c : Visit} (h1 : VLe a b) (h2 : VLe b c) : VLe a c := by
  unfold VLe at *
  rcases h1 with h | h | h
  · exact Or.inl h
  · subst h; exact h2
  · subst h
    rcases h2 with h | h | h
    · simp at h
    · exact Or.inr (Or.inr h.symm)
    · exact Or.inr (Or.inr h)

theorem VLe.outer {a b : Visit} (h : VLe a b) (ha : a = .outer) : b = .outer := by
  unfold VLe at h
  subst ha
  rcases h with h | h | h
  · simp at h
  · exact h.symm
  · exact h

theorem Seen.mono {a b : Visit} {d : Nat} (h : VLe a b) (hs : Seen a d) : Seen b d := by
  rcases hs with h1 | ⟨h1, h2⟩
  · exact Or.inl (h.outer h1)
  · subst h1
    rcases h with h | h | h
    · simp at h
    · exact Or.inr ⟨h.symm, h2⟩
    · exact Or.inl h

/-- Everything that `a` asks for has been visited or is queued. -/
def Handled (m : Nat → Visit) (later : List (Nat × Nat)) : Act → Prop
  | .visit k e => Seen (m k) e
  | .later k e => (k, e) ∈ later

theorem Handled.mono {m m' : Nat → Visit} {l l' : List (Nat × Nat)} {a : Act}
    (hm : ∀ i, VLe (m i) (m' i)) (hl : ∀ x ∈ l, x ∈ l') (h : Handled m l a) :
    Handled m' l' a := by
  cases a with
  | visit k e => exact Seen.mono (hm k) h
  | later k e => exact hl _ h

/-- Visited at depth 0 but neither scheduled nor a dead scatter. -/
def Open (g : Nat → Option Node) (refs : Nat → Nat) (S : List SV) (m : Nat → Visit)
    (j : Nat) : Prop :=
  m j = .outer ∧ j ∉ S.map SV.index ∧ ¬ Dead g refs j

/-- Visited at a larger depth only, with all of its edges handled. -/
def ClosedIn (g : Nat → Option Node) (refs : Nat → Nat) (R : Nat → Nat → Prop)
    (m : Nat → Visit) (later : List (Nat × Nat)) (j : Nat) : Prop :=
  Dead g refs j ∨ ∃ e nd, 0 < e ∧ R j e ∧ g j = some nd ∧ ∀ a ∈ edges nd e, Handled m later a

def OpenIn (g : Nat → Option Node) (refs : Nat → Nat) (R : Nat → Nat → Prop)
    (m : Nat → Visit) (later : List (Nat × Nat)) (j : Nat) : Prop :=
  m j = .inner ∧ ¬ ClosedIn g refs R m later j

/-- State of a traversal that started with the schedule `base` and has added `S`. -/
structure TInv (g : Nat → Option Node) (refs : Nat → Nat) (size : Nat)
    (R : Nat → Nat → Prop) (base S : List SV) (s : TS) (m : Nat → Visit) : Prop where
  gen : Gen.Inv s.gen m true
  nostash : ∀ i, m i ≠ .stashed
  sched : s.sched = base ++ S
  sound : ∀ x ∈ S, m x.index = .outer ∧ x.size = size ∧ R x.index 0 ∧
    ∃ nd, g x.index = some nd ∧ x.scope = nd.scope ∧
      (nd.kind ≠ .callInput → nd.consumed = false)
  nodup : (S.map SV.index).Nodup
  order : ∀ pre x post, S = pre ++ x :: post → ∀ nd, g x.index = some nd →
    ∀ j, Act.visit j 0 ∈ edges nd 0 → j ∈ pre.map SV.index ∨ Dead g refs j
  closed : ∀ x ∈ S, ∀ nd, g x.index = some nd → ∀ a ∈ edges nd 0, Handled m s.later a
  later : ∀ x ∈ s.later, R x.1 x.2

/-- What a (sequence of) traversal steps may change. -/
structure Ext (g : Nat → Option Node) (refs : Nat → Nat) (R : Nat → Nat → Prop)
    (S : List SV) (s : TS) (m : Nat → Visit) (S' : List SV) (s' : TS) (m' : Nat → Visit) :
    Prop where
  mono : ∀ i, VLe (m i) (m' i)
  later : s.later <+: s'.later
  new : ∃ N, S' = S ++ N ∧ ∀ x ∈ N, m x.index ≠ .outer
  opened : ∀ j, Open g refs S' m' j → Open g refs S m j
  openedIn : ∀ j, OpenIn g refs R m' s'.later j → OpenIn g refs R m s.later j

theorem Ext.refl {R : Nat → Nat → Prop} {S : List SV} {s : TS} {m : Nat → Visit} :
    Ext g refs R S s m S s m :=
  ⟨fun i => VLe.refl _, List.prefix_refl _, ⟨[], by simp, by simp⟩, fun _ h => h, fun _ h => h⟩

theorem Ext.trans {R : Nat → Nat → Prop} {S1 S2 S3 : List SV} {s1 s2 s3 : TS}
    {m1 m2 m3 : Nat → Visit} (h1 : Ext g refs R S1 s1 m1 S2 s2 m2)
    (h2 : Ext g refs R S2 s2 m2 S3 s3 m3) : Ext g refs R S1 s1 m1 S3 s3 m3 := by
  refine ⟨fun i => (h1.mono i).trans (h2.mono i), h1.later.trans h2.later, ?_,
    fun j hj => h1.opened j (h2.opened j hj), fun j hj => h1.openedIn j (h2.openedIn j hj)⟩
  obtain ⟨N1, e1, n1⟩ := h1.new
  obtain ⟨N2, e2, n2⟩ := h2.new
  refine ⟨N1 ++ N2, by rw [e2, e1, List.append_assoc], ?_⟩
  intro x hx
  rcases List.mem_append.1 hx with hx | hx
  · exact n1 x hx
  · intro hc
    exact n2 x hx ((h1.mono _).outer hc)

/-- All variables in progress were created after `i`. -/
def Low (g : Nat → Option Node) (refs : Nat → Nat) (R : Nat → Nat → Prop)
    (rank : Nat → Nat) (S : List SV) (s : TS) (m : Nat → Visit) (i : Nat) : Prop :=
  ∀ j, Open g refs S m j ∨ OpenIn g refs R m s.later j → rank i < rank j

/-- The stamp of a step. -/
theorem mark_inv {s : TS} {m : Nat → Visit} (h : Gen.Inv s.gen m true)
    (hn : ∀ i, m i ≠ .stashed) (i d : Nat) :
    Gen.Inv (s.mark i d).gen (fun j => see j m (.traverse i d)) true :=
  Gen.step_inv h (.traverse i d) ⟨rfl, hn i⟩

theorem see_self_zero (m : Nat → Visit) (i : Nat) : see i m (.traverse i 0) = .outer := by
  simp [see]

theorem see_self_pos (m : Nat → Visit) {i d : Nat} (hd : d ≠ 0) (h : m i ≠ .outer) :
    see i m (.traverse i d) = .inner := by
  simp [see, hd, h]

theorem see_other (m : Nat → Visit) {i j d : Nat} (h : i ≠ j) :
    see j m (.traverse i d) = m j := by
  simp [see, h]

theorem see_mono (m : Nat → Visit) (i d j : Nat) (hns : m j ≠ .stashed) (hs : ¬ Seen (m i) d) :
    VLe (m j) (see j m (.traverse i d)) := by
  by_cases h : i = j
  · subst h
    by_cases hd : d = 0
    · subst hd
      rw [see_self_zero]
      exact Or.inr (Or.inr rfl)
    · have hno : m i ≠ .outer := fun hc => hs (Or.inl hc)
      rw [see_self_pos m hd hno]
      cases hm : m i with
      | no => exact Or.inl rfl
      | inner => exact Or.inr (Or.inl rfl)
      | outer => exact absurd hm hno
      | stashed => exact absurd hm hns
  · rw [see_other m h]
    exact VLe.refl _

/-- The result of a step (or of a list of actions) for a given start. -/
def StepPost (g : Nat → Option Node) (refs : Nat → Nat) (size : Nat) (R : Nat → Nat → Prop)
    (base S : List SV) (s : TS) (m : Nat → Visit) (s' : TS) (Q : (Nat → Visit) → List (Nat × Nat) → Prop) :
    Prop :=
  ∃ S' m', TInv g refs size R base S' s' m' ∧ Ext g refs R S s m S' s' m' ∧ Q m' s'.later

theorem doActs_spec {R : Nat → Nat → Prop} {rank : Nat → Nat} {base : List SV}
    {rec : Nat → Nat → TS → Except Err TS} {i : Nat}
    (hrec : ∀ k e S s m s', R k e → TInv g refs size R base S s m →
      Low g refs R rank S s m k → rec k e s = .ok s' →
      StepPost g refs size R base S s m s' (fun m' _ => Seen (m' k) e))
    {as : List Act} (hR : ∀ a ∈ as, R a.index a.depth)
    (hrank : ∀ k e, Act.visit k e ∈ as → rank k < rank i)
    {S : List SV} {s : TS} {m : Nat → Visit} {s' : TS}
    (hI : TInv g refs size R base S s m)
    (hlow : ∀ j, Open g refs S m j ∨ OpenIn g refs R m s.later j → rank i ≤ rank j)
    (h : doActs rec s as = .ok s') :
    StepPost g refs size R base S s m s' (fun m' l => ∀ a ∈ as, Handled m' l a) := by
  induction as generalizing S s m with
  | nil =>
    simp only [doActs, Except.ok.injEq] at h
    subst h
    exact ⟨S, m, hI, Ext.refl, by simp⟩
  | cons a as ih =>
    unfold doActs at h
    cases ha : doAct rec s a with
    | error e => rw [ha] at h; simp at h
    | ok s1 =>
      rw [ha] at h
      dsimp only at h
      have hstep : StepPost g refs size R base S s m s1 (fun m' l => Handled m' l a) := by
        cases a with
        | visit k e =>
          have hk := hrank k e (by simp)
          exact hrec k e S s m s1 (hR (.visit k e) (by simp)) hI
            (fun j hj => lt_of_lt_of_le hk (hlow j hj)) ha
        | later k e =>
          simp only [doAct, Except.ok.injEq] at ha
          subst ha
          have hl : ∀ x ∈ s.later, x ∈ s.later ++ [(k, e)] := fun x hx =>
            List.mem_append_left _ hx
          refine ⟨S, m, ?_, ?_, ?_⟩
          · refine ⟨hI.gen, hI.nostash, hI.sched, hI.sound, hI.nodup, hI.order, ?_, ?_⟩
            · intro x hx nd hnd a ha
              exact Handled.mono (fun i => VLe.refl _) hl (hI.closed x hx nd hnd a ha)
            · intro x hx
              rcases List.mem_append.1 hx with hx | hx
              · exact hI.later x hx
              · rw [List.mem_singleton.1 hx]
                exact hR (.later k e) (by simp)
          · refine ⟨fun i => VLe.refl _, List.prefix_append _ _, ⟨[], by simp, by simp⟩, fun _ h => h, ?_⟩
            intro j hj
            refine ⟨hj.1, fun hc => hj.2 ?_⟩
            rcases hc with hc | ⟨e', nd, h1, h2, h3, h4⟩
            · exact Or.inl hc
            · exact Or.inr ⟨e', nd, h1, h2, h3, fun a ha =>
                Handled.mono (fun i => VLe.refl _) hl (h4 a ha)⟩
          · exact List.mem_append_right _ (by simp)
      obtain ⟨S1, m1, hI1, hE1, hQ1⟩ := hstep
      obtain ⟨S2, m2, hI2, hE2, hQ2⟩ := ih (fun a ha => hR a (by simp [ha]))
        (fun k e hk => hrank k e (by simp [hk])) hI1
        (fun j hj => hlow j (hj.imp (hE1.opened j) (hE1.openedIn j))) h
      refine ⟨S2, m2, hI2, hE1.trans hE2, ?_⟩
      intro b hb
      rcases List.mem_cons.1 hb with rfl | hb
      · exact Handled.mono hE2.mono hE2.later.subset hQ1
      · exact hQ2 b hb

/-- The specification of `jitc_var_traverse`. -/
theorem trav_spec {R : Nat → Nat → Prop} {rank : Nat → Nat} {base : List SV}
    (hac : Acyclic g rank)
    (hRe : ∀ i d nd a, R i d → g i = some nd → a ∈ edges nd d → R a.index a.depth)
    (f : Nat) : ∀ i d S s m s', R i d → TInv g refs size R base S s m →
      Low g refs R rank S s m i → trav g refs size f i d s = .ok s' →
      StepPost g refs size R base S s m s' (fun m' _ => Seen (m' i) d) := by
  induction f with
  | zero => intro i d S s m s' _ _ _ h; simp [trav] at h
  | succ f ih =>
    intro i d S s m s' hR hI hlow h
    obtain ⟨nd, hg, hcase⟩ := trav_cases h
    have hsk := Gen.skips_eq hI.gen (i := i) (d := d) (hI.nostash i)
    rcases hcase with ⟨h1, rfl⟩ | ⟨h1, hcase⟩
    · rw [hsk] at h1
      exact ⟨S, m, hI, Ext.refl, of_decide_eq_true h1⟩
    rw [hsk] at h1
    have hns : ¬ Seen (m i) d := of_decide_eq_false h1
    have hno : m i ≠ .outer := fun hc => hns (Or.inl hc)
    -- the state right after stamping
    generalize hm1 : (fun j => see j m (.traverse i d)) = m1
    have hm1i : ∀ j, m1 j = see j m (.traverse i d) := fun j => by rw [← hm1]
    have hmono1 : ∀ j, VLe (m j) (m1 j) := fun j => by
      rw [hm1i]; exact see_mono m i d j (hI.nostash j) hns
    have hother : ∀ j, i ≠ j → m1 j = m j := fun j hj => by rw [hm1i, see_other m hj]
    have hiS : i ∉ S.map SV.index := by
      intro hc
      obtain ⟨x, hx, he⟩ := List.mem_map.1 hc
      exact hno (he ▸ (hI.sound x hx).1)
    have hns1 : ∀ j, m1 j ≠ .stashed := by
      intro j
      by_cases hij : i = j
      · subst hij
        by_cases hd : d = 0
        · rw [hm1i, hd, see_self_zero]; simp
        · rw [hm1i, see_self_pos m hd hno]; simp
      · rw [hother j hij]; exact hI.nostash j
    have hI1 : TInv g refs size R base S (s.mark i d) m1 := by
      refine ⟨by rw [← hm1]; exact mark_inv hI.gen hI.nostash i d, hns1, hI.sched, ?_,
        hI.nodup, hI.order, ?_, hI.later⟩
      · intro x hx
        obtain ⟨a, b, c⟩ := hI.sound x hx
        exact ⟨(hmono1 _).outer a, b, c⟩
      · intro x hx nd hnd a ha
        exact Handled.mono hmono1 (fun _ h => h) (hI.closed x hx nd hnd a ha)
    -- nodes in progress after stamping: those before, or `i` itself
    have hopen1 : ∀ j, Open g refs S m1 j → Open g refs S m j ∨ j = i := by
      intro j hj
      by_cases hij : i = j
      · exact Or.inr hij.symm
      · left
        refine ⟨?_, hj.2⟩
        rw [← hother j hij]; exact hj.1
    have hopenIn1 : ∀ j, OpenIn g refs R m1 s.later j → OpenIn g refs R m s.later j ∨ j = i := by
      intro j hj
      by_cases hij : i = j
      · exact Or.inr hij.symm
      · left
        refine ⟨by rw [← hother j hij]; exact hj.1, fun hc => hj.2 ?_⟩
        rcases hc with hc | ⟨e', nd', a1, a2, a3, a4⟩
        · exact Or.inl hc
        · exact Or.inr ⟨e', nd', a1, a2, a3, fun a ha =>
            Handled.mono hmono1 (fun _ h => h) (a4 a ha)⟩
    have hseen1 : Seen (m1 i) d := by
      by_cases hd : d = 0
      · rw [hm1i, hd, see_self_zero]; exact Or.inl rfl
      · rw [hm1i, see_self_pos m hd hno]; exact Or.inr ⟨rfl, hd⟩
    rcases hcase with ⟨t, hkind, hel, rfl⟩ | ⟨s2, hacts, hs', hcons⟩
    · -- an elided scatter
      have hdead : Dead g refs i := by
        refine ⟨nd, t, hg, hkind, ?_⟩
        have := of_decide_eq_true hel
        omega
      refine ⟨S, m1, hI1, ⟨hmono1, List.prefix_refl _, ⟨[], by simp, by simp⟩, ?_, ?_⟩, hseen1⟩
      · intro j hj
        rcases hopen1 j hj with h' | rfl
        · exact h'
        · exact absurd hdead hj.2.2
      · intro j hj
        rcases hopenIn1 j hj with h' | rfl
        · exact h'
        · exact absurd (Or.inl hdead) hj.2
    · -- expand all edges
      have hlow1 : ∀ j, Open g refs S m1 j ∨ OpenIn g refs R m1 (s.mark i d).later j →
          rank i ≤ rank j := by
        intro j hj
        rcases hj with hj | hj
        · rcases hopen1 j hj with h' | rfl
          · exact le_of_lt (hlow j (Or.inl h'))
          · exact le_refl _
        · rcases hopenIn1 j hj with h' | rfl
          · exact le_of_lt (hlow j (Or.inr h'))
          · exact le_refl _
      obtain ⟨S2, m2, hI2, hE2, hQ2⟩ := doActs_spec (i := i) (rank := rank) ih
        (fun a ha => hRe i d nd a hR hg ha)
        (fun k e hk => hac i nd d k e hg hk) hI1 hlow1 hacts
      have hseen2 : Seen (m2 i) d := Seen.mono (hE2.mono i) hseen1
      obtain ⟨N2, hN2, hN2m⟩ := hE2.new
      by_cases hd : d = 0
      · subst hd
        rw [if_pos rfl] at hs'
        subst hs'
        have hi1 : m1 i = .outer := by rw [hm1i, see_self_zero]
        have hi2 : m2 i = .outer := (hE2.mono i).outer hi1
        have hiS2 : i ∉ S2.map SV.index := by
          intro hc
          obtain ⟨x, hx, he⟩ := List.mem_map.1 hc
          rw [hN2] at hx
          rcases List.mem_append.1 hx with hx | hx
          · exact hiS (List.mem_map.2 ⟨x, hx, he⟩)
          · exact hN2m x hx (he ▸ hi1)
        refine ⟨S2 ++ [⟨size, nd.scope, i⟩], m2, ?_, ?_, hseen2⟩
        · refine ⟨hI2.gen, hI2.nostash, ?_, ?_, ?_, ?_, ?_, hI2.later⟩
          · simp only [push, hI2.sched, List.append_assoc]
          · intro x hx
            rcases List.mem_append.1 hx with hx | hx
            · exact hI2.sound x hx
            · rw [List.mem_singleton.1 hx]
              exact ⟨hi2, rfl, hR, nd, hg, rfl, hcons⟩
          · rw [List.map_append, List.nodup_append]
            refine ⟨hI2.nodup, by simp, ?_⟩
            intro a ha b hb
            simp only [List.map_cons, List.map_nil, List.mem_singleton] at hb
            rw [hb]
            intro he
            rw [he] at ha
            exact hiS2 ha
          · intro pre x post he nd' hnd' j hj
            rcases List.append_eq_append_iff.1 he with ⟨z, hz1, hz2⟩ | ⟨z, hz1, hz2⟩
            · -- pre = S2 ++ z
              have hz : z = [] ∧ x = ⟨size, nd.scope, i⟩ := by
                cases z with
                | nil => simp at hz2; exact ⟨rfl, hz2.1.symm⟩
                | cons w z => simp at hz2
              obtain ⟨hz, hx⟩ := hz
              subst hz
              rw [List.append_nil] at hz1
              subst hz1
              rw [hx] at hnd'
              have hndnd : nd' = nd := by
                have : g i = some nd' := hnd'
                rw [hg] at this
                exact (Option.some.inj this).symm
              subst hndnd
              have hjr := hac i nd' 0 j 0 hg hj
              have hjh := hQ2 _ hj
              have hjo : m2 j = .outer := by
                rcases hjh with h' | ⟨_, h'⟩
                · exact h'
                · exact absurd rfl h'
              by_contra hc
              push Not at hc
              have ho2 : Open g refs pre m2 j := ⟨hjo, hc.1, hc.2⟩
              have := hlow1 j (Or.inl (hE2.opened j ho2))
              omega
            · -- S2 = pre ++ z
              cases z with
              | nil =>
                simp only [List.append_nil, List.nil_append] at hz1 hz2
                subst hz1
                have hx : x = ⟨size, nd.scope, i⟩ := by
                  have := List.cons.inj hz2
                  exact this.1
                rw [hx] at hnd'
                have hndnd : nd' = nd := by
                  have : g i = some nd' := hnd'
                  rw [hg] at this
                  exact (Option.some.inj this).symm
                subst hndnd
                have hjr := hac i nd' 0 j 0 hg hj
                have hjh := hQ2 _ hj
                have hjo : m2 j = .outer := by
                  rcases hjh with h' | ⟨_, h'⟩
                  · exact h'
                  · exact absurd rfl h'
                by_contra hc
                push Not at hc
                have ho2 : Open g refs S2 m2 j := ⟨hjo, hc.1, hc.2⟩
                have := hlow1 j (Or.inl (hE2.opened j ho2))
                omega
              | cons w z =>
                simp only [List.cons_append, List.cons.injEq] at hz2
                obtain ⟨rfl, _⟩ := hz2
                exact hI2.order pre x z hz1 nd' hnd' j hj
          · intro x hx nd' hnd' a ha
            rcases List.mem_append.1 hx with hx | hx
            · exact hI2.closed x hx nd' hnd' a ha
            · rw [List.mem_singleton.1 hx] at hnd'
              have hndnd : nd' = nd := by
                have : g i = some nd' := hnd'
                rw [hg] at this
                exact (Option.some.inj this).symm
              subst hndnd
              exact hQ2 a ha
        · refine ⟨fun j => (hmono1 j).trans (hE2.mono j), hE2.later, ?_, ?_, ?_⟩
          · refine ⟨N2 ++ [⟨size, nd.scope, i⟩], by rw [hN2, List.append_assoc], ?_⟩
            intro x hx
            rcases List.mem_append.1 hx with hx | hx
            · exact fun hc => hN2m x hx ((hmono1 _).outer hc)
            · rw [List.mem_singleton.1 hx]; exact hno
          · intro j hj
            have hj2 : Open g refs S2 m2 j := by
              refine ⟨hj.1, fun hc => hj.2.1 ?_, hj.2.2⟩
              rw [List.map_append]
              exact List.mem_append_left _ hc
            rcases hopen1 j (hE2.opened j hj2) with h' | rfl
            · exact h'
            · exact absurd (by simp) hj.2.1
          · intro j hj
            rcases hopenIn1 j (hE2.openedIn j hj) with h' | rfl
            · exact h'
            · have : m2 j = .inner := hj.1
              rw [hi2] at this
              simp at this
      · rw [if_neg hd] at hs'
        subst hs'
        refine ⟨S2, m2, hI2, ?_, hseen2⟩
        refine ⟨fun j => (hmono1 j).trans (hE2.mono j), hE2.later, ?_, ?_, ?_⟩
        · exact ⟨N2, hN2, fun x hx hc => hN2m x hx ((hmono1 _).outer hc)⟩
        · intro j hj
          have h1j := hE2.opened j hj
          rcases hopen1 j h1j with h' | rfl
          · exact h'
          · have : m1 j = .inner := by rw [hm1i, see_self_pos m hd hno]
            rw [h1j.1] at this
            simp at this
        · intro j hj
          rcases hopenIn1 j (hE2.openedIn j hj) with h' | rfl
          · exact h'
          · exact absurd (Or.inr ⟨d, nd, Nat.pos_of_ne_zero hd, hR, hg, hQ2⟩) hj.2

/-! ## Termination -/

/-- Remaining visits of one variable. -/
def weight : Visit → Nat
  | .no => 2
  | .inner => 1
  | _ => 0

/-- Remaining visits of all variables below `N`. -/
def potential (m : Nat → Visit) : Nat → Nat
  | 0 => 0
  | n + 1 => potential m n + weight (m n)

theorem potential_le (m : Nat → Visit) (N : Nat) : potential m N ≤ 2 * N := by
  induction N with
  | zero => simp [potential]
  | succ n ih =>
    have : weight (m n) ≤ 2 := by cases m n <;> simp [weight]
    simp only [potential]
    omega

theorem potential_update {m m1 : Nat → Visit} {i N : Nat} (hi : i < N)
    (hother : ∀ j, i ≠ j → m1 j = m j) (hw : weight (m1 i) < weight (m i)) :
    potential m1 N < potential m N := by
  induction N with
  | zero => omega
  | succ n ih =>
    simp only [potential]
    by_cases hin : i = n
    · subst hin
      have hsame : ∀ k, k ≤ i → potential m1 k = potential m k := by
        intro k
        induction k with
        | zero => intro _; rfl
        | succ k ihk =>
          intro hk
          simp only [potential]
          rw [ihk (by omega), hother k (by omega)]
      rw [hsame i (le_refl _)]
      omega
    · have := ih (by omega)
      rw [hother n hin]
      omega

/-- Number of deferred visits among some actions. -/
def laters (as : List Act) : Nat := (as.filter fun a => match a with | .later _ _ => true | _ => false).length

theorem laters_append (a b : List Act) : laters (a ++ b) = laters a + laters b := by
  simp [laters]

theorem laters_visits (l : List Nat) (d : Nat) : laters (l.map (Act.visit · d)) = 0 := by
  unfold laters
  rw [List.length_eq_zero_iff, List.filter_eq_nil_iff]
  intro a ha
  obtain ⟨x, _, rfl⟩ := List.mem_map.1 ha
  simp

theorem laters_cons_visit (i d : Nat) (l : List Act) : laters (.visit i d :: l) = laters l := rfl

theorem laters_cons_later (i d : Nat) (l : List Act) :
    laters (.later i d :: l) = laters l + 1 := rfl

theorem laters_edges (nd : Node) (d : Nat) : laters (edges nd d) ≤ 1 := by
  have ho : laters (operands nd d) = 0 := laters_visits _ _
  unfold edges
  split
  all_goals
    try simp only [laters_cons_visit, laters_cons_later, laters_append, laters_visits, ho]
  all_goals try omega
  all_goals try split_ifs
  all_goals simp [laters]

theorem trav_ne_fuel {f i d : Nat} {s : TS}
    (h : ∀ nd, g i = some nd → Gen.skips s.gen i d = false →
      doActs (trav g refs size f) (s.mark i d) (edges nd d) ≠ .error .fuel) :
    trav g refs size (f + 1) i d s ≠ .error .fuel := by
  unfold trav
  cases hg : g i with
  | none => simp
  | some nd =>
    dsimp only
    by_cases hs : Gen.skips s.gen i d = true
    · rw [if_pos hs]; simp
    rw [if_neg hs]
    have h1 := h nd hg (by simpa using hs)
    have hexp : edges nd d = kindActs nd.kind d ++ depActs nd d →
        expand (trav g refs size f) size nd i d (s.mark i d) ≠ .error .fuel := by
      intro hed
      unfold expand
      rw [← hed]
      cases hda : doActs (trav g refs size f) (s.mark i d) (edges nd d) with
      | error e =>
        intro hc
        simp only [Except.error.injEq] at hc
        subst hc
        exact h1 hda
      | ok s2 =>
        dsimp only [finish]
        split_ifs <;> simp
    cases hk : nd.kind with
    | scatter t =>
      dsimp only
      split_ifs
      · simp
      · exact hexp (edges_eq (by simp [hk]) (by simp [hk]) (by simp [hk]) d)
    | callInput =>
      dsimp only
      split_ifs with hd
      · simp
      · simp only [edges, hk, if_neg hd, doActs, doAct] at h1
        intro hc
        have hc' : trav g refs size f (nd.dep.headD 0) (d - 1) (s.mark i d) = .error .fuel := hc
        rw [hc'] at h1
        exact h1 rfl
    | loopPhi o =>
      cases o with
      | none => simp
      | some p => exact hexp (edges_eq (by simp [hk]) (by simp [hk]) (by simp [hk]) d)
    | loopOutput o =>
      cases o with
      | none => simp
      | some p => exact hexp (edges_eq (by simp [hk]) (by simp [hk]) (by simp [hk]) d)
    | plain => exact hexp (edges_eq (by simp [hk]) (by simp [hk]) (by simp [hk]) d)
    | arrayWrite b => exact hexp (edges_eq (by simp [hk]) (by simp [hk]) (by simp [hk]) d)
    | call a b c e => exact hexp (edges_eq (by simp [hk]) (by simp [hk]) (by simp [hk]) d)
    | callOutput a => exact hexp (edges_eq (by simp [hk]) (by simp [hk]) (by simp [hk]) d)
    | coopVecPack a => exact hexp (edges_eq (by simp [hk]) (by simp [hk]) (by simp [hk]) d)
    | extra a => exact hexp (edges_eq (by simp [hk]) (by simp [hk]) (by simp [hk]) d)

/-- Outcome of a computation that consumes potential. -/
def TermPost (N : Nat) (s : TS) (m : Nat → Visit) (extra : Nat) (r : Except Err TS) : Prop :=
  r ≠ .error .fuel ∧ ∀ s', r = .ok s' → ∃ m', Gen.Inv s'.gen m' true ∧
    (∀ i, m' i ≠ .stashed) ∧ potential m' N ≤ potential m N ∧
    s.later.length ≤ s'.later.length ∧
    s'.later.length + potential m' N ≤ s.later.length + potential m N + extra

theorem doActs_term {N : Nat} {f : Nat} {rec : Nat → Nat → TS → Except Err TS}
    (hrec : ∀ k e s m, Gen.Inv s.gen m true → (∀ i, m i ≠ .stashed) → potential m N < f →
      TermPost N s m 0 (rec k e s))
    (as : List Act) (s : TS) (m : Nat → Visit) (hI : Gen.Inv s.gen m true)
    (hn : ∀ i, m i ≠ .stashed) (hp : potential m N < f) :
    TermPost N s m (laters as) (doActs rec s as) := by
  induction as generalizing s m with
  | nil =>
    refine ⟨by simp [doActs], ?_⟩
    intro s' h
    simp only [doActs, Except.ok.injEq] at h
    subst h
    exact ⟨m, hI, hn, le_refl _, le_refl _, by omega⟩
  | cons a as ih =>
    cases a with
    | visit k e =>
      obtain ⟨h1, h2⟩ := hrec k e s m hI hn hp
      have hl : laters (Act.visit k e :: as) = laters as := by simp [laters]
      rw [hl]
      unfold doActs
      show TermPost N s m _ (match rec k e s with
        | .ok s' => doActs rec s' as
        | .error e => .error e)
      cases hr : rec k e s with
      | error er =>
        dsimp only
        refine ⟨?_, by simp⟩
        intro hc
        simp only [Except.error.injEq] at hc
        subst hc
        exact h1 hr
      | ok s1 =>
        dsimp only
        obtain ⟨m1, a1, a2, a3, a5, a4⟩ := h2 s1 hr
        obtain ⟨b1, b2⟩ := ih s1 m1 a1 a2 (by omega)
        refine ⟨b1, fun s' hs' => ?_⟩
        obtain ⟨m', c1, c2, c3, c5, c4⟩ := b2 s' hs'
        exact ⟨m', c1, c2, by omega, by omega, by omega⟩
    | later k e =>
      have hl : laters (Act.later k e :: as) = laters as + 1 := by simp [laters]
      rw [hl]
      unfold doActs doAct
      dsimp only
      obtain ⟨b1, b2⟩ := ih { s with later := s.later ++ [(k, e)] } m hI hn hp
      refine ⟨b1, fun s' hs' => ?_⟩
      obtain ⟨m', c1, c2, c3, c5, c4⟩ := b2 s' hs'
      simp only [List.length_append, List.length_singleton] at c4 c5
      exact ⟨m', c1, c2, c3, by omega, by omega⟩

/-- With as much recursion as there are visits left, the traversal ends. -/
theorem trav_term {N : Nat} (hN : ∀ i, N ≤ i → g i = none) (f : Nat) :
    ∀ i d s m, Gen.Inv s.gen m true → (∀ i, m i ≠ .stashed) → potential m N < f →
      TermPost N s m 0 (trav g refs size f i d s) := by
  induction f with
  | zero => intro i d s m _ _ h; omega
  | succ f ih =>
    intro i d s m hI hn hp
    have hsk := Gen.skips_eq hI (i := i) (d := d) (hn i)
    -- facts about the stamped state
    have key : ∀ nd, g i = some nd → Gen.skips s.gen i d = false →
        ∃ m1, Gen.Inv (s.mark i d).gen m1 true ∧ (∀ i, m1 i ≠ .stashed) ∧
          potential m1 N < potential m N := by
      intro nd hg hs
      rw [hsk] at hs
      have hns : ¬ Seen (m i) d := of_decide_eq_false hs
      have hno : m i ≠ .outer := fun hc => hns (Or.inl hc)
      have hiN : i < N := by
        by_contra hc
        rw [hN i (by omega)] at hg
        simp at hg
      refine ⟨fun j => see j m (.traverse i d), mark_inv hI hn i d, ?_, ?_⟩
      · intro j
        show see j m (.traverse i d) ≠ _
        by_cases hij : i = j
        · subst hij
          by_cases hd : d = 0
          · rw [hd, see_self_zero]; simp
          · rw [see_self_pos m hd hno]; simp
        · rw [see_other m hij]; exact hn j
      · apply potential_update hiN
        · intro j hij
          exact see_other m hij
        · show weight (see i m (.traverse i d)) < _
          by_cases hd : d = 0
          · rw [hd, see_self_zero]
            cases hm : m i with
            | no => simp [weight]
            | inner => simp [weight]
            | outer => exact absurd hm hno
            | stashed => exact absurd hm (hn i)
          · rw [see_self_pos m hd hno]
            cases hm : m i with
            | no => simp [weight]
            | inner => exact absurd (Or.inr ⟨hm, hd⟩) hns
            | outer => exact absurd hm hno
            | stashed => exact absurd hm (hn i)
    constructor
    · apply trav_ne_fuel
      intro nd hg hs
      obtain ⟨m1, a1, a2, a3⟩ := key nd hg hs
      exact (doActs_term ih (edges nd d) (s.mark i d) m1 a1 a2 (by omega)).1
    · intro s' h
      obtain ⟨nd, hg, hcase⟩ := trav_cases h
      rcases hcase with ⟨_, rfl⟩ | ⟨hs, hcase⟩
      · exact ⟨m, hI, hn, le_refl _, le_refl _, by omega⟩
      obtain ⟨m1, a1, a2, a3⟩ := key nd hg hs
      rcases hcase with ⟨t, _, _, rfl⟩ | ⟨s2, hacts, hs', _⟩
      · refine ⟨m1, a1, a2, by omega, le_refl _, ?_⟩
        show s.later.length + _ ≤ _
        omega
      · obtain ⟨m', c1, c2, c3, c5, c4⟩ :=
          (doActs_term ih (edges nd d) (s.mark i d) m1 a1 a2 (by omega)).2 s2 hacts
        have hle := laters_edges nd d
        have hlm : (s.mark i d).later.length = s.later.length := rfl
        have : s'.later = s2.later := by rw [hs']; split_ifs <;> rfl
        refine ⟨m', ?_, c2, by omega, by rw [this]; omega, by rw [this]; omega⟩
        rw [hs']
        split_ifs
        · exact c1
        · exact c1

end Verif.Eval
