import Verif.Ctrl.Nodes

/-
Symbolic loops and conditionals: variables of size 1 have the same value in all lanes.
-/

namespace Verif.Ctrl

/-- The branches of all conditionals are at most as wide as their results. -/
def CondsFit (g : Graph) : Prop := ∀ i c t f, i < g.next → (g.node i).kind = .condOut c t f →
  g.size t ≤ g.size i ∧ g.size f ≤ g.size i

theorem sized_getElem {g : Graph} {size : Nat} : ∀ {qs os is : List Nat}, Sized g size qs os is →
    ∀ k q o i : Nat, qs[k]? = some q → os[k]? = some o → is[k]? = some i → q ≠ o →
      g.size q ≤ size ∧ g.size o ≤ size ∧ g.size i ≤ size
  | [], _, _, _, _, _, _, _, h, _, _, _ => by simp at h
  | _ :: _, [], _, _, _, _, _, _, _, h, _, _ => by simp at h
  | _ :: _, _ :: _, [], _, _, _, _, _, _, _, h, _ => by simp at h
  | q' :: qs, o' :: os, i' :: is, hs, k, q, o, i, h1, h2, h3, hne => by
    cases k with
    | zero =>
      simp only [List.getElem?_cons_zero, Option.some.injEq] at h1 h2 h3
      subst h1; subst h2; subst h3
      exact hs.1 hne
    | succ k => exact sized_getElem hs.2 k q o i (by simpa using h1) (by simpa using h2) (by simpa using h3) hne

/-- Two states of a loop agree in the variables that were not eliminated. -/
def Agree (ld : LoopData) (s s' : List Nat) : Prop :=
  s.length = ld.outerIn.length ∧ s'.length = ld.outerIn.length ∧
  ∀ k q o : Nat, ld.innerIn[k]? = some q → ld.outerIn[k]? = some o → q ≠ o → s[k]? = s'[k]?

theorem assign_agree {g : Graph} : ∀ (qs os s s' : List Nat) (e e' : Nat → Nat), s.length = os.length →
    s'.length = os.length → (∀ k q o : Nat, qs[k]? = some q → os[k]? = some o → q ≠ o → s[k]? = s'[k]?) →
    (∀ j, g.size j ≤ 1 → e j = e' j) → ∀ j, g.size j ≤ 1 → assign qs os s e j = assign qs os s' e' j := by
  intro qs
  induction qs with
  | nil => intro os s s' e e' _ _ _ he j hj; simp [assign, he j hj]
  | cons q qs ih =>
    intro os s s' e e' hl hl' h he j hj
    cases os with
    | nil => simp [assign, he j hj]
    | cons o os =>
      cases s with
      | nil => simp at hl
      | cons v s =>
        cases s' with
        | nil => simp at hl'
        | cons v' s' =>
          have rest := ih os s s' e e' (by simpa using hl) (by simpa using hl')
            (fun k q o h1 h2 hne => by simpa using h (k + 1) q o (by simpa using h1) (by simpa using h2) hne) he j hj
          simp only [assign]
          split_ifs with hq
          · exact rest
          · simp only [set]
            split_ifs with hj'
            · simpa using h 0 q o rfl rfl hq
            · exact rest

theorem whileN_agree {σ : Type} {sp : Bool} {C C' : σ → Option Nat} {B B' : σ → Option σ} {R : σ → σ → Prop}
    (hC : ∀ s s' b b', R s s' → C s = some b → C' s' = some b' → b = b')
    (hB : ∀ s s' t t', R s s' → B s = some t → B' s' = some t' → R t t') : ∀ (n m : Nat) (s s' t t' : σ), R s s' →
      whileN sp C B n s = some t → whileN sp C' B' m s' = some t' → R t t' := by
  intro n
  induction n with
  | zero => intro m s s' t t' _ h; simp [whileN] at h
  | succ n ih =>
    intro m s s' t t' hR h h'
    cases m with
    | zero => simp [whileN] at h'
    | succ m =>
      simp only [whileN, Option.bind_eq_some_iff] at h h'
      obtain ⟨b, h1, h2⟩ := h
      obtain ⟨b', h1', h2'⟩ := h'
      obtain rfl := hC _ _ _ _ hR h1 h1'
      have stop : ∀ {B : σ → Option σ} {s t : σ}, (if sp then (B s).map fun _ => s else some s) = some t → t = s := by
        intro B s t h
        cases sp with
        | true =>
          simp only [if_true, Option.map_eq_some_iff] at h
          obtain ⟨_, _, h⟩ := h
          exact h.symm
        | false => simpa using h.symm
      by_cases hb : b = 0
      · rw [if_pos hb] at h2 h2'
        rw [stop h2, stop h2']
        exact hR
      · rw [if_neg hb, Option.bind_eq_some_iff] at h2 h2'
        obtain ⟨u, k1, k2⟩ := h2
        obtain ⟨u', k1', k2'⟩ := h2'
        exact ih m u u' t t' (hB _ _ _ _ hR k1 k1') k2 k2'

/-- A variable of size 1 has the same value in all lanes. -/
theorem den_broadcast {cfg : Cfg} {g : Graph} {sp : Bool} {l l' : Nat} (hw : WF g) (hok : AllOK cfg g) (hcf : CondsFit g) :
    ∀ (n m : Nat) (e e' : Nat → Nat) (i v w : Nat), i < g.next → g.size i ≤ 1 → (∀ j, g.size j ≤ 1 → e j = e' j) →
      den sp g l n e i = some v → den sp g l' m e' i = some w → v = w := by
  intro n
  induction n with
  | zero => intro m e e' i v w _ _ _ h; simp [den] at h
  | succ n ih =>
    intro m e e' i v w hi hs he h h'
    cases m with
    | zero => simp [den] at h'
    | succ m =>
      have hr : ∀ j ∈ (g.node i).kind.refs, j < g.next := fun j hj => Nat.lt_trans (hw i hi j hj) hi
      have hnode := hok i hi
      cases hk : (g.node i).kind with
      | lit c => simp only [den, hk, Option.some.injEq] at h h'; rw [← h, ← h']
      | input x =>
        simp only [den, hk, Option.some.injEq, entry] at h h'
        have : (g.node i).size ≤ 1 := hs
        rw [if_pos this] at h h'
        rw [← h, ← h']
      | phi => simp only [den, hk, Option.some.injEq] at h h'; rw [← h, ← h']; exact he i hs
      | op f args =>
        rw [hk] at hr
        simp only [NodeOK, hk] at hnode
        simp only [den, hk, Option.map_eq_some_iff] at h h'
        obtain ⟨vs, h1, rfl⟩ := h
        obtain ⟨ws, h1', rfl⟩ := h'
        have hsz : ∀ a ∈ args, g.size a ≤ 1 := fun a ha => Nat.le_trans (hnode a ha) hs
        have k1 := evalAll_iff.1 h1
        have k2 := evalAll_iff.1 h1'
        have : vs = ws := by
          clear h1 h1' hk hnode
          simp only [Kind.refs] at hr
          induction k1 generalizing ws with
          | nil => cases k2; rfl
          | cons a1 _ ih' =>
            cases k2 with
            | cons b1 b2 =>
              rw [ih m e e' _ _ _ (hr _ (by simp)) (hsz _ (by simp)) he a1 b1,
                ih' (fun j hj => hr j (by simp [hj])) _ (fun a ha => hsz a (by simp [ha])) b2]
        rw [this]
      | condOut c t f =>
        rw [hk] at hr
        simp only [NodeOK, hk] at hnode
        obtain ⟨ft, ff⟩ := hcf i c t f hi hk
        have part : ∀ {l n : Nat} {e : Nat → Nat} {v : Nat}, den sp g l (n + 1) e i = some v → ∃ b, den sp g l n e c = some b ∧
            den sp g l n e (if b ≠ 0 then t else f) = some v := by
          intro l n e v h
          simp only [den, hk, Option.bind_eq_some_iff] at h
          obtain ⟨b, h1, r, h2, h3⟩ := h
          refine ⟨b, h1, ?_⟩
          cases sp with
          | true =>
            simp only [if_true, Option.map_eq_some_iff] at h3
            obtain ⟨_, _, rfl⟩ := h3
            exact h2
          | false =>
            simp only [Bool.false_eq_true, if_false, Option.some.injEq] at h3
            rw [← h3]; exact h2
        obtain ⟨b, h1, h2⟩ := part h
        obtain ⟨b', h1', h2'⟩ := part h'
        obtain rfl := ih m e e' c b b' (hr c (by simp [Kind.refs])) (Nat.le_trans hnode hs) he h1 h1'
        refine ih m e e' _ v w ?_ ?_ he h2 h2'
        · split_ifs
          exacts [hr t (by simp [Kind.refs]), hr f (by simp [Kind.refs])]
        · split_ifs
          exacts [Nat.le_trans ft hs, Nat.le_trans ff hs]
      | loopOut ld k =>
        rw [hk] at hr
        simp only [NodeOK, hk] at hnode
        obtain ⟨⟨⟨base, hb1, hb2⟩, hlen, hfix, hact, hsz, _⟩, q, o, hq, ho, hne⟩ := hnode
        have hil := hb2.length
        simp only [den, hk, Option.bind_eq_some_iff] at h h'
        obtain ⟨s, ⟨s0, h1, h2⟩, h3⟩ := h
        obtain ⟨s', ⟨s0', h1', h2'⟩, h3'⟩ := h'
        have ra := hr ld.active (by simp [Kind.refs])
        -- lists of values agree where the variables have size 1
        have lists : ∀ (is : List Nat) (e e' : Nat → Nat) (t t' : List Nat), is.length = ld.outerIn.length →
            (∀ j ∈ is, j < g.next) → (∀ j, g.size j ≤ 1 → e j = e' j) →
            (∀ k q o i : Nat, ld.innerIn[k]? = some q → ld.outerIn[k]? = some o → is[k]? = some i → q ≠ o → g.size i ≤ 1) →
            evalAll (den sp g l n e) is = some t → evalAll (den sp g l' m e') is = some t' → Agree ld t t' := by
          intro is e e' t t' hl hlt he hsz ht ht'
          have k1 := evalAll_iff.1 ht
          have k2 := evalAll_iff.1 ht'
          refine ⟨by rw [← k1.length_eq, hl], by rw [← k2.length_eq, hl], fun k q o hq ho hne => ?_⟩
          obtain ⟨i, hi⟩ : ∃ i, is[k]? = some i := by
            have : k < is.length := by rw [hl]; exact (List.getElem?_eq_some_iff.1 ho).1
            exact ⟨is[k], List.getElem?_eq_getElem this⟩
          obtain ⟨v, hv1, hv2⟩ := vals_getElem k1 k i hi
          obtain ⟨w, hw1, hw2⟩ := vals_getElem k2 k i hi
          rw [hv1, hw1, ih m e e' i v w (hlt i (List.mem_of_getElem? hi)) (hsz k q o i hq ho hi hne) he hv2 hw2]
        have hszo : ∀ k q o i : Nat, ld.innerIn[k]? = some q → ld.outerIn[k]? = some o → q ≠ o →
            g.size o ≤ 1 ∧ ∀ i, ld.innerOut[k]? = some i → g.size i ≤ 1 := by
          intro k q o i hq ho hne
          have hk' : k < ld.innerOut.length := by rw [hlen]; exact (List.getElem?_eq_some_iff.1 ho).1
          have := sized_getElem hsz k q o _ hq ho (List.getElem?_eq_getElem hk') hne
          refine ⟨Nat.le_trans this.2.1 hs, fun i hi => ?_⟩
          rw [List.getElem?_eq_getElem hk', Option.some.injEq] at hi
          rw [← hi]; exact Nat.le_trans this.2.2 hs
        have a0 : Agree ld s0 s0' := lists ld.outerIn e e' s0 s0' rfl (fun j hj => hr j (by simp [Kind.refs, hj])) he
          (fun k q o i hq ho hi hne => by
            rw [ho, Option.some.injEq] at hi; rw [← hi]; exact (hszo k q o 0 hq ho hne).1) h1 h1'
        have ha := whileN_agree (R := Agree ld)
          (fun s s' b b' hR hb hb' => ih m _ _ _ _ _ ra (Nat.le_trans hact hs)
            (assign_agree _ _ s s' e e' hR.1 hR.2.1 hR.2.2 he) hb hb')
          (fun s s' t t' hR ht ht' => lists ld.innerOut _ _ t t' hlen (fun j hj => hr j (by simp [Kind.refs, hj]))
            (assign_agree _ _ s s' e e' hR.1 hR.2.1 hR.2.2 he)
            (fun k q o i hq ho hi hne => (hszo k q o 0 hq ho hne).2 i hi) ht ht') n m s0 s0' s s' a0 h2 h2'
        have := ha.2.2 k q o hq ho hne
        rw [h3, h3'] at this
        simpa using this

end Verif.Ctrl
