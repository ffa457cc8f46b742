import Verif.Var.New
/-!
# Literals, nodes and resizing preserve the invariant
-/
namespace Verif.Var
open Verif.FreeSlots (FreeSlots Rep sinsert mem_sinsert rep_push rep_pop)

variable {s s' : Store} {U U' : List Nat} {ext extSe base u : Nat → Nat} {P : List Nat}

theorem varNew_leaf_spec {v : Var} {dl : Bool} (hc : v.refCount = 0) (hcs : v.refCountSe = 0)
    (hr : v.d0 = 0 ∧ v.d1 = 0 ∧ v.d2 = 0 ∧ v.d3 = 0)
    (h : Inv s U ext extSe []) {R : Store → Prop} :
    wp (varNew v dl) s
      (fun r s' => ∃ U', Inv s' U' (plus ext [r]) extSe [] ∧ Frame ext s U s' U' ∧
        Alive s' U' r ∧ (s'.vars r).key = (v.placed s).key ∧ NewResult v dl s r s') R
      (· = .limit) := by
  refine varNew_spec hc hcs ?_
  have e1 : plus ext v.refs = ext := by
    unfold Var.refs
    split
    · exact plus_nil _
    · rw [hr.1, hr.2.1, hr.2.2.1, hr.2.2.2]; simp only [plus_zero, plus_nil]
  have e2 : plus extSe v.refsSe = extSe := by
    unfold Var.refsSe
    split
    · rw [hr.2.2.2]; simp only [plus_zero, plus_nil]
    · exact plus_nil _
  rw [e1, e2]; exact h

/-- The literal constructed by `jitc_var_literal()`. -/
def literalVar (backend : Nat) (type : VType) (value : BitVec 64) (size : Nat) : Var :=
  { literal := type.mask value, kind := .literal, type := type, size := size, backend := backend }

theorem varLiteral_spec {b : Nat} {t : VType} {x : BitVec 64} {n : Nat}
    (h : Inv s U ext extSe []) :
    wp (varLiteral b t x n) s
      (fun r s' => ∃ U', Inv s' U' (plus ext [r]) extSe [] ∧ Frame ext s U s' U' ∧
        ((n = 0 ∧ r = 0) ∨ (n ≠ 0 ∧ Alive s' U' r ∧
          (s'.vars r).key = ((literalVar b t x n).placed s).key ∧
          NewResult (literalVar b t x n) false s r s')))
      (fun s' => s' = s ∧ n > 0xFFFFFFFF) (· = .limit) := by
  unfold varLiteral
  by_cases h0 : n = 0
  · rw [if_pos h0, wp_pure, plus_zero1]
    exact ⟨U, h, Frame.refl, .inl ⟨h0, rfl⟩⟩
  rw [if_neg h0]
  by_cases h1 : n > 0xFFFFFFFF
  · rw [if_pos h1, wp_raise]; exact ⟨rfl, h1⟩
  rw [if_neg h1]
  refine wp_post (varNew_leaf_spec rfl rfl ⟨rfl, rfl, rfl, rfl⟩ h) ?_
  rintro r s' ⟨U', a1, a2, a3, a4, a5⟩
  exact ⟨U', a1, a2, .inr ⟨h0, a3, a4, a5⟩⟩

theorem varUndefined_spec {b : Nat} {t : VType} {n : Nat} (h : Inv s U ext extSe []) :
    wp (varUndefined b t n) s
      (fun r s' => ∃ U', Inv s' U' (plus ext [r]) extSe [] ∧ Frame ext s U s' U' ∧
        ((n = 0 ∧ r = 0) ∨ (n ≠ 0 ∧ Alive s' U' r)))
      (fun s' => s' = s ∧ n > 0xFFFFFFFF) (· = .limit) := by
  unfold varUndefined
  by_cases h0 : n = 0
  · rw [if_pos h0, wp_pure, plus_zero1]
    exact ⟨U, h, Frame.refl, .inl ⟨h0, rfl⟩⟩
  rw [if_neg h0]
  by_cases h1 : n > 0xFFFFFFFF
  · rw [if_pos h1, wp_raise]; exact ⟨rfl, h1⟩
  rw [if_neg h1]
  refine wp_post (varNew_leaf_spec rfl rfl ⟨rfl, rfl, rfl, rfl⟩ h) ?_
  rintro r s' ⟨U', a1, a2, a3, a4, a5⟩
  exact ⟨U', a1, a2, .inr ⟨h0, a3⟩⟩

theorem varCounter_spec {b n : Nat} {si : Bool} (h : Inv s U ext extSe []) :
    wp (varCounter b n si) s
      (fun r s' => ∃ U', Inv s' U' (plus ext [r]) extSe [] ∧ Frame ext s U s' U' ∧
        Alive s' U' r)
      (fun s' => s' = s ∧ n > 0xFFFFFFFF) (· = .limit) := by
  unfold varCounter
  rw [wp_bind, wp_getStore]
  by_cases h0 : n = 1 ∧ si ∧ !s.symbolicScope
  · rw [if_pos h0]
    refine wp_mono (varLiteral_spec h) ?_ ?_ (fun _ => id)
    · rintro r s' ⟨U', a1, a2, a3⟩
      rcases a3 with ⟨a, _⟩ | ⟨_, a, _⟩
      · cases a
      · exact ⟨U', a1, a2, a⟩
    · rintro s' ⟨_, a⟩; omega
  rw [if_neg h0]
  by_cases h1 : n > 0xFFFFFFFF
  · rw [if_pos h1, wp_raise]; exact ⟨rfl, h1⟩
  rw [if_neg h1]
  refine wp_post (varNew_leaf_spec rfl rfl ⟨rfl, rfl, rfl, rfl⟩ h) ?_
  rintro r s' ⟨U', a1, a2, a3, a4, a5⟩
  exact ⟨U', a1, a2, a3⟩

theorem varMemMap_spec {b : Nat} {t : VType} {p : BitVec 64} {n : Nat} {fr : Bool}
    (h : Inv s U ext extSe []) :
    wp (varMemMap b t p n fr) s
      (fun r s' => ∃ U', Inv s' U' (plus ext [r]) extSe [] ∧ Frame ext s U s' U' ∧
        ((n = 0 ∧ r = 0) ∨ (n ≠ 0 ∧ Alive s' U' r ∧
          (s'.vars r).uid = s.variableCounter ∧ (s'.vars r).kind = .evaluated ∧
          (s'.vars r).literal = p ∧ (s'.vars r).size = n ∧ (s'.vars r).type = t)))
      (fun s' => s' = s ∧ n > 0xFFFFFFFF) (· = .limit) := by
  unfold varMemMap
  by_cases h0 : n = 0
  · rw [if_pos h0, wp_pure, plus_zero1]
    exact ⟨U, h, Frame.refl, .inl ⟨h0, rfl⟩⟩
  rw [if_neg h0]
  by_cases h1 : n > 0xFFFFFFFF
  · rw [if_pos h1, wp_raise]; exact ⟨rfl, h1⟩
  rw [if_neg h1]
  refine wp_post (varNew_leaf_spec rfl rfl ⟨rfl, rfl, rfl, rfl⟩ h) ?_
  rintro r s' ⟨U', a1, a2, a3, a4, a5⟩
  refine ⟨U', a1, a2, .inr ⟨h0, a3, ?_⟩⟩
  rcases a5 with ⟨a, _⟩ | ⟨_, a, _⟩
  · simp [useLvn] at a
  · rw [a]; exact ⟨rfl, rfl, rfl, rfl, rfl⟩

/-- Changing the current scope has no effect on the invariant. -/
theorem Inv.setScope (h : Inv s U ext extSe P) (c : Nat) :
    Inv { s with scope := c } U ext extSe P :=
  ⟨h.rep, h.ub, h.len, h.dead, h.deps, h.uids, h.rc, h.rcSe, h.pend, h.nodup, h.lvn, h.lvnKeys,
    h.bal⟩

theorem Frame.setScope {c : Nat} (h : Frame base { s with scope := c } U s' U') :
    Frame base s U { s' with scope := s.scope } U' :=
  ⟨h.env, rfl, h.vc, h.len, h.keep, h.ops, h.stay, h.cnt, h.gone⟩

theorem varPointer_spec {b : Nat} {p : BitVec 64} {dep : Nat} {wr wn dl : Bool}
    (h : Inv s U ext extSe []) (hd : dep = 0 ∨ Alive s U dep) {R : Store → Prop} :
    wp (varPointer b p dep wr wn dl) s
      (fun r s' => ∃ U', Inv s' U' (plus ext [r]) extSe [] ∧ Frame ext s U s' U' ∧
        Alive s' U' r) R (· = .limit) := by
  unfold varPointer
  have main : ∀ {s1 : Store}, Frame ext s U s1 U →
      Inv s1 U (plus ext (if wr then [] else [dep])) (plus extSe (if wr then [dep] else [])) [] →
      wp (varNew (pointerVar b p dep wr wn) dl)
        { s1 with scope := 1 }
        (fun r s'' => ∃ U', Inv { s'' with scope := s1.scope } U' (plus ext [r]) extSe [] ∧
          Frame ext s U { s'' with scope := s1.scope } U' ∧
          Alive { s'' with scope := s1.scope } U' r) R (· = .limit) := by
    intro s1 f1 h1
    refine wp_post (varNew_spec (ext := ext) (extSe := extSe) (U := U) rfl rfl ?_) ?_
    · have e1 : (pointerVar b p dep wr wn).refs = if wr then [] else [0, 0, 0, dep] := rfl
      have e2 : (pointerVar b p dep wr wn).refsSe = if wr then [dep] else [] := rfl
      rw [e1, e2]
      have e3 : plus ext (if wr then [] else [0, 0, 0, dep]) =
          plus ext (if wr then [] else [dep]) := by
        cases wr
        · simp only [plus_zero, Bool.false_eq_true, if_false]
        · rfl
      rw [e3]
      exact h1.setScope 1
    · rintro r s2 ⟨U', a1, a2, a3, _⟩
      exact ⟨U', a1.setScope _, f1.trans (Frame.setScope a2), a3⟩
  cases wr with
  | true =>
    simp only [if_true, wp_bind, wp_getStore, wp_modifyStore, wp_pure]
    refine wp_post (incRefSe_spec (base := ext) h hd) ?_
    rintro _ s1 ⟨a1, a2⟩
    refine main a2 ?_
    simp only [if_true, plus_nil]
    exact a1
  | false =>
    simp only [Bool.false_eq_true, if_false, wp_bind, wp_getStore, wp_modifyStore, wp_pure]
    refine wp_post (incRef_spec (base := ext) h hd) ?_
    rintro _ s1 ⟨a1, a2⟩
    refine main a2 ?_
    simp only [Bool.false_eq_true, if_false, plus_nil]
    exact a1

/-! ## Functions that may evaluate -/

/-- The invariant between API calls: callers hold the references `u`, the list of pending side
effects holds one reference for each entry. -/
def IInv (s : Store) (U : List Nat) (u : Nat → Nat) : Prop :=
  Inv s U (plus u s.sideEffects) (fun _ => 0) []

/-- Relations between the states before and after a call that are composed from `Frame`s and
evaluations. -/
structure RelOK (Rel : (Nat → Nat) → Store → List Nat → Store → List Nat → Prop) : Prop where
  ofFrame : ∀ {b : Nat → Nat} {s s' : Store} {U U' : List Nat},
    Frame b s U s' U' → Rel b s U s' U'
  trans : ∀ {b : Nat → Nat} {s s' s'' : Store} {U U' U'' : List Nat},
    Rel b s U s' U' → Rel b s' U' s'' U'' → Rel b s U s'' U''
  mono : ∀ {b b' : Nat → Nat} {s s' : Store} {U U' : List Nat},
    Rel b s U s' U' → (∀ i, 0 < b' i → 0 < b i) → Rel b' s U s' U'

theorem relOK_frame : RelOK Frame := ⟨id, Frame.trans, Frame.mono⟩

/-- Contract of `jitc_eval()`: references are respected, and the states before and after
are related by `Rel`. -/
def EvSpec (ev : M Unit) (Rel : (Nat → Nat) → Store → List Nat → Store → List Nat → Prop)
    (T : Stop → Prop) : Prop :=
  ∀ (s : Store) (U : List Nat) (u : Nat → Nat), IInv s U u →
    wp ev s (fun _ s' => ∃ U', IInv s' U' u ∧ Rel u s U s' U')
      (fun s' => ∃ U', IInv s' U' u ∧ Rel u s U s' U') T

theorem plus_comm (l m : List Nat) : plus (plus u l) m = plus (plus u m) l := by
  funext k; unfold plus; omega

theorem Frame.side (h : Frame base s U s' U') : s'.sideEffects = s.sideEffects :=
  congrArg (fun e => e.2.1) h.env

theorem plus_pos_left {l : List Nat} {i : Nat} (h : 0 < u i) : 0 < plus u l i := by
  unfold plus; omega

section
variable {Rel : (Nat → Nat) → Store → List Nat → Store → List Nat → Prop} {T : Stop → Prop}
  {ev : M Unit}

theorem cleanOps_spec (hR : RelOK Rel) (hev : EvSpec ev Rel T) (h : IInv s U u)
    (ops again : List Nat) :
    wp (cleanOps ev ops again) s
      (fun _ s' => ∃ U', IInv s' U' u ∧ Rel u s U s' U' ∧
        (again = ops → ∀ a ∈ ops, (s'.vars a).isDirty = false) ∧
        ((∀ a ∈ ops, (s.vars a).isDirty = false) → s' = s))
      (fun s' => ∃ U', IInv s' U' u ∧ Rel u s U s' U') T := by
  have e := hev s U u h
  unfold wp cleanOps at *
  by_cases hd : ops.any (fun a => (s.vars a).isDirty)
  · rw [if_pos hd]
    cases hx : ev s <;> simp only [hx] at e ⊢
    · rename_i x s1
      obtain ⟨U', a1, a2⟩ := e
      by_cases hd' : again.any (fun a => (s1.vars a).isDirty)
      · rw [if_pos hd']; exact ⟨U', a1, a2⟩
      · rw [if_neg hd']
        refine ⟨U', a1, a2, ?_, fun hcl => ?_⟩
        · rintro rfl a ha
          simp only [List.any_eq_true, not_exists, not_and] at hd'
          simpa using hd' a ha
        · obtain ⟨a, ha, hda⟩ := List.any_eq_true.1 hd
          rw [hcl a ha] at hda; cases hda
    · exact e
    · exact e
  · rw [if_neg hd]
    refine ⟨U, h, hR.ofFrame Frame.refl, ?_, fun _ => rfl⟩
    intro _ a ha
    simp only [List.any_eq_true, not_exists, not_and] at hd
    simpa using hd a ha

/-- `IInv` in terms of `Inv`, for functions that create a variable. -/
theorem IInv.of_frame {r : Nat} (h : Inv s' U' (plus (plus u s.sideEffects) [r]) (fun _ => 0) [])
    (hf : Frame base s U s' U') : IInv s' U' (plus u [r]) := by
  unfold IInv
  rw [hf.side, plus_comm]; exact h

theorem Frame.user (h : Frame (plus u s.sideEffects) s U s' U') : Frame u s U s' U' :=
  h.mono (fun _ hi => plus_pos_left hi)

/-- The node constructed by `jitc_var_new_node_*()`. -/
def nodeVar (backend : Nat) (kind : Kind) (type : VType) (size : Nat) (symbolic : Bool)
    (a0 a1 a2 a3 : Nat) (payload : BitVec 64) : Var :=
  { d0 := a0, d1 := a1, d2 := a2, d3 := a3, literal := payload, size := size, kind := kind,
    backend := backend, type := type, symbolic := symbolic }

/-- If the index `r` is returned although it is already in use, then value numbering applies and
the variable in use has the attributes of `v`. -/
def MergeOK (v : Var) (s : Store) (r : Nat) : Prop :=
  ((s.vars r).refCount ≠ 0 ∨ (s.vars r).refCountSe ≠ 0) →
    useLvn s v false = true ∧ (s.vars r).key = (v.placed s).key

theorem NewResult.mergeOK {v : Var} {r : Nat} (h : Inv s U ext extSe [])
    (hn : NewResult v false s r s') : MergeOK v s r := by
  intro hc
  rcases hn with ⟨h1, h2, _⟩ | ⟨_, _, _, h1, h2, _⟩
  · exact ⟨h1, (h.lvn _ _ (lookup_mem h2)).2.1⟩
  · omega

theorem MergeOK.unset {v : Var} {r i : Nat}
    (h : MergeOK v (s.set i { s.vars i with refCount := (s.vars i).refCount + 1 }) r) :
    MergeOK v s r := by
  intro hc
  by_cases hi : r = i
  · subst hi
    have := h (by rw [set_self]; dsimp only; omega)
    rw [set_self] at this
    exact this
  · have := h (by rw [set_ne _ _ hi]; exact hc)
    rw [set_ne _ _ hi] at this
    exact this

/-- Common conclusion about functions that create a node. -/
def NodePost (Rel : (Nat → Nat) → Store → List Nat → Store → List Nat → Prop) (s : Store)
    (U : List Nat) (u : Nat → Nat) (v : Var) (r : Nat) (s' : Store) : Prop :=
  ∃ U', IInv s' U' (plus u [r]) ∧ Rel u s U s' U' ∧ Alive s' U' r ∧
    (s'.vars r).key = (v.placed s').key ∧
    ((∀ a ∈ v.refs, (s.vars a).isDirty = false) → MergeOK v s r)

theorem placed_frame (h : Frame base s U s' U') (v : Var) : v.placed s' = v.placed s := by
  unfold Var.placed; rw [h.scope]

theorem newNode0_spec (hR : RelOK Rel) (hT : T .limit) (h : IInv s U u)
    {b : Nat} {k : Kind} {t : VType} {n : Nat} {sy : Bool} {p : BitVec 64} {R : Store → Prop} :
    wp (newNode0 b k t n sy p) s (NodePost Rel s U u (nodeVar b k t n sy 0 0 0 0 p)) R T := by
  unfold newNode0
  refine wp_mono (varNew_leaf_spec (R := R) rfl rfl ⟨rfl, rfl, rfl, rfl⟩ h) ?_ (fun _ => id) ?_
  · rintro r s' ⟨U', a1, a2, a3, a4, a5⟩
    exact ⟨U', IInv.of_frame a1 a2, hR.ofFrame a2.user, a3, by rw [a4, placed_frame a2]; rfl,
      fun _ => a5.mergeOK h⟩
  · rintro _ rfl; exact hT

theorem newNode1_spec (hR : RelOK Rel) (hT : T .limit) (hev : EvSpec ev Rel T) (h : IInv s U u)
    {b : Nat} {k : Kind} {t : VType} {n : Nat} {sy : Bool} {a0 : Nat} {p : BitVec 64}
    (h0 : 0 < u a0) :
    wp (newNode1 ev b k t n sy a0 p) s (NodePost Rel s U u (nodeVar b k t n sy a0 0 0 0 p))
      (fun s' => ∃ U', IInv s' U' u ∧ Rel u s U s' U') T := by
  unfold newNode1
  rw [wp_bind]
  refine wp_post (cleanOps_spec hR hev h _ _) ?_
  rintro _ s1 ⟨U1, i1, r1, _, hcl⟩
  simp only [wp_bind]
  refine wp_mono (incRefV_spec i1 (i1.alive_of_ext (plus_pos_left h0)) (R := fun _ => False)) ?_
    (fun _ hf => hf.elim) (by rintro _ rfl; exact hT)
  rintro _ s2 ⟨i2, e2⟩
  have f2 : Frame (plus u s1.sideEffects) s1 U1 s2 U1 := by rw [e2]; exact Frame.setCounts
  refine wp_mono (varNew_spec (U := U1) (ext := plus u s1.sideEffects) (extSe := fun _ => 0)
    (R := fun _ => False) rfl rfl ?_) ?_ (fun _ hf => hf.elim) (by rintro _ rfl; exact hT)
  · have e : plus (plus u s1.sideEffects) [a0, 0, 0, 0] = plus (plus u s1.sideEffects) [a0] := by
      rw [plus4]; simp only [plus_zero1]
    change Inv s2 U1 (plus (plus u s1.sideEffects) [a0, 0, 0, 0]) (plus _ []) []
    rw [e, plus_nil]; exact i2
  · rintro r s3 ⟨U3, b1, b2, b3, b4, b5⟩
    have f3 := f2.trans b2
    exact ⟨U3, IInv.of_frame b1 f3, hR.trans r1 (hR.ofFrame f3.user), b3,
      by rw [b4, placed_frame b2]; rfl, by
        intro hd
        have := hcl (fun a ha => hd a (by
          simp only [List.mem_cons, List.not_mem_nil, or_false] at ha
          rcases ha with rfl; simp [Var.refs, nodeVar]))
        subst this
        have m := b5.mergeOK i2
        subst e2
        exact m.unset⟩

theorem newNode2_spec (hR : RelOK Rel) (hT : T .limit) (hev : EvSpec ev Rel T) (h : IInv s U u)
    {b : Nat} {k : Kind} {t : VType} {n : Nat} {sy : Bool} {a0 a1 : Nat} {p : BitVec 64}
    (h0 : 0 < u a0) (h1 : 0 < u a1) :
    wp (newNode2 ev b k t n sy a0 a1 p) s (NodePost Rel s U u (nodeVar b k t n sy a0 a1 0 0 p))
      (fun s' => ∃ U', IInv s' U' u ∧ Rel u s U s' U') T := by
  unfold newNode2
  rw [wp_bind]
  refine wp_post (cleanOps_spec hR hev h _ _) ?_
  rintro _ s1 ⟨U1, i1, r1, _, hcl⟩
  simp only [wp_bind]
  refine wp_mono (incRefV_spec i1 (i1.alive_of_ext (plus_pos_left h0)) (R := fun _ => False)) ?_
    (fun _ hf => hf.elim) (by rintro _ rfl; exact hT)
  rintro _ s2 ⟨i2, e2⟩
  have f2 : Frame (plus u s1.sideEffects) s1 U1 s2 U1 := by rw [e2]; exact Frame.setCounts
  refine wp_mono (incRefV_spec i2 (i2.alive_of_ext (plus_pos_left (plus_pos_left h1)))
    (R := fun _ => False)) ?_ (fun _ hf => hf.elim) (by rintro _ rfl; exact hT)
  rintro _ s3 ⟨i3, e3⟩
  have f3 : Frame (plus u s1.sideEffects) s1 U1 s3 U1 := by
    refine f2.trans ?_
    rw [e3]; exact Frame.setCounts
  refine wp_mono (varNew_spec (U := U1) (ext := plus u s1.sideEffects) (extSe := fun _ => 0)
    (R := fun _ => False) rfl rfl ?_) ?_ (fun _ hf => hf.elim) (by rintro _ rfl; exact hT)
  · have e : plus (plus u s1.sideEffects) [a0, a1, 0, 0] =
        plus (plus (plus u s1.sideEffects) [a0]) [a1] := by
      rw [plus4]; simp only [plus_zero1]; rw [plus_comm]
    change Inv s3 U1 (plus (plus u s1.sideEffects) [a0, a1, 0, 0]) (plus _ []) []
    rw [e, plus_nil]; exact i3
  · rintro r s4 ⟨U4, b1, b2, b3, b4, b5⟩
    have f4 := f3.trans b2
    exact ⟨U4, IInv.of_frame b1 f4, hR.trans r1 (hR.ofFrame f4.user), b3,
      by rw [b4, placed_frame b2]; rfl, by
        intro hd
        have := hcl (fun a ha => hd a (by
          simp only [List.mem_cons, List.not_mem_nil, or_false] at ha
          rcases ha with rfl | rfl <;> simp [Var.refs, nodeVar]))
        subst this
        have m := b5.mergeOK i3
        subst e3
        subst e2
        exact m.unset.unset⟩

theorem newNode3_spec (hR : RelOK Rel) (hT : T .limit) (hev : EvSpec ev Rel T) (h : IInv s U u)
    {b : Nat} {k : Kind} {t : VType} {n : Nat} {sy : Bool} {a0 a1 a2 : Nat} {p : BitVec 64}
    (h0 : 0 < u a0) (h1 : 0 < u a1) (h2 : 0 < u a2) :
    wp (newNode3 ev b k t n sy a0 a1 a2 p) s
      (NodePost Rel s U u (nodeVar b k t n sy a0 a1 a2 0 p))
      (fun s' => ∃ U', IInv s' U' u ∧ Rel u s U s' U') T := by
  unfold newNode3
  rw [wp_bind]
  refine wp_post (cleanOps_spec hR hev h _ _) ?_
  rintro _ s1 ⟨U1, i1, r1, _, hcl⟩
  simp only [wp_bind]
  refine wp_mono (incRefV_spec i1 (i1.alive_of_ext (plus_pos_left h0)) (R := fun _ => False)) ?_
    (fun _ hf => hf.elim) (by rintro _ rfl; exact hT)
  rintro _ s2 ⟨i2, e2⟩
  have f2 : Frame (plus u s1.sideEffects) s1 U1 s2 U1 := by rw [e2]; exact Frame.setCounts
  refine wp_mono (incRefV_spec i2 (i2.alive_of_ext (plus_pos_left (plus_pos_left h1)))
    (R := fun _ => False)) ?_ (fun _ hf => hf.elim) (by rintro _ rfl; exact hT)
  rintro _ s3 ⟨i3, e3⟩
  have f3 : Frame (plus u s1.sideEffects) s1 U1 s3 U1 := by
    refine f2.trans ?_
    rw [e3]; exact Frame.setCounts
  refine wp_mono (incRefV_spec i3
    (i3.alive_of_ext (plus_pos_left (plus_pos_left (plus_pos_left h2))))
    (R := fun _ => False)) ?_ (fun _ hf => hf.elim) (by rintro _ rfl; exact hT)
  rintro _ s4 ⟨i4, e4⟩
  have f4 : Frame (plus u s1.sideEffects) s1 U1 s4 U1 := by
    refine f3.trans ?_
    rw [e4]; exact Frame.setCounts
  refine wp_mono (varNew_spec (U := U1) (ext := plus u s1.sideEffects) (extSe := fun _ => 0)
    (R := fun _ => False) rfl rfl ?_) ?_ (fun _ hf => hf.elim) (by rintro _ rfl; exact hT)
  · have e : plus (plus u s1.sideEffects) [a0, a1, a2, 0] =
        plus (plus (plus (plus u s1.sideEffects) [a0]) [a1]) [a2] := by
      rw [plus4, plus_zero1, plus_comm, plus_comm [a2] [a0], plus_comm [a2] [a1]]
    change Inv s4 U1 (plus (plus u s1.sideEffects) [a0, a1, a2, 0]) (plus _ []) []
    rw [e, plus_nil]; exact i4
  · rintro r s5 ⟨U5, b1, b2, b3, b4, b5⟩
    have f5 := f4.trans b2
    exact ⟨U5, IInv.of_frame b1 f5, hR.trans r1 (hR.ofFrame f5.user), b3,
      by rw [b4, placed_frame b2]; rfl, by
        intro hd
        have := hcl (fun a ha => hd a (by
          simp only [List.mem_cons, List.not_mem_nil, or_false] at ha
          rcases ha with rfl | rfl | rfl <;> simp [Var.refs, nodeVar]))
        subst this
        have m := b5.mergeOK i4
        subst e4
        subst e3
        subst e2
        exact m.unset.unset.unset⟩

theorem newNode4_spec (hR : RelOK Rel) (hT : T .limit) (hev : EvSpec ev Rel T) (h : IInv s U u)
    {b : Nat} {k : Kind} {t : VType} {n : Nat} {sy : Bool} {a0 a1 a2 a3 : Nat} {p : BitVec 64}
    (h0 : 0 < u a0) (h1 : 0 < u a1) (h2 : 0 < u a2) (h3 : 0 < u a3) :
    wp (newNode4 ev b k t n sy a0 a1 a2 a3 p) s
      (NodePost Rel s U u (nodeVar b k t n sy a0 a1 a2 a3 p))
      (fun s' => ∃ U', IInv s' U' u ∧ Rel u s U s' U') T := by
  unfold newNode4
  rw [wp_bind]
  refine wp_post (cleanOps_spec hR hev h _ _) ?_
  rintro _ s1 ⟨U1, i1, r1, _, hcl⟩
  simp only [wp_bind]
  refine wp_mono (incRefV_spec i1 (i1.alive_of_ext (plus_pos_left h0)) (R := fun _ => False)) ?_
    (fun _ hf => hf.elim) (by rintro _ rfl; exact hT)
  rintro _ s2 ⟨i2, e2⟩
  have f2 : Frame (plus u s1.sideEffects) s1 U1 s2 U1 := by rw [e2]; exact Frame.setCounts
  refine wp_mono (incRefV_spec i2 (i2.alive_of_ext (plus_pos_left (plus_pos_left h1)))
    (R := fun _ => False)) ?_ (fun _ hf => hf.elim) (by rintro _ rfl; exact hT)
  rintro _ s3 ⟨i3, e3⟩
  have f3 : Frame (plus u s1.sideEffects) s1 U1 s3 U1 := by
    refine f2.trans ?_
    rw [e3]; exact Frame.setCounts
  refine wp_mono (incRefV_spec i3
    (i3.alive_of_ext (plus_pos_left (plus_pos_left (plus_pos_left h2))))
    (R := fun _ => False)) ?_ (fun _ hf => hf.elim) (by rintro _ rfl; exact hT)
  rintro _ s4 ⟨i4, e4⟩
  have f4 : Frame (plus u s1.sideEffects) s1 U1 s4 U1 := by
    refine f3.trans ?_
    rw [e4]; exact Frame.setCounts
  refine wp_mono (incRefV_spec i4
    (i4.alive_of_ext (plus_pos_left (plus_pos_left (plus_pos_left (plus_pos_left h3)))))
    (R := fun _ => False)) ?_ (fun _ hf => hf.elim) (by rintro _ rfl; exact hT)
  rintro _ s5 ⟨i5, e5⟩
  have f5 : Frame (plus u s1.sideEffects) s1 U1 s5 U1 := by
    refine f4.trans ?_
    rw [e5]; exact Frame.setCounts
  refine wp_mono (varNew_spec (U := U1) (ext := plus u s1.sideEffects) (extSe := fun _ => 0)
    (R := fun _ => False) rfl rfl ?_) ?_ (fun _ hf => hf.elim) (by rintro _ rfl; exact hT)
  · have e : plus (plus u s1.sideEffects) [a0, a1, a2, a3] =
        plus (plus (plus (plus (plus u s1.sideEffects) [a0]) [a1]) [a2]) [a3] := by
      funext i; unfold plus; simp only [List.count_cons, List.count_nil]; split
      · simp
      · simp; omega
    change Inv s5 U1 (plus (plus u s1.sideEffects) [a0, a1, a2, a3]) (plus _ []) []
    rw [e, plus_nil]; exact i5
  · rintro r s6 ⟨U6, b1, b2, b3, b4, b5⟩
    have f6 := f5.trans b2
    exact ⟨U6, IInv.of_frame b1 f6, hR.trans r1 (hR.ofFrame f6.user), b3,
      by rw [b4, placed_frame b2]; rfl, by
        intro hd
        have := hcl (fun a ha => hd a (by
          simp only [List.mem_cons, List.not_mem_nil, or_false] at ha
          rcases ha with rfl | rfl | rfl | rfl <;> simp [Var.refs, nodeVar]))
        subst this
        have m := b5.mergeOK i5
        subst e5
        subst e4
        subst e3
        subst e2
        exact m.unset.unset.unset.unset⟩

/-! ## Resizing -/

/-- The in-place path of `jitc_var_resize()`: drop the LVN entry, set the size, add an entry. -/
theorem resize_inPlace (h : Inv s U ext extSe []) {i n : Nat} (hi : Alive s U i)
    (hk : (s.vars i).kind ≠ .evaluated) (hr : (s.vars i).refCount ≤ ext i) :
    ∃ s', s' = (((s.lvnDrop i).set i { (s.lvnDrop i).vars i with size := n }).lvnPut i) ∧
      Inv s' U ext extSe [] ∧ Frame base s U s' U ∧
      s'.vars i = { s.vars i with size := n } := by
  obtain ⟨l, e, hl1, hl2, hl3⟩ := lvnDrop_spec (fun k j hm => (h.lvn k j hm).2.1) h.lvnKeys i
  refine ⟨_, rfl, ?_⟩
  rw [e]
  dsimp only
  generalize hs1 : ({ s with lvn := l } : Store).set i { s.vars i with size := n } = s1
  have e_vi : s1.vars i = { s.vars i with size := n } := by subst hs1; exact set_self _ _ _
  have e_ne : ∀ k, k ≠ i → s1.vars k = s.vars k := by
    intro k hki; subst hs1; exact set_ne _ _ hki
  obtain ⟨l', e', hl'⟩ : ∃ l', s1.lvnPut i = { s1 with lvn := l' } ∧
      (l' = s1.lvn ∨ (l' = ((s1.vars i).key, i) :: s1.lvn ∧
        s1.lvn.lookup (s1.vars i).key = none)) := by
    unfold Store.lvnPut
    cases hk : s1.lvn.lookup (s1.vars i).key with
    | some _ => exact ⟨s1.lvn, rfl, .inl rfl⟩
    | none => exact ⟨_, rfl, .inr ⟨rfl, rfl⟩⟩
  rw [e']
  have e_l : s1.lvn = l := by subst hs1; rfl
  generalize hs2 : ({ s1 with lvn := l' } : Store) = s2
  have f_v : ∀ k, s2.vars k = s1.vars k := by intro k; subst hs2; rfl
  have f_len : s2.len = s.len := by subst hs2; subst hs1; rfl
  have f_un : s2.unused = s.unused := by subst hs2; subst hs1; rfl
  have f_vc : s2.variableCounter = s.variableCounter := by subst hs2; subst hs1; rfl
  have f_env : s2.env = s.env := by subst hs2; subst hs1; rfl
  have f_sc : s2.scope = s.scope := by subst hs2; subst hs1; rfl
  have f_f : s2.freed = s.freed := by subst hs2; subst hs1; rfl
  have f_a : s2.acquired = s.acquired := by subst hs2; subst hs1; rfl
  have f_lvn : s2.lvn = l' := by subst hs2; rfl
  clear hs2 e' hs1
  have hal : ∀ k, Alive s U k ↔ Alive s2 U k := by intro k; unfold Alive; rw [f_len]
  -- everything except the size is unchanged
  have hv : ∀ k, ∃ m, s2.vars k = { s.vars k with size := m } ∧ (k ≠ i → m = (s.vars k).size) := by
    intro k
    by_cases hki : k = i
    · subst hki; exact ⟨n, by rw [f_v, e_vi], fun h => absurd rfl h⟩
    · exact ⟨(s.vars k).size, by rw [f_v, e_ne k hki], fun _ => rfl⟩
  have hrefs : ∀ k, (s2.vars k).refs = (s.vars k).refs ∧ (s2.vars k).refsSe = (s.vars k).refsSe ∧
      (s2.vars k).uid = (s.vars k).uid ∧ (s2.vars k).refCount = (s.vars k).refCount ∧
      (s2.vars k).refCountSe = (s.vars k).refCountSe ∧ (s2.vars k).kind = (s.vars k).kind ∧
      (s2.vars k).body = (s.vars k).body ∧ (s2.vars k).counter = (s.vars k).counter ∧
      ∀ p, (s2.vars k).owns p = (s.vars k).owns p := by
    intro k
    obtain ⟨m, em, _⟩ := hv k
    rw [em]
    exact ⟨rfl, rfl, rfl, rfl, rfl, rfl, rfl, rfl, fun _ => rfl⟩
  have hsum := refSum_congr f_len hal (fun j _ => (hrefs j).1)
  have hsumSe := refSumSe_congr f_len hal (fun j _ => (hrefs j).2.1)
  have hown := owned_congr f_len hal (fun j _ => (hrefs j).2.2.2.2.2.2.2.2)
  have hvi : s2.vars i = { s.vars i with size := n } := by rw [f_v, e_vi]
  have hent : ∀ (k : Key) (j : Nat), (k, j) ∈ l → Alive s2 U j ∧ (s2.vars j).key = k ∧
      (s2.vars j).kind ≠ .evaluated := by
    intro k j hm
    obtain ⟨m1, m2⟩ := (hl2 _).1 hm
    obtain ⟨a1, a2, a3⟩ := h.lvn k j m1
    dsimp only at m2
    rw [f_v, e_ne j m2]
    exact ⟨(hal j).1 a1, a2, a3⟩
  refine ⟨⟨?_, ?_, ?_, ?_, ?_, ?_, ?_, ?_, ?_, List.nodup_nil, ?_, ?_, ?_⟩, ?_, hvi⟩
  · rw [f_un]; exact h.rep
  · rw [f_len]; exact h.ub
  · rw [f_len]; exact h.len
  · intro k hk'
    rw [(hrefs k).2.2.2.1, (hrefs k).2.2.2.2.1]
    exact h.dead k (fun hh => hk' ((hal k).1 hh))
  · intro j hj d hd hd0
    rw [(hrefs j).1, (hrefs j).2.1] at hd
    rw [(hrefs j).2.2.1, (hrefs d).2.2.1, ← hal]
    exact h.deps j ((hal j).2 hj) d hd hd0
  · intro k hk'
    rw [(hrefs k).2.2.1, f_vc]; exact h.uids k ((hal k).2 hk')
  · intro k hk'
    rw [(hrefs k).2.2.2.1, hsum]; exact h.rc k ((hal k).2 hk')
  · intro k hk'
    rw [(hrefs k).2.2.2.2.1, hsumSe]; exact h.rcSe k ((hal k).2 hk')
  · intro k
    rw [(hrefs k).2.2.2.1, (hrefs k).2.2.2.2.1, ← hal]; exact h.pend k
  · intro k j hm
    rw [f_lvn] at hm
    rcases hl' with e1 | ⟨e1, _⟩
    · rw [e1, e_l] at hm; exact hent k j hm
    · rw [e1, e_l] at hm
      rcases List.mem_cons.1 hm with e2 | hm
      · cases e2
        refine ⟨(hal i).1 hi, by rw [f_v], ?_⟩
        rw [(hrefs i).2.2.2.2.2.1]; exact hk
      · exact hent k j hm
  · rw [f_lvn]
    rcases hl' with e1 | ⟨e1, e2⟩
    · rw [e1, e_l]; exact hl1
    · rw [e1, e_l, List.map_cons, List.nodup_cons]
      rw [e_l] at e2
      exact ⟨lookup_none e2, hl1⟩
  · intro p
    rw [hown, f_f, f_a]; exact h.bal p
  · refine ⟨f_env, f_sc, by rw [f_vc], by rw [f_len], ?_, ?_, ?_, ?_, ?_⟩
    · intro k hk' _
      refine ⟨(hal k).2 hk', (hrefs k).2.2.2.2.2.2.1, fun hke => ?_⟩
      have hki : k ≠ i := fun e => hk (by rw [← e]; exact hke)
      obtain ⟨m, em, hm⟩ := hv k
      rw [em, hm hki]
    · intro k hk' _ d hd _
      have hdi : d ≠ i := by
        rintro rfl
        have := refSum_pos ((hal k).2 hk') hd
        have := h.rc d hi
        omega
      obtain ⟨m, em, hm⟩ := hv d
      rw [em, hm hdi]
    · intro k _ hk'
      exact ⟨(hal k).1 hk', (hrefs k).2.2.1⟩
    · intro k _; rw [(hrefs k).2.2.2.2.2.2.2.1]
    · intro k hk'
      exact .inl ⟨(hal k).1 hk', (hrefs k).2.2.1⟩

/-- Relation between the argument and the result of `jitc_var_resize()`: the same variable,
a literal with the same value, or a copy. -/
def ResizeResult (s' : Store) (i r : Nat) : Prop :=
  r = i ∨
  ((s'.vars r).kind = .literal ∧ (s'.vars i).kind = .literal ∧
    (s'.vars r).type = (s'.vars i).type ∧
    (s'.vars r).literal = (s'.vars i).type.mask (s'.vars i).literal) ∨
  ((s'.vars r).kind = .bitcast ∧ (s'.vars r).d0 = i ∧ (s'.vars r).type = (s'.vars i).type)

theorem varResize_spec (hR : RelOK Rel) (hT : T .limit) (hev : EvSpec ev Rel T) (h : IInv s U u)
    {i n : Nat} (hi : 0 < u i) :
    wp (varResize ev i n) s
      (fun r s' => ∃ U', IInv s' U' (plus u [r]) ∧ Rel u s U s' U' ∧
        ((n = 0 ∧ r = 0) ∨
        (Alive s' U' r ∧ (s'.vars r).size = n ∧ ResizeResult s' i r)))
      (fun s' => ∃ U', IInv s' U' u ∧ Rel u s U s' U') T := by
  have hi0 := h.alive_of_ext (plus_pos_left (l := s.sideEffects) hi)
  unfold varResize
  rw [if_neg (fun e => hi0.1 e.1)]
  by_cases h1 : n > 0xFFFFFFFF
  · rw [if_pos h1, wp_raise]; exact ⟨U, h, hR.ofFrame Frame.refl⟩
  rw [if_neg h1, wp_bind, wp_getVar h hi0]
  by_cases h2 : (s.vars i).consumed
  · rw [if_pos h2, wp_raise]; exact ⟨U, h, hR.ofFrame Frame.refl⟩
  rw [if_neg h2]
  by_cases h3 : (s.vars i).size = n
  · rw [if_pos h3, wp_bind]
    refine wp_mono (incRefV_spec h hi0 (R := fun _ => False)) ?_ (fun _ hf => hf.elim)
      (by rintro _ rfl; exact hT)
    rintro _ s1 ⟨a1, a2⟩
    rw [wp_pure]
    have f : Frame u s U s1 U := by rw [a2]; exact Frame.setCounts
    refine ⟨U, IInv.of_frame a1 f, hR.ofFrame f, .inr ⟨?_, ?_, .inl rfl⟩⟩
    · rw [a2]; exact hi0
    · rw [a2, set_self]; exact h3
  rw [if_neg h3]
  by_cases h4 : (s.vars i).size ≠ 1 ∧ !(s.vars i).isLiteral
  · rw [if_pos h4, wp_raise]; exact ⟨U, h, hR.ofFrame Frame.refl⟩
  rw [if_neg h4, wp_bind]
  refine wp_post (cleanOps_spec hR hev h _ _) ?_
  rintro _ s1 ⟨U1, h5, r5, _⟩
  have hi5 := h5.alive_of_ext (plus_pos_left (l := s1.sideEffects) hi)
  rw [wp_bind, wp_getVar h5 hi5]
  by_cases h6 : !(s1.vars i).isEvaluated ∧ (s1.vars i).refCount = 1
  · rw [if_pos h6]
    simp only [wp_bind, wp_modifyStore, wp_pure]
    refine wp_mono (incRefV_spec h5 hi5 (R := fun _ => False)) ?_ (fun _ hf => hf.elim)
      (by rintro _ rfl; exact hT)
    rintro _ s2 ⟨a1, a2⟩
    have f2 : Frame u s1 U1 s2 U1 := by rw [a2]; exact Frame.setCounts
    have hk : (s2.vars i).kind ≠ .evaluated := by
      rw [a2, set_self]
      have := h6.1
      simpa [Var.isEvaluated] using this
    obtain ⟨s3, e3, b1, b2, b3⟩ := resize_inPlace (base := u) (n := n) a1
      (by rw [a2]; exact hi5) hk (by
        rw [a2, set_self, plus_self hi5.1]
        have := plus_pos_left (l := s1.sideEffects) hi
        have := h6.2
        dsimp only
        omega)
    have f3 := f2.trans b2
    have e3' : s3 = ((s2.lvnDrop i).set i { (s2.lvnDrop i).vars i with size := n }).lvnPut i := e3
    rw [← e3']
    refine ⟨U1, IInv.of_frame b1 f3, hR.trans r5 (hR.ofFrame f3), .inr ⟨?_, ?_, .inl rfl⟩⟩
    · exact (f3.stay i hi hi5).1
    · rw [b3]
  rw [if_neg h6]
  by_cases h7 : (s1.vars i).isLiteral
  · rw [if_pos h7]
    refine wp_mono (varLiteral_spec h5) ?_ ?_ (by rintro _ rfl; exact hT)
    · rintro r s2 ⟨U2, a1, a2, a3⟩
      refine ⟨U2, IInv.of_frame a1 a2, hR.trans r5 (hR.ofFrame a2.user), ?_⟩
      rcases a3 with ⟨a, b⟩ | ⟨a, b, c, d⟩
      · exact .inl ⟨a, b⟩
      · obtain ⟨e1, e2⟩ := a2.user.stay i hi hi5
        have e3 := (a2.keep i e1 (by rw [e2]; exact h5.uids i hi5)).2.1
        have hk1 : (s1.vars i).kind = .literal := by simpa [Var.isLiteral] using h7
        have hk2 : (s2.vars i).kind = .literal := by rw [body_kind e3]; exact hk1
        have ht : (s2.vars i).type = (s1.vars i).type := by
          simpa [Var.body] using congrArg Var.type e3
        have hl : (s2.vars i).literal = (s1.vars i).literal := by
          simpa [Var.body] using congrArg Var.literal e3
        refine .inr ⟨b, congrArg Key.size c, .inr (.inl ⟨congrArg Key.kind c, hk2, ?_, ?_⟩)⟩
        · rw [ht]; exact congrArg Key.type c
        · rw [ht, hl]; exact congrArg Key.literal c
    · rintro s2 ⟨rfl, _⟩
      exact ⟨U1, h5, r5⟩
  rw [if_neg h7, wp_bind]
  refine wp_mono (incRefV_spec h5 hi5 (R := fun _ => False)) ?_ (fun _ hf => hf.elim)
    (by rintro _ rfl; exact hT)
  rintro _ s2 ⟨a1, a2⟩
  have f2 : Frame (plus u s1.sideEffects) s1 U1 s2 U1 := by rw [a2]; exact Frame.setCounts
  refine wp_mono (varNew_spec (U := U1) (ext := plus u s1.sideEffects) (extSe := fun _ => 0)
    (R := fun _ => False) rfl rfl ?_) ?_ (fun _ hf => hf.elim) (by rintro _ rfl; exact hT)
  · have e : plus (plus u s1.sideEffects) [i, 0, 0, 0] = plus (plus u s1.sideEffects) [i] := by
      rw [plus4]; simp only [plus_zero1]
    change Inv s2 U1 (plus (plus u s1.sideEffects) [i, 0, 0, 0]) (plus _ []) []
    rw [e, plus_nil]; exact a1
  · rintro r s3 ⟨U3, b1, b2, b3, b4, _⟩
    have f3 := f2.trans b2
    obtain ⟨e1, e2⟩ := f3.user.stay i hi hi5
    have e3 := (f3.keep i e1 (by rw [e2]; exact h5.uids i hi5)).2.1
    have ht : (s3.vars i).type = (s1.vars i).type := by
      simpa [Var.body] using congrArg Var.type e3
    refine ⟨U3, IInv.of_frame b1 f3, hR.trans r5 (hR.ofFrame f3.user), .inr ⟨b3,
      congrArg Key.size b4, .inr (.inr ⟨congrArg Key.kind b4, congrArg Key.d0 b4, ?_⟩)⟩⟩
    rw [ht]; exact congrArg Key.type b4

end
end Verif.Var
