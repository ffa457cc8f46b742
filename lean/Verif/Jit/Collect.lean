import Verif.Jit.Cleanup
import Verif.Jit.NoFail
import Verif.Jit.Spec
/-!
# Collection of tasks and traversal
-/
namespace Verif.Jit
open Verif.Var Verif.Ops Verif.Gather

variable {s s' s'' : Store} {U U' U'' : List Nat} {u ext extSe base : Nat → Nat}
  {data : Nat → BitVec 64} {R S : List Nat}

theorem inUse_iff (h : Inv s U ext extSe []) {i : Nat} : inUse s i = true ↔ Alive s U i := by
  unfold inUse
  constructor
  · intro hi
    simp only [Bool.not_eq_true', Bool.or_eq_false_iff, decide_eq_false_iff_not,
      Bool.and_eq_false_iff] at hi
    by_contra hn
    obtain ⟨a, b, _⟩ := h.dead i hn
    omega
  · intro hi
    have h1 := hi.1
    have h2 := hi.2.1
    have h3 := h.counts_pos hi
    simp only [Bool.not_eq_true', Bool.or_eq_false_iff, decide_eq_false_iff_not,
      Bool.and_eq_false_iff]
    omega

/-- Scatters have a pointer operand, which has a target. -/
def WF (s : Store) (U : List Nat) : Prop :=
  ∀ i, Alive s U i → (s.vars i).kind = scatterKind →
    (s.vars i).writePtr = false ∧ (s.vars i).d0 ≠ 0 ∧ (s.vars (s.vars i).d0).d3 ≠ 0

theorem wf_of (h : Inv s U ext extSe []) (hw : wellFormed s ≠ false) : WF s U := by
  intro i hi hk
  have hw' : wellFormed s = true := by simpa using hw
  unfold wellFormed at hw'
  rw [Bool.and_eq_true] at hw'
  have := List.all_eq_true.1 hw'.2 i (List.mem_range.2 hi.2.1)
  rw [(inUse_iff h).2 hi, decide_eq_true hk] at this
  simp only [Bool.not_true, Bool.or_false, Bool.false_or, Bool.and_eq_true,
    Bool.not_eq_true', decide_eq_true_eq] at this
  exact ⟨this.1.1, this.1.2, this.2⟩

theorem wf_se (hw : wellFormed s ≠ false) : ∀ i ∈ s.sideEffects, i ≠ 0 := by
  have hw' : wellFormed s = true := by simpa using hw
  unfold wellFormed at hw'
  rw [Bool.and_eq_true] at hw'
  intro i hi
  exact of_decide_eq_true (List.all_eq_true.1 hw'.1 i hi)

/-- Unchanged variables. -/
def Keep (s : Store) (U : List Nat) (s' : Store) (U' : List Nat) : Prop :=
  ∀ k, Alive s' U' k → Alive s U k ∧ (s'.vars k).body = (s.vars k).body

theorem VRel.keeps (h : VRel data [] [] base s U s' U') : Keep s U s' U' :=
  fun k hk => ⟨(h.keep k hk).1, (h.keep k hk).2.none⟩

theorem WF.keep (h : WF s U) {ext' : Nat → Nat} (h' : Inv s' U' ext' extSe []) (hk : Keep s U s' U') :
    WF s' U' := by
  intro i hi hki
  obtain ⟨a, b⟩ := hk i hi
  obtain ⟨e1, _, _, e4, _, _, _, e8⟩ := body_fields b
  obtain ⟨c1, c2, c3⟩ := h i a (by rw [← e1]; exact hki)
  refine ⟨by rw [e8]; exact c1, by rw [e4]; exact c2, ?_⟩
  have hd := h'.deps i hi (s'.vars i).d0 (by
    refine List.mem_append_left _ ?_
    rw [body_refs b]
    rw [e4]
    simp [Var.refs, c1]) (by rw [e4]; exact c2)
  obtain ⟨_, b2⟩ := hk _ hd.1
  rw [(body_fields b2).2.2.2.2.2.2.1, e4]
  exact c3

theorem mem_deps3 {v : Var} : v.d3 ∈ v.refs ++ v.refsSe := by
  unfold Var.refs Var.refsSe
  cases v.writePtr <;> simp

/-- The target of a scatter is in use. -/
theorem WF.target (h : WF s U) (hi : Inv s U ext extSe []) {i : Nat} (ha : Alive s U i)
    (hk : (s.vars i).kind = scatterKind) :
    Alive s U (s.vars i).d0 ∧ Alive s U (s.vars (s.vars i).d0).d3 := by
  obtain ⟨c1, c2, c3⟩ := h i ha hk
  have a1 := (hi.deps i ha (s.vars i).d0 (by
    refine List.mem_append_left _ ?_
    simp [Var.refs, c1]) c2).1
  exact ⟨a1, (hi.deps _ a1 _ mem_deps3 c3).1⟩

/-! ## Roots -/

theorem isNode_body {v w : Var} (h : v.body = w.body) : v.isNode = w.isNode := by
  unfold Var.isNode; rw [body_kind h]

theorem plus_app (l m : List Nat) : plus ext (l ++ m) = plus (plus ext l) m := plus_append l m

theorem plus_cons' (d : Nat) (l : List Nat) : plus ext (d :: l) = plus (plus ext [d]) l := by
  rw [plus_cons, plus_comm]

theorem collectRoots_spec : ∀ (l : List (Nat × Nat)) {s : Store} {ext : Nat → Nat},
    Inv s U ext (fun _ => 0) [] →
    wp (collectRoots l) s (fun r s' => Inv s' U (plus ext r) (fun _ => 0) [] ∧
      VRel data [] [] ext s U s' U ∧ Same s s' ∧ (∀ k, (s'.vars k).body = (s.vars k).body) ∧
      (∀ i ∈ r, Alive s U i ∧ (s.vars i).isNode = true ∧ ∃ c, (i, c) ∈ l ∧ Wanted s i c) ∧
      ∀ i c, (i, c) ∈ l → Wanted s i c → i ∈ r)
      (fun _ => False) (fun r => r = .limit ∨ r = .unmodelled)
  | [], s, ext, h => by
    unfold collectRoots
    rw [wp_pure, plus_nil]
    exact ⟨h, VRel.refl, Same.refl, fun _ => rfl, by simp, by simp⟩
  | (i, c) :: l, s, ext, h => by
    have skip : ¬ Wanted s i c → wp (collectRoots l) s (fun r s' => Inv s' U (plus ext r) (fun _ => 0) [] ∧
        VRel data [] [] ext s U s' U ∧ Same s s' ∧ (∀ k, (s'.vars k).body = (s.vars k).body) ∧
        (∀ j ∈ r, Alive s U j ∧ (s.vars j).isNode = true ∧ ∃ c', (j, c') ∈ (i, c) :: l ∧ Wanted s j c') ∧
        ∀ j c', (j, c') ∈ (i, c) :: l → Wanted s j c' → j ∈ r)
        (fun _ => False) (fun r => r = .limit ∨ r = .unmodelled) := by
      intro hn
      refine wp_post (collectRoots_spec l h) ?_
      rintro r s' ⟨a1, a2, a3, a4, a5, a6⟩
      refine ⟨a1, a2, a3, a4, ?_, ?_⟩
      · intro j hj
        obtain ⟨b1, b2, c', b3, b4⟩ := a5 j hj
        exact ⟨b1, b2, c', List.mem_cons_of_mem _ b3, b4⟩
      · intro j c' hm hw
        rcases List.mem_cons.1 hm with e | hm
        · cases e; exact absurd hw hn
        · exact a6 j c' hm hw
    unfold collectRoots
    rw [wp_bind, wp_getStore, wp_ite]
    by_cases h1 : i ≥ s.len
    · rw [if_pos h1, wp_stop]; exact .inr rfl
    rw [if_neg h1, wp_bind]
    have hgw : getWeak i c s = if i = 0 ∨ (s.vars i).counter ≠ c then .ok none s else .ok (some (s.vars i)) s := by
      unfold getWeak; rw [if_neg h1]
    unfold wp
    rw [hgw]
    by_cases h2 : i = 0 ∨ (s.vars i).counter ≠ c
    · rw [if_pos h2]
      refine skip ?_
      rintro ⟨w1, w2, _⟩
      rcases h2 with h2 | h2
      · exact w1 h2
      · exact h2 w2
    rw [if_neg h2]
    dsimp only
    change wp (if (s.vars i).isEvaluated then collectRoots l else
      if !(s.vars i).isNode || !inUse s i then stop .unmodelled else do
          incRefV i
          let r ← collectRoots l
          pure (i :: r)) s _ _ _
    rw [wp_ite]
    by_cases h3 : (s.vars i).isEvaluated = true
    · rw [if_pos h3]
      refine skip ?_
      rintro ⟨_, _, w3⟩
      exact w3 (by simpa [Var.isEvaluated] using h3)
    rw [if_neg h3, wp_ite]
    by_cases h4 : (!(s.vars i).isNode || !inUse s i) = true
    · rw [if_pos h4, wp_stop]; exact .inr rfl
    rw [if_neg h4, wp_bind]
    simp only [Bool.or_eq_true, Bool.not_eq_true', not_or, Bool.not_eq_false] at h4
    have hi : Alive s U i := (inUse_iff h).1 h4.2
    have hwt : Wanted s i c := by
      refine ⟨fun e => h2 (.inl e), ?_, fun e => h3 (by simp [Var.isEvaluated, e])⟩
      by_contra hn; exact h2 (.inr hn)
    refine wp_mono (incRef_v (data := data) (R := []) (S := []) h hi (Rr := fun _ => False)) ?_
      (fun _ => id) (fun _ e => .inl e)
    rintro _ s1 ⟨a1, a2, a3, a4⟩
    rw [wp_bind]
    refine wp_post (collectRoots_spec l a1) ?_
    rintro r s2 ⟨b1, b2, b3, b4, b5, b6⟩
    rw [wp_pure]
    have hal : ∀ k, Alive s1 U k ↔ Alive s U k := by intro k; unfold Alive; rw [a2.len]
    have hww : ∀ j c', Wanted s1 j c' ↔ Wanted s j c' := by
      intro j c'
      unfold Wanted
      rw [body_counter (a4 j), body_kind (a4 j)]
    refine ⟨?_, a2.trans (b2.mono (fun _ => plus_pos_left) (fun _ => id) (fun _ => id)), a3.trans b3,
      fun k => (b4 k).trans (a4 k), ?_, ?_⟩
    · rw [plus_cons']; exact b1
    · intro j hj
      rcases List.mem_cons.1 hj with rfl | hj
      · exact ⟨hi, h4.1, c, by simp, hwt⟩
      · obtain ⟨d1, d2, c', d3, d4⟩ := b5 j hj
        exact ⟨(hal j).1 d1, by rw [← isNode_body (a4 j)]; exact d2, c', List.mem_cons_of_mem _ d3,
          (hww j c').1 d4⟩
    · intro j c' hm hw
      rcases List.mem_cons.1 hm with e | hm
      · cases e; simp
      · exact List.mem_cons_of_mem _ (b6 j c' hm ((hww j c').2 hw))

/-! ## Side effects -/

theorem dropSe_spec : ∀ (l : List Nat) {s : Store} {U : List Nat},
    Inv s U (plus ext l) extSe [] →
    ∀ {Rr : Store → Prop},
    wp (dropSe l) s (fun _ s' => ∃ U', Inv s' U' ext extSe [] ∧ VRel data [] [] ext s U s' U' ∧ Same s s')
      Rr (· = .unmodelled)
  | [], s, U, h, _ => by
    unfold dropSe
    rw [wp_pure]
    rw [plus_nil] at h
    exact ⟨U, h, VRel.refl, Same.refl⟩
  | i :: l, s, U, h, _ => by
    rw [plus_cons] at h
    unfold dropSe
    rw [wp_bind]
    refine wp_post (decRef_v (data := data) (R := []) (S := []) h) ?_
    rintro _ s1 ⟨U1, a1, a2, a3⟩
    rw [wp_bind, wp_getStore, wp_ite]
    by_cases hu : inUse s1 i = true
    · rw [if_pos hu, wp_stop]
    rw [if_neg hu]
    refine wp_post (dropSe_spec l a1) ?_
    rintro _ s2 ⟨U2, b1, b2, b3⟩
    exact ⟨U2, b1, (a2.mono (fun _ => plus_pos_left) (fun _ => id) (fun _ => id)).trans b2, a3.trans b3⟩

theorem elide_spec (h : Inv s U ext extSe []) (hw : WF s U) {i : Nat} (hi : Alive s U i)
    {Rr : Store → Prop} {T : Stop → Prop} :
    wp (elide i) s (fun b s' => s' = s ∧ (b = true ↔ (s.vars i).kind = scatterKind ∧
      (s.vars (s.vars (s.vars i).d0).d3).refCount = 0)) Rr T := by
  unfold elide
  rw [wp_bind, wp_getVar h hi, wp_ite]
  by_cases hk : (s.vars i).kind = scatterKind
  · obtain ⟨a1, a2⟩ := hw.target h hi hk
    rw [if_pos hk, wp_bind, wp_getVar h a1, wp_bind, wp_getVar h a2, wp_pure]
    exact ⟨rfl, by simp [hk]⟩
  · rw [if_neg hk, wp_pure]
    exact ⟨rfl, by simp [hk]⟩

theorem collectSe_spec : ∀ (l : List Nat) {s : Store} {U : List Nat} {u : Nat → Nat},
    Inv s U (plus u l) (fun _ => 0) [] → (∀ i ∈ l, i ≠ 0) → WF s U →
    wp (collectSe l) s (fun r s' => ∃ U', Inv s' U' (plus u r) (fun _ => 0) [] ∧
      VRel data [] [] u s U s' U' ∧ Same s s' ∧ r.Sublist l ∧
      (∀ i ∈ r, Alive s' U' i ∧ (s'.vars i).isNode = true ∧ (s'.vars i).writePtr = false))
      (fun _ => False) (· = .unmodelled)
  | [], s, U, u, h, _, _ => by
    unfold collectSe
    rw [wp_pure]
    exact ⟨U, h, VRel.refl, Same.refl, .refl _, by simp⟩
  | i :: l, s, U, u, h, h0, hw => by
    have h0' : ∀ j ∈ l, j ≠ 0 := fun j hj => h0 j (by simp [hj])
    have hi0 : i ≠ 0 := h0 i (by simp)
    have hi : Alive s U i := h.alive_of_ext (plus_apply_pos hi0 (by simp))
    unfold collectSe
    rw [wp_bind]
    refine wp_mono (elide_spec h hw hi (Rr := fun _ => False) (T := fun _ => False)) ?_ (fun _ => id)
      (fun _ e => e.elim)
    rintro b s0 ⟨rfl, hb⟩
    rw [wp_ite]
    by_cases hbt : b = true
    · rw [if_pos hbt, wp_bind]
      refine wp_post (dropSe_spec (data := data) (ext := plus u l) [i] (by rw [← plus_cons]; exact h)) ?_
      rintro _ s1 ⟨U1, a1, a2, a3⟩
      refine wp_post (collectSe_spec l a1 h0' (hw.keep a1 a2.keeps)) ?_
      rintro r s2 ⟨U2, b1, b2, b3, b4, b5⟩
      exact ⟨U2, b1, (a2.mono (fun _ => plus_pos_left) (fun _ => id) (fun _ => id)).trans b2, a3.trans b3,
        b4.cons _, b5⟩
    rw [if_neg hbt, wp_bind, wp_getVar h hi, wp_ite]
    by_cases hn : (!(s0.vars i).isNode || (s0.vars i).writePtr) = true
    · rw [if_pos hn, wp_stop]
    rw [if_neg hn, wp_bind]
    simp only [Bool.or_eq_true, Bool.not_eq_true', not_or, Bool.not_eq_false, Bool.not_eq_true] at hn
    refine wp_post (collectSe_spec l (u := plus u [i]) (by rw [← plus_cons']; exact h) h0' hw) ?_
    rintro r s2 ⟨U2, b1, b2, b3, b4, b5⟩
    rw [wp_pure]
    refine ⟨U2, by rw [plus_cons']; exact b1,
      b2.mono (fun _ => plus_pos_left) (fun _ => id) (fun _ => id), b3, b4.cons_cons _, ?_⟩
    intro j hj
    rcases List.mem_cons.1 hj with rfl | hj
    · have ha := b2.stay j (plus_apply_pos hi0 (by simp)) hi
      obtain ⟨_, e⟩ := b2.keeps j ha
      exact ⟨ha, by rw [isNode_body e]; exact hn.1, by rw [(body_fields e).2.2.2.2.2.2.2]; exact hn.2⟩
    · exact b5 j hj

/-! ## Traversal -/

theorem nodeOf_some (h : Inv s U ext extSe []) {i : Nat} (hi : Alive s U i) :
    nodeOf s i = some { kind := if (s.vars i).kind = scatterKind then
                          .scatter (s.vars (s.vars i).d0).d3 else .plain
                        dep := (s.vars i).refs, scope := (s.vars i).scope, size := (s.vars i).size
                        consumed := (s.vars i).consumed } := by
  unfold nodeOf
  rw [if_pos ((inUse_iff h).2 hi)]

theorem nodeOf_inv (h : Inv s U ext extSe []) {i : Nat} {nd : Eval.Node} (hn : nodeOf s i = some nd) :
    Alive s U i ∧ nd = { kind := if (s.vars i).kind = scatterKind then
                          .scatter (s.vars (s.vars i).d0).d3 else .plain
                         dep := (s.vars i).refs, scope := (s.vars i).scope, size := (s.vars i).size
                         consumed := (s.vars i).consumed } := by
  have hi : Alive s U i := by
    rw [← inUse_iff h]
    by_contra hc
    unfold nodeOf at hn
    rw [if_neg hc] at hn
    cases hn
  refine ⟨hi, ?_⟩
  rw [nodeOf_some h hi] at hn
  exact (Option.some.inj hn).symm

theorem nodeOf_kind (h : Inv s U ext extSe []) {i : Nat} {nd : Eval.Node} (hn : nodeOf s i = some nd) :
    nd.kind = .plain ∨ ∃ t, nd.kind = .scatter t := by
  rw [(nodeOf_inv h hn).2]
  dsimp only
  split
  · exact .inr ⟨_, rfl⟩
  · exact .inl rfl

theorem nodeOf_edges (h : Inv s U ext extSe []) {i d : Nat} {nd : Eval.Node} (hn : nodeOf s i = some nd) :
    Eval.edges nd d = ((s.vars i).refs.takeWhile (· ≠ 0)).map (Eval.Act.visit · d) := by
  have e := (nodeOf_inv h hn).2
  rcases nodeOf_kind h hn with hk | ⟨t, hk⟩
  · unfold Eval.edges
    rw [hk]
    unfold Eval.operands
    rw [e]
  · unfold Eval.edges
    rw [hk]
    unfold Eval.operands
    rw [e]

theorem nodeOf_closed (h : Inv s U ext extSe []) : Closed (nodeOf s) := by
  refine ⟨fun i nd hn => nodeOf_kind h hn, fun i nd hn k hk h0 => ?_⟩
  obtain ⟨a, e⟩ := nodeOf_inv h hn
  rw [e] at hk
  rw [nodeOf_some h (h.deps i a k (List.mem_append_left _ hk) h0).1]
  rfl

theorem takeWhile_ne {l : List Nat} {k : Nat} (h : k ∈ l.takeWhile (· ≠ 0)) : k ∈ l ∧ k ≠ 0 :=
  ⟨(List.takeWhile_sublist _).subset h,
    of_decide_eq_true (List.mem_takeWhile_imp (p := fun x : Nat => decide (x ≠ 0)) h)⟩

theorem nodeOf_acyclic (h : Inv s U ext extSe []) : Eval.Acyclic (nodeOf s) (fun i => (s.vars i).uid) := by
  intro i nd d k e hn hm
  rw [nodeOf_edges h hn] at hm
  obtain ⟨k', hk', e'⟩ := List.mem_map.1 hm
  cases e'
  obtain ⟨m, h0⟩ := takeWhile_ne hk'
  exact (h.deps i (nodeOf_inv h hn).1 k (List.mem_append_left _ m) h0).2

theorem nodeOf_len (i : Nat) (hi : s.len ≤ i) : nodeOf s i = none := by
  unfold nodeOf inUse
  rw [if_neg]
  simp [hi]

/-- The schedule of an evaluation. -/
structure Planned (s : Store) (U roots se : List Nat) (sched : List Eval.SV) : Prop where
  alive : ∀ x ∈ sched, Alive s U x.index
  root : ∀ i ∈ roots ++ se, (∃ x ∈ sched, x.index = i ∧ x.size = (s.vars i).size) ∨
    ((s.vars i).kind = scatterKind ∧ (s.vars (s.vars (s.vars i).d0).d3).refCount = 0)
  only : ∀ x ∈ sched, Visits s (roots ++ se) x.index

theorem less_size {a b : Eval.Task} (h : Eval.less b.key a.key = false) : b.size ≤ a.size := by
  have := Eval.not_less_key h
  omega

/-- The tasks of an evaluation. -/
def tasksOf (s : Store) (roots se : List Nat) : List Eval.Task :=
  roots.map (fun i => (⟨(s.vars i).size, i, false⟩ : Eval.Task)) ++
    se.map (fun i => (⟨(s.vars i).size, i, true⟩ : Eval.Task))

theorem mem_tasksOf {roots se : List Nat} {t : Eval.Task} (h : t ∈ tasksOf s roots se) :
    t.index ∈ roots ++ se ∧ t.size = (s.vars t.index).size := by
  rcases List.mem_append.1 h with h | h
  · obtain ⟨i, hi, rfl⟩ := List.mem_map.1 h
    exact ⟨List.mem_append_left _ hi, rfl⟩
  · obtain ⟨i, hi, rfl⟩ := List.mem_map.1 h
    exact ⟨List.mem_append_right _ hi, rfl⟩

theorem tasksOf_mem {roots se : List Nat} {i : Nat} (h : i ∈ roots ++ se) :
    ∃ t ∈ tasksOf s roots se, t.index = i ∧ t.size = (s.vars i).size := by
  rcases List.mem_append.1 h with h | h
  · exact ⟨_, List.mem_append_left _ (List.mem_map.2 ⟨i, h, rfl⟩), rfl, rfl⟩
  · exact ⟨_, List.mem_append_right _ (List.mem_map.2 ⟨i, h, rfl⟩), rfl, rfl⟩

theorem visits_of_reach (h : Inv s U ext extSe []) {cut : Nat → Prop} {roots roots' : List Nat}
    (hr : ∀ i ∈ roots, i ∈ roots') {i d : Nat} (hv : Eval.Reach (nodeOf s) cut roots i d) :
    Visits s roots' i := by
  induction hv with
  | root hi => exact .root (hr _ hi)
  | @edge i d nd a _ hn _ ha ih =>
    rw [nodeOf_edges h hn] at ha
    obtain ⟨k, hk, rfl⟩ := List.mem_map.1 ha
    exact .dep ih hk

/-- Traversals neither fail nor run forever, and yield a schedule of what is needed. -/
theorem plan_spec {E : Env} (hE : EnvOK E) (h : Inv s U ext extSe []) {roots se : List Nat}
    (ha : ∀ i ∈ roots ++ se, Alive s U i) :
    match Eval.runTasks (nodeOf s) (fun t => (s.vars t).refCount) (2 * s.len + 1)
      (E.taskSort (tasksOf s roots se)) ⟨E.gen, [], []⟩ with
    | .error .raise => True
    | .error _ => False
    | .ok t => Planned s U roots se t.sched := by
  have hperm := hE.task.perm (tasksOf s roots se)
  have hsorted := hE.task.sorted (tasksOf s roots se)
  generalize E.taskSort (tasksOf s roots se) = ts at hperm hsorted
  have hsome : ∀ t ∈ ts, (nodeOf s t.index).isSome := by
    intro t ht
    rw [nodeOf_some h (ha _ (mem_tasksOf (hperm.subset ht)).1)]; rfl
  have h1 := Eval.runTasks_terminates (refs := fun t => (s.vars t).refCount) (nodeOf_acyclic h)
    (N := s.len) (fun i hi => nodeOf_len i hi) (fuel := 2 * s.len + 1) (by omega) _ ts (le_refl _) _ hE.idle
  have h2 := runTasks_safe (refs := fun t => (s.vars t).refCount) (nodeOf_closed h) (2 * s.len + 1) _ ts
    (le_refl _) ⟨E.gen, [], []⟩ rfl hsome
  cases hr : Eval.runTasks (nodeOf s) (fun t => (s.vars t).refCount) (2 * s.len + 1) ts ⟨E.gen, [], []⟩ with
  | error e =>
    cases e with
    | raise => exact True.intro
    | fail => exact absurd hr h2
    | fuel => exact absurd hr h1
  | ok t =>
    dsimp only
    obtain ⟨S, e1, hg, _⟩ := Eval.runTasks_spec (nodeOf_acyclic h) _ ts (le_refl _)
      (hsorted.imp (fun hab => less_size hab)) _ t hE.idle hr
    rw [List.nil_append] at e1
    rw [e1]
    have hgi : ∀ x ∈ S, x ∈ S.filter fun y => decide (y.size = x.size) :=
      fun x hx => List.mem_filter.2 ⟨hx, by simp⟩
    refine ⟨?_, ?_, ?_⟩
    · intro x hx
      obtain ⟨_, nd, hn, _⟩ := (hg x.size).entries x (hgi x hx)
      exact (nodeOf_inv h hn).1
    · intro i hi
      obtain ⟨t', ht', rfl, hz⟩ := tasksOf_mem (s := s) hi
      have hmem : t' ∈ ts := hperm.symm.subset ht'
      have := (hg t'.size).complete (by
        intro j nd hn hk
        rcases nodeOf_kind h hn with hk' | ⟨q, hk'⟩ <;> rw [hk'] at hk <;> cases hk)
        t'.index (.root (List.mem_map.2 ⟨t', List.mem_filter.2 ⟨hmem, by simp⟩, rfl⟩))
      rcases this with hm | ⟨nd, q, hn, hk, hq⟩
      · obtain ⟨x, hx, ex⟩ := List.mem_map.1 hm
        obtain ⟨hx1, hx2⟩ := List.mem_filter.1 hx
        exact .inl ⟨x, hx1, ex, (of_decide_eq_true hx2).trans hz⟩
      · obtain ⟨a1, rfl⟩ := nodeOf_inv h hn
        right
        dsimp only at hk
        split at hk
        · rename_i hs
          cases hk
          exact ⟨hs, hq⟩
        · cases hk
    · intro x hx
      refine visits_of_reach h ?_ ((hg x.size).minimal x (hgi x hx))
      intro i hi
      obtain ⟨t', ht', rfl⟩ := List.mem_map.1 hi
      exact (mem_tasksOf (hperm.subset (List.mem_filter.1 ht').1)).1

end Verif.Jit
