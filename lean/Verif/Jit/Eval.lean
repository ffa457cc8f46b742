import Verif.Jit.Collect
/-!
# Evaluation
-/
namespace Verif.Jit
open Verif.Var Verif.Ops Verif.Gather

variable {s s' s'' : Store} {U U' U'' : List Nat} {u ext extSe base : Nat → Nat}
  {data : Nat → BitVec 64} {R S : List Nat}

theorem inv_mem {P : List Nat} (h : Inv s U ext extSe P) (m : BitVec 64 → Nat → BitVec 64) :
    Inv { s with mem := m } U ext extSe P :=
  ⟨h.rep, h.ub, h.len, h.dead, h.deps, h.uids, h.rc, h.rcSe, h.pend, h.nodup, h.lvn, h.lvnKeys, h.bal⟩

theorem inv_queue {P : List Nat} (h : Inv s U ext extSe P) (l : List Nat) :
    Inv { s with sideEffects := l } U ext extSe P :=
  ⟨h.rep, h.ub, h.len, h.dead, h.deps, h.uids, h.rc, h.rcSe, h.pend, h.nodup, h.lvn, h.lvnKeys, h.bal⟩

theorem vrel_mem (m : BitVec 64 → Nat → BitVec 64) (h : VRel data R S base { s with mem := m } U s' U') :
    VRel data R S base s U s' U' :=
  ⟨h.vc, h.len, h.flags, h.size, h.keep, h.stay, h.cnt, h.gone⟩

theorem vrel_queue (l : List Nat) (h : VRel data R S base { s with sideEffects := l } U s' U') :
    VRel data R S base s U s' U' :=
  ⟨h.vc, h.len, h.flags, h.size, h.keep, h.stay, h.cnt, h.gone⟩

theorem vrel_none {data' : Nat → BitVec 64} (h : VRel data [] [] base s U s' U') :
    VRel data' R S base s U s' U' :=
  ⟨h.vc, h.len, h.flags, h.size, fun k hk => ⟨(h.keep k hk).1, .inl (h.keep k hk).2.none⟩, h.stay, h.cnt, h.gone⟩

/-- An evaluation that launched kernels. -/
def Ran (E : Env) (u : Nat → Nat) (roots se : List Nat) (sched : List Eval.SV)
    (s : Store) (U : List Nat) (L : List Nat) (s' : Store) : Prop :=
  ∃ s2 U2 out data mem, out.Perm sched ∧
    Inv s2 U2 (plus (plus u se) (out.map Eval.SV.index)) (fun _ => 0) [] ∧
    VRel (fun _ => 0#64) [] [] u s U s2 U2 ∧ Same s s2 ∧
    (∀ x ∈ out, Alive s2 U2 x.index) ∧
    E.launch s2 out roots = .ok data mem ∧
    CleanPost data out roots se se u { s2 with mem := mem } U2 L s'

/-- The outcome of a failed evaluation. -/
def Failed (u : Nat → Nat) (s : Store) (U : List Nat) (s' : Store) : Prop :=
  ∃ U', Inv s' U' u (fun _ => 0) [] ∧ VRel (fun _ => 0#64) [] [] u s U s' U' ∧
    s'.sideEffects = s.sideEffects

theorem plus_perm {l m : List Nat} (h : l.Perm m) : plus u l = plus u m := by
  funext k
  unfold plus
  rw [h.count_eq]

theorem runKernels_spec {E : Env} (hE : EnvOK E) {roots se : List Nat} {sched : List Eval.SV}
    (h : Inv s U (plus (plus u se) roots) (fun _ => 0) []) (hp : Planned s U roots se sched)
    (hn : ∀ i ∈ roots, (s.vars i).kind ≠ .evaluated) :
    wp (runKernels E sched roots se) s (fun L s' =>
        (sched = [] ∧ L = se ∧ ∃ U', Inv s' U' (plus u se) (fun _ => 0) [] ∧
          VRel (fun _ => 0#64) [] [] u s U s' U' ∧ Same s s') ∨
        (sched ≠ [] ∧ Ran E u roots se sched s U L s'))
      (Failed u s U) (fun r => r = .limit ∨ r = .unmodelled) := by
  unfold runKernels
  rw [wp_bind]
  refine wp_mono (incRefs_v (data := fun _ => 0#64) (R := []) (S := []) (sched.map Eval.SV.index) h (by
    intro i hi
    obtain ⟨x, hx, rfl⟩ := List.mem_map.1 hi
    exact hp.alive x hx) (Rr := fun _ => False)) ?_ (fun _ e => e.elim) (fun _ e => .inl e)
  rintro _ s1 ⟨a1, a2, a3, a4⟩
  rw [wp_bind]
  have a1' : Inv s1 U (plus (plus (plus u se) (sched.map Eval.SV.index)) roots) (fun _ => 0) [] := by
    rw [plus_comm]; exact a1
  refine wp_mono (decRefs_v (data := fun _ => 0#64) (R := []) (S := []) roots a1' (Rr := fun _ => False)
    (T := fun _ => False)) ?_ (fun _ e => e.elim) (fun _ e => e.elim)
  rintro _ s2 ⟨U2, b1, b2, b3⟩
  have v2 : VRel (fun _ => 0#64) [] [] u s U s2 U2 :=
    (a2.mono (fun _ hk => plus_pos_left (plus_pos_left hk)) (fun _ => id) (fun _ => id)).trans
      (b2.mono (fun _ hk => plus_pos_left (plus_pos_left hk)) (fun _ => id) (fun _ => id))
  have e2 := a3.trans b3
  rw [wp_ite]
  by_cases h0 : sched = []
  · rw [if_pos h0, wp_pure]
    subst h0
    rw [List.map_nil, plus_nil] at b1
    exact .inl ⟨rfl, rfl, U2, b1, v2, e2⟩
  rw [if_neg h0, wp_ite]
  by_cases h1 : sched.length ≥ 2 ^ 32
  · rw [if_pos h1, wp_stop]; exact .inl rfl
  rw [if_neg h1]
  obtain ⟨out, ho, hs⟩ := Eval.C20_sorted _ _ hE.std hE.stable sched (by omega)
  rw [ho]
  dsimp only
  rw [wp_bind, wp_getStore]
  have hperm : out.Perm sched := hs.perm
  have b1' : Inv s2 U2 (plus (plus u se) (out.map Eval.SV.index)) (fun _ => 0) [] := by
    rw [plus_perm (hperm.map _)]; exact b1
  have hal : ∀ x ∈ out, Alive s2 U2 x.index := by
    intro x hx
    refine b1'.alive_of_ext ?_
    exact plus_apply_pos (hp.alive x (hperm.subset hx)).1 (List.mem_map.2 ⟨x, hx, rfl⟩)
  cases hl : E.launch s2 out roots with
  | failed mem =>
    dsimp only
    rw [wp_bind, wp_modifyStore, wp_bind]
    refine wp_mono (decRefs_v (data := fun _ => 0#64) (R := []) (S := []) _ (inv_mem b1' mem) (Rr := fun _ => False)
      (T := fun _ => False)) ?_ (fun _ e => e.elim) (fun _ e => e.elim)
    rintro _ s3 ⟨U3, c1, c2, c3⟩
    rw [wp_bind]
    refine wp_mono (dropSe_spec (data := fun _ => 0#64) se c1 (Rr := fun _ => False)) ?_ (fun _ e => e.elim)
      (fun _ e => .inr e)
    rintro _ s4 ⟨U4, d1, d2, d3⟩
    rw [wp_raise]
    exact ⟨U4, d1, v2.trans ((vrel_mem mem c2).mono (fun _ => plus_pos_left) (fun _ => id) (fun _ => id)
      |>.trans d2), by rw [d3.2, c3.2]; exact e2.2⟩
  | ok data mem =>
    dsimp only
    rw [wp_bind, wp_modifyStore]
    refine wp_mono (cleanup_spec (u := u) (data := data) out (inv_mem b1' mem) (fun x hx => (hal x hx).1) ?_
      (fun _ hi => hi)) ?_ (fun _ e => e.elim) (fun _ e => .inr e)
    · intro i hi ha
      have hk := (v2.keeps i ha).2
      change (s2.vars i).kind ≠ _
      rw [body_kind hk]
      exact hn i hi
    · intro L s' hc
      exact .inr ⟨h0, s2, U2, out, data, mem, hperm, b1', v2, e2, hal, hl, hc⟩

/-- What a successful evaluation does. `s1` is the state in which the operations are planned. -/
def Done (E : Env) (scheduled : List (Nat × Nat)) (u : Nat → Nat) (s : Store) (U : List Nat)
    (L : List Nat) (s' : Store) : Prop :=
  ∃ s1 U1 roots se sched,
    Inv s1 U1 (plus (plus u se) roots) (fun _ => 0) [] ∧ VRel (fun _ => 0#64) [] [] u s U s1 U1 ∧
    s1.mem = s.mem ∧ s1.sideEffects = [] ∧ Planned s1 U1 roots se sched ∧ se.Sublist s.sideEffects ∧
    (∀ i ∈ roots, Alive s U i ∧ Alive s1 U1 i ∧ (s1.vars i).isNode = true ∧
      ∃ c, (i, c) ∈ scheduled ∧ Wanted s i c) ∧
    (∀ i c, (i, c) ∈ scheduled → Wanted s i c → i ∈ roots) ∧
    (∀ i ∈ se, Alive s1 U1 i ∧ (s1.vars i).isNode = true) ∧
    ((sched = [] ∧ L = se ∧ ∃ U', Inv s' U' (plus u se) (fun _ => 0) [] ∧
          VRel (fun _ => 0#64) [] [] u s1 U1 s' U' ∧ Same s1 s') ∨
        (sched ≠ [] ∧ Ran E u roots se sched s1 U1 L s'))

theorem isNode_kind {v : Var} (h : v.isNode = true) : v.kind ≠ .evaluated := by
  intro e
  simp [Var.isNode, e] at h

/-- `jitc_eval_impl()` never crashes or runs forever; if it raises an exception, then no references
were lost, and no side effect is pending any more. -/
theorem evalImpl_spec {E : Env} (hE : EnvOK E) {scheduled : List (Nat × Nat)} (h : IInv s U u) :
    wp (evalImpl E scheduled) s (Done E scheduled u s U)
      (fun s' => ∃ U', Inv s' U' u (fun _ => 0) [] ∧ VRel (fun _ => 0#64) [] [] u s U s' U' ∧
        s'.sideEffects = []) (fun r => r = .limit ∨ r = .unmodelled) := by
  unfold evalImpl
  rw [wp_bind, wp_getStore, wp_ite]
  by_cases hw : wellFormed s = false
  · rw [if_pos hw, wp_stop]; exact .inr rfl
  rw [if_neg hw, wp_bind]
  have hwf := wf_of h hw
  refine wp_mono (collectRoots_spec (data := fun _ => 0#64) scheduled h) ?_ (fun _ e => e.elim) (fun _ e => e)
  rintro roots s1 ⟨a1, a2, a3, a4, a5, a6⟩
  rw [wp_bind, wp_getStore, wp_bind, wp_modifyStore, wp_bind]
  have i1 : Inv { s1 with sideEffects := [] } U (plus (plus u roots) s1.sideEffects) (fun _ => 0) [] := by
    refine inv_queue ?_ []
    rw [plus_comm, a3.2]; exact a1
  have w1 : WF { s1 with sideEffects := [] } U :=
    hwf.keep i1 (fun k hk => a2.keeps k hk)
  refine wp_mono (collectSe_spec (data := fun _ => 0#64) s1.sideEffects i1 (by
    rw [a3.2]; exact wf_se hw) w1) ?_ (fun _ e => e.elim) (fun _ e => .inr e)
  rintro se s2 ⟨U2, b1, b2, b3, b4, b5⟩
  rw [wp_bind, wp_getStore]
  have v2 : VRel (fun _ => 0#64) [] [] u s U s2 U2 :=
    (a2.mono (fun _ hk => plus_pos_left hk) (fun _ => id) (fun _ => id)).trans
      ((vrel_queue [] b2).mono (fun _ hk => plus_pos_left hk) (fun _ => id) (fun _ => id))
  have m2 : s2.mem = s.mem := b3.1.trans a3.1
  have q2 : s2.sideEffects = [] := b3.2
  have hr : ∀ i ∈ roots, Alive s2 U2 i ∧ (s2.vars i).isNode = true := by
    intro i hi
    have al : Alive s2 U2 i := b1.alive_of_ext (plus_pos_left (plus_apply_pos (a5 i hi).1.1 hi))
    exact ⟨al, by rw [isNode_body (v2.keeps i al).2]; exact (a5 i hi).2.1⟩
  have i2 : Inv s2 U2 (plus (plus u se) roots) (fun _ => 0) [] := by rw [plus_comm]; exact b1
  have hplan := plan_spec (s := s2) (U := U2) hE b1 (roots := roots) (se := se) (by
    intro i hi
    rcases List.mem_append.1 hi with hi | hi
    · exact (hr i hi).1
    · exact (b5 i hi).1)
  change wp (match Eval.runTasks (nodeOf s2) (fun t => (s2.vars t).refCount) (2 * s2.len + 1)
    (E.taskSort (tasksOf s2 roots se)) ⟨E.gen, [], []⟩ with
    | .error .raise => do
      decRefs roots
      dropSe se
      raise
    | .error _ => abort
    | .ok t => runKernels E t.sched roots se) s2 _ _ _
  cases hres : Eval.runTasks (nodeOf s2) (fun t => (s2.vars t).refCount) (2 * s2.len + 1)
    (E.taskSort (tasksOf s2 roots se)) ⟨E.gen, [], []⟩ with
  | error e =>
    rw [hres] at hplan
    cases e with
    | raise =>
      dsimp only
      rw [wp_bind]
      refine wp_mono (decRefs_v (data := fun _ => 0#64) (R := []) (S := []) roots i2 (Rr := fun _ => False)
        (T := fun _ => False)) ?_ (fun _ e => e.elim) (fun _ e => e.elim)
      rintro _ s3 ⟨U3, c1, c2, c3⟩
      rw [wp_bind]
      refine wp_mono (dropSe_spec (data := fun _ => 0#64) se c1 (Rr := fun _ => False)) ?_ (fun _ e => e.elim)
        (fun _ e => .inr e)
      rintro _ s4 ⟨U4, d1, d2, d3⟩
      rw [wp_raise]
      exact ⟨U4, d1, v2.trans ((c2.mono (fun _ => plus_pos_left) (fun _ => id) (fun _ => id)).trans d2),
        by rw [d3.2, c3.2]; exact q2⟩
    | fail => exact hplan.elim
    | fuel => exact hplan.elim
  | ok t =>
    rw [hres] at hplan
    dsimp only at hplan ⊢
    refine wp_mono (runKernels_spec hE i2 hplan (fun i hi => isNode_kind (hr i hi).2)) ?_ ?_ (fun _ e => e)
    · intro L s' hL
      refine ⟨s2, U2, roots, se, t.sched, i2, v2, m2, q2, hplan, by rw [← a3.2]; exact b4, ?_, a6, ?_, hL⟩
      · intro i hi
        obtain ⟨c1, c2, c3⟩ := a5 i hi
        exact ⟨c1, (hr i hi).1, (hr i hi).2, c3⟩
      · intro i hi
        exact ⟨(b5 i hi).1, (b5 i hi).2.1⟩
    · rintro s' ⟨U', c1, c2, c3⟩
      exact ⟨U', c1, v2.trans c2, by rw [c3]; exact q2⟩

/-! ## What it does to the variables -/

/-- The overall effect on the variable table. -/
theorem Done.vrel {E : Env} {scheduled : List (Nat × Nat)} {L : List Nat}
    (h : Done E scheduled u s U L s') : ∃ roots se data U', Inv s' U' (plus u L) (fun _ => 0) [] ∧
      VRel data roots se u s U s' U' ∧ s'.sideEffects = [] ∧ (∀ i ∈ L, i ∈ se) ∧
      se.Sublist s.sideEffects ∧
      (∀ i ∈ roots, Alive s U i ∧ (s.vars i).isNode = true ∧ ∃ c, (i, c) ∈ scheduled ∧ Wanted s i c) ∧
      (∀ i c, (i, c) ∈ scheduled → Wanted s i c → i ∈ roots) ∧
      ∀ i ∈ roots, Alive s' U' i →
        (s'.vars i).body = ((s.vars i).stored (data i)).body ∨ (s.vars i).kind = scatterKind := by
  obtain ⟨s1, U1, roots, se, sched, i1, v1, m1, q1, hp, hsub, hr, hc, hse, hfin⟩ := h
  have hroots : ∀ i ∈ roots, Alive s U i ∧ (s.vars i).isNode = true ∧ ∃ c, (i, c) ∈ scheduled ∧ Wanted s i c := by
    intro i hi
    obtain ⟨a1, a2, a3, a4⟩ := hr i hi
    exact ⟨a1, by rw [← isNode_body (v1.keeps i a2).2]; exact a3, a4⟩
  rcases hfin with ⟨h0, rfl, U', i2, v2, e2⟩ | ⟨_, s2, U2, out, data, mem, hperm, i2, v2, e2, hal, _, hcp⟩
  · refine ⟨roots, L, fun _ => 0#64, U', i2, vrel_none (v1.trans v2), e2.2.trans q1, fun _ => id, hsub,
      hroots, hc, ?_⟩
    intro i hi ha
    rcases hp.root i (List.mem_append_left _ hi) with ⟨x, hx, _⟩ | ⟨hk, _⟩
    · rw [h0] at hx; cases hx
    · right
      rw [← body_kind (v1.keeps i (hr i hi).2.1).2]
      exact hk
  · obtain ⟨U', c1, c2, c3, c4, c5⟩ := hcp
    have v3 : VRel data roots se u s U s' U' :=
      (vrel_none v1).trans ((vrel_none v2).trans (vrel_mem mem c2))
    refine ⟨roots, se, data, U', c1, v3, c3.2.trans (e2.2.trans q1), ?_, hsub, hroots, hc, ?_⟩
    · intro i hi
      have h1 := c5 i
      have h2 : 0 < L.count i := List.count_pos_iff.2 hi
      exact List.count_pos_iff.1 (by omega)
    · intro i hi ha
      have al2 : Alive s2 U2 i := (c2.keep i ha).1
      have b2 := (v2.keeps i al2).2
      have b1 := (v1.keeps i (hr i hi).2.1).2
      rcases hp.root i (List.mem_append_left _ hi) with ⟨x, hx, rfl, hz⟩ | ⟨hk, _⟩
      · left
        rw [c4 x (hperm.symm.subset hx) hi ((v2.size _).trans hz.symm) ha]
        change ((s2.vars x.index).stored _).body = _
        rw [stored_body, stored_body, b2, b1]
      · right
        rw [← body_kind b1]
        exact hk

theorem VRel.track (h : VRel data R S base s U s' U') : Track base s U s' U' where
  vc := le_of_eq h.vc.symm
  len := le_of_eq h.len.symm
  keep := by
    intro i hi _
    obtain ⟨a, b⟩ := h.keep i hi
    obtain ⟨f1, f2, f3, f4, _⟩ := b.fields
    exact ⟨a, f1, f2, f3, f4⟩
  stay := by
    intro i hb hi
    have a := h.stay i hb hi
    exact ⟨a, ((h.keep i a).2.fields).1⟩
  cnt := h.cnt
  gone := by
    intro i hi
    rcases h.gone i hi with a | a
    · exact .inl ⟨a, ((h.keep i a).2.fields).1⟩
    · exact .inr a

/-- Evaluation meets the contract that histories assume. -/
theorem evalJit_ok {E : Env} (hE : EnvOK E) (scheduled : List (Nat × Nat)) : EvOK (evalJit E scheduled) := by
  intro s U u h
  unfold evalJit
  rw [wp_bind]
  refine wp_mono (evalImpl_spec hE h) ?_ ?_ ?_
  · intro L s' hd
    obtain ⟨roots, se, data, U', a1, a2, a3, _⟩ := hd.vrel
    rw [wp_ite]
    by_cases hL : L = []
    · rw [if_pos hL, wp_pure]
      refine ⟨U', ?_, a2.track⟩
      unfold IInv
      rw [a3, plus_nil]
      rw [hL, plus_nil] at a1
      exact a1
    · rw [if_neg hL, wp_stop]
      exact (by decide)
  · rintro s' ⟨U', a1, a2, a3⟩
    refine ⟨U', ?_, a2.track⟩
    unfold IInv
    rw [a3, plus_nil]
    exact a1
  · intro r hr
    rcases hr with rfl | rfl <;> decide

end Verif.Jit
