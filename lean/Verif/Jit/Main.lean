import Verif.Jit.Value
/-!
# Contract of kernel launches, and values after an evaluation
-/
namespace Verif.Jit
open Verif.Var Verif.Ops Verif.Gather

variable {s s' s'' : Store} {U U' U'' : List Nat} {u ext extSe base : Nat → Nat}
  {data : Nat → BitVec 64} {R S : List Nat}

theorem live_iff_inUse {i : Nat} : Live s i ↔ inUse s i = true := by
  unfold Live getVar inUse
  by_cases h : i = 0 ∨ i ≥ s.len ∨ ((s.vars i).refCount = 0 ∧ (s.vars i).refCountSe = 0)
  · rw [if_pos h]
    constructor
    · intro e; cases e
    · intro e
      simp at e
      omega
  · rw [if_neg h]
    constructor
    · intro _
      simp
      omega
    · intro _; rfl

theorem live_alive (h : Inv s U ext extSe []) {i : Nat} : Live s i ↔ Alive s U i :=
  live_iff_inUse.trans (inUse_iff h)

/-- Side effects of variables are unchanged or dropped. -/
theorem se_vrel (h : Inv s U ext (fun _ => 0) []) {ext' : Nat → Nat}
    (h' : Inv s' U' ext' (fun _ => 0) []) (hv : VRel data R S base s U s' U') {i : Nat}
    (hi : 0 < (s'.vars i).refCountSe) : 0 < (s.vars i).refCountSe ∧ Alive s U i ∧ Alive s' U' i := by
  obtain ⟨ha, j, hj, hm⟩ := se_src h' hi
  have a1 := (hv.keep i ha).1
  obtain ⟨b1, b2⟩ := hv.keep j hj
  have hm2 : i ∈ (s.vars j).refsSe := by
    have hi0 := ha.1
    have hbz : ∀ v : Var, i ∈ v.bare.refsSe → False := by
      intro v hm
      revert hm
      unfold Var.refsSe Var.bare
      cases v.writePtr <;> simp [hi0]
    rcases b2 with b | ⟨_, b⟩ | ⟨_, b⟩
    · rw [← body_refsSe b]; exact hm
    · rw [body_refsSe b] at hm; exact (hbz _ hm).elim
    · rw [body_refsSe b] at hm; exact (hbz (s.vars j) hm).elim
  have h1 := refSumSe_pos b1 hm2
  have h2 := h.rcSe i a1
  exact ⟨by omega, a1, ha⟩

theorem wok_vrel (h : Inv s U ext (fun _ => 0) []) {ext' : Nat → Nat}
    (h' : Inv s' U' ext' (fun _ => 0) []) (hv : VRel data R S base s U s' U') (hw : WOK s) : WOK s' := by
  intro i hi
  obtain ⟨a, b, c⟩ := se_vrel h h' hv hi
  exact ((hv.keep i c).2.fields).2.2.2.2.2 (hw i a)

theorem clean_vrel (h : Inv s U ext (fun _ => 0) []) {ext' : Nat → Nat}
    (h' : Inv s' U' ext' (fun _ => 0) []) (hv : VRel data R S base s U s' U') {i : Nat}
    (hd : (s.vars i).isDirty = false) : (s'.vars i).isDirty = false := by
  unfold Var.isDirty at hd ⊢
  by_contra hn
  simp only [gt_iff_lt, decide_eq_false_iff_not, not_not] at hn hd
  exact hd (se_vrel h h' hv hn).1

theorem reads_alive (h : Inv s U ext extSe []) {k j : Nat} (hk : Alive s U k) (hr : Reads s k j) :
    Alive s U j := by
  induction hr with
  | root => exact hk
  | @dep j d _ _ b c ih => exact (h.deps j ih d (List.mem_append_left _ b) c).1

theorem visits_back (h' : Inv s' U' ext extSe []) (hv : VRel data [] [] base s U s' U') {roots : List Nat}
    (hr : ∀ i ∈ roots, Alive s' U' i) {i : Nat} (h : Visits s' roots i) :
    Visits s roots i ∧ Alive s' U' i := by
  induction h with
  | root hi => exact ⟨.root hi, hr _ hi⟩
  | @dep k d _ hd ih =>
    obtain ⟨i1, i2⟩ := ih
    have e := (hv.keeps k i2).2
    obtain ⟨m, h0⟩ := takeWhile_ne hd
    exact ⟨.dep i1 (by rw [← body_refs e]; exact hd), (h'.deps k i2 d (List.mem_append_left _ m) h0).1⟩

theorem val_none {k l : Nat} {x : BitVec 64} {c : Nat} (hk : (s.vars k).kind = .other c) : ¬ Val s k l x := by
  intro hv
  cases hv <;> simp_all [sem1, sem2, sem3]

/-- Values of variables after a successful evaluation. -/
theorem Done.value {E : Env} (hL : LaunchOK E.launch) {scheduled : List (Nat × Nat)} {L : List Nat}
    (h : IInv s U u) (hd : Done E scheduled u s U L s')
    (hse : ∀ i ∈ s.sideEffects, ∃ c, (s.vars i).kind = .other c)
    (huni : ∀ i c, (i, c) ∈ scheduled → (s.vars i).size = 1 → ∀ l l' x, Entry s i l x → Entry s i l' x)
    {k : Nat} (hk : 0 < u k) (hq : Undisturbed s (scheduled.map Prod.fst ++ s.sideEffects) k)
    {l : Nat} {x : BitVec 64} (he : Entry s k l x) : Entry s' k l x := by
  obtain ⟨s1, U1, roots, se, sched, i1, v1, m1, q1, hp, hsub, hr, hc, hse1, hfin⟩ := hd
  have ak : Alive s U k := h.alive_of_ext (plus_pos_left hk)
  have a1 : Alive s1 U1 k := v1.stay k hk ak
  have e1 := entry_same i1 v1 m1 he a1
  rcases hfin with ⟨_, _, U', i2, v2, e2⟩ | ⟨_, s2, U2, out, data, mem, hperm, i2, v2, e2, hal, hlaunch, hcp⟩
  · exact entry_same i2 v2 e2.1 e1 (v2.stay k hk a1)
  obtain ⟨U', c1, c2, c3, c4, c5⟩ := hcp
  have a2 : Alive s2 U2 k := v2.stay k hk a1
  have ee2 := entry_same i2 v2 e2.1 e1 a2
  obtain ⟨L1, L2, L3⟩ := hL s2 U2 _ out roots data mem i2 (fun x hx => (live_alive i2).2 (hal x hx)) hlaunch
  have v02 : VRel (fun _ => 0#64) [] [] u s U s2 U2 := v1.trans v2
  have m02 : s2.mem = s.mem := e2.1.trans m1
  have hmem : s'.mem = mem := c3.1
  -- the entry of an output is written
  have c2' : VRel data roots se u s2 U2 s' U' := vrel_mem mem c2
  have qq : ∀ j, Alive s2 U2 j ∧ CalmAt s2 (MayWrite s2 out) j → Quiet s2 s' j := by
    rintro j ⟨hj, w1, w2⟩
    have lj := (live_alive i2).2 hj
    unfold Quiet
    rw [hmem]
    exact ⟨fun hk => L3 _ (fun r hr e => ((L2 r hr j lj).1 hk) e.symm) (w1 hk),
      fun hk hw h0 => L3 _ (fun r hr e => ((L2 r hr j lj).2 hk hw h0) e.symm) (w2 hk hw h0)⟩
  have carried : ∀ i, Alive s' U' i →
      Carried (fun j => Alive s2 U2 j ∧ CalmAt s2 (MayWrite s2 out) j) s2 s' i := by
    intro i hi
    obtain ⟨ai, bi⟩ := c2'.keep i hi
    have b02 := (v02.keeps i ai).2
    by_cases hir : i ∈ roots
    · obtain ⟨r1, r2, r3, c, r4, r5⟩ := hr i hir
      have hnode : (s2.vars i).isNode = true := by rw [isNode_body (v2.keeps i ai).2]; exact r3
      rcases hp.root i (List.mem_append_left _ hir) with ⟨x, hx, rfl, hz⟩ | ⟨hk, _⟩
      · refine .inr (.inl ⟨hnode, data x.index, ?_, ?_⟩)
        · exact c4 x (hperm.symm.subset hx) hir ((v2.size _).trans hz.symm) hi
        · intro l x' hent hq
          have hout : IsOutput s2 out roots x.index :=
            ⟨hir, x, hperm.symm.subset hx, rfl, by rw [v2.size]; exact hz⟩
          have hcl : Calm s2 (MayWrite s2 out) x.index := fun j hj => (hq j hj).2
          rw [hmem]
          by_cases h1 : (s2.vars x.index).size = 1
          · rw [if_pos h1]
            have e0 := huni x.index c r4 (by rw [← v02.size]; exact h1) l 0 x' (entry_back i2 v02 m02 ai hent)
            exact L1 x.index hout hcl 0 x' (by rw [h1]; decide) (entry_same i2 v02 m02 e0 ai)
          · rw [if_neg h1]
            refine L1 x.index hout hcl l x' ?_ hent
            exact (hent.2 x.index .root).resolve_right h1
      · exact .inr (.inr ⟨hnode, fun l x => val_none (c := 57) (by rw [body_kind (v2.keeps i ai).2]; exact hk)⟩)
    · by_cases his : i ∈ se
      · obtain ⟨c, hc⟩ := hse i (hsub.subset his)
        refine .inr (.inr ⟨?_, fun l x => val_none (c := c) (by rw [body_kind b02]; exact hc)⟩)
        rw [isNode_body (v2.keeps i ai).2]; exact (hse1 i his).2
      · rcases bi with b | ⟨b, _⟩ | ⟨b, _⟩
        · exact .inl b
        · exact (b.elim hir his).elim
        · exact (hir b).elim
  refine entry_carried c1 c2' carried qq ee2 ?_ (c2'.stay k hk a2)
  intro j hj
  obtain ⟨hj0, aj⟩ := reads_back i2 (fun k hk => (v02.keep k hk).2) a2 hj
  refine ⟨aj, ?_⟩
  have bj := (v02.keeps j aj).2
  rcases hq with hu | hu
  · have no : ∀ p, ¬ MayWrite s2 out p := by
      rintro p ⟨⟨x, hx, c, hc'⟩, _⟩
      obtain ⟨w1, w2⟩ := visits_back i1 v1 (roots := roots ++ se) (by
        intro i hi
        rcases List.mem_append.1 hi with hi | hi
        · exact (hr i hi).2.1
        · exact (hse1 i hi).1) (hp.only x (hperm.subset hx))
      have key : ∀ {i}, Visits s (roots ++ se) i → Visits s (scheduled.map Prod.fst ++ s.sideEffects) i := by
        intro i hi
        induction hi with
        | @root i hi =>
          refine .root ?_
          rcases List.mem_append.1 hi with hi | hi
          · obtain ⟨_, _, _, c, hc, _⟩ := hr i hi
            exact List.mem_append_left _ (List.mem_map.2 ⟨(i, c), hc, rfl⟩)
          · exact List.mem_append_right _ (hsub.subset hi)
        | dep _ b ih => exact .dep ih b
      refine hu x.index (key w1) c ?_
      rw [← body_kind (v02.keeps _ (hal x hx)).2]
      exact hc'
    exact ⟨fun _ => no _, fun _ _ _ => no _⟩
  · obtain ⟨p1, p2⟩ := hu j hj0
    have pend : ∀ p, MayWrite s2 out p → Pending s p := by
      rintro p ⟨_, i, li, di, rfl⟩
      obtain ⟨q1, q2, q3⟩ := se_vrel h i2 v02 (i := i) (by simpa [Var.isDirty] using di)
      exact ⟨i, (live_alive h).2 q2, by simpa [Var.isDirty] using q1, (body_fields (v02.keeps i q3).2).2.2.1.symm⟩
    obtain ⟨e1, e2, e3, d0, _, _, _, ew⟩ := body_fields bj
    refine ⟨fun hk hm => p1 (by rw [← e1]; exact hk) (by rw [← e3]; exact pend _ hm), fun hk hw h0 hm => ?_⟩
    refine p2 (by rw [← e1]; exact hk) (by rw [← ew]; exact hw) (by rw [← d0]; exact h0) ?_
    have ad := (i2.deps j aj (s2.vars j).d0 (List.mem_append_left _ (by rw [refs_of hw]; simp)) h0).1
    rw [← d0, ← (body_fields (v02.keeps _ ad).2).2.2.1]
    exact pend _ hm

end Verif.Jit
