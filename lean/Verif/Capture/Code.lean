import Verif.Capture.Instances

/-!
# What a recorded function call captures (C71): code generation
-/

namespace Verif.Capture

open Verif.Eval (SV TS Act Reach edges Dead Acyclic Idle InputsAtOneDepth)
open Verif.Eval (Gen.St)

variable {g : Graph}

/-! ## Slots -/

theorem bindSlots_other {slots : List Nat} {i : Nat} (hi : i ∉ slots) :
    ∀ {start : Nat} {po : Nat → Nat}, bindSlots start slots po i = po i := by
  induction slots with
  | nil => intro start po; rfl
  | cons j l ih =>
    intro start po
    rw [List.mem_cons, not_or] at hi
    unfold bindSlots
    rw [ih hi.2, Function.update_of_ne hi.1]

theorem bindSlots_get {slots : List Nat} (hn : slots.Nodup) :
    ∀ {start : Nat} {po : Nat → Nat} {k i : Nat}, slots[k]? = some i →
      bindSlots start slots po i = start + k := by
  induction slots with
  | nil => intro start po k i h; simp at h
  | cons j l ih =>
    intro start po k i h
    rw [List.nodup_cons] at hn
    unfold bindSlots
    cases k with
    | zero =>
      simp only [List.getElem?_cons_zero, Option.some.injEq] at h
      subst h
      rw [bindSlots_other hn.1, Function.update_self]
      rfl
    | succ k =>
      rw [List.getElem?_cons_succ] at h
      rw [ih hn.2 h]
      omega

/-- Each captured variable is found at its position. -/
theorem slotOf_bound {slots : List Nat} (hn : slots.Nodup) {start : Nat} {po po' : Nat → Nat}
    {k i : Nat} (h : slots[k]? = some i) (hpo : po' i = bindSlots start slots po i) :
    slotOf start slots po' i = .ok (start + k) := by
  have hb : po' i = start + k := hpo.trans (bindSlots_get hn h)
  have hl : k < slots.length := by
    by_contra hc
    rw [List.getElem?_eq_none (by omega)] at h
    simp at h
  unfold slotOf
  rw [hb, if_pos]
  exact ⟨by omega, by omega, by rw [Nat.add_sub_cancel_left]; exact h⟩

/-! ## The loop over the schedule -/

theorem genAll_ok {clobber : Nat → (Nat → Nat) → (Nat → Nat)} {d : CallData} {start : Nat}
    {slots : List Nat} {sig : Sig} {sched : List SV} {po0 : Nat → Nat}
    (hgen : ∀ x ∈ sched, ∃ nd, g x.index = some nd ∧ ∀ po : Nat → Nat,
      po x.index = po0 x.index → genVar d start slots po sig x.index nd = .ok ()) :
    ∀ (rest : List SV) (po : Nat → Nat), (∀ x ∈ rest, x ∈ sched) →
      (∀ x ∈ sched, po x.index = po0 x.index) →
      genAll g clobber d start slots sig sched po rest = .ok () := by
  intro rest
  induction rest with
  | nil => intro po _ _; rfl
  | cons x xs ih =>
    intro po hsub hpo
    obtain ⟨nd, hg, hv⟩ := hgen x (hsub x (by simp))
    unfold genAll
    rw [hg]
    dsimp only
    rw [hv po (hpo x (hsub x (by simp)))]
    dsimp only
    refine ih _ (fun y hy => hsub y (by simp [hy])) ?_
    intro y hy
    have : afterVar clobber sched x.index nd po y.index = po y.index := by
      unfold afterVar
      cases nd.kind <;> dsimp only
      rw [if_pos (List.mem_map_of_mem hy)]
    rw [this]
    exact hpo y hy

/-! ## Reference counts -/

theorem Counted.reach {refs : Nat → Nat} {roots : List Nat} (h : Counted g refs roots)
    {cut : Nat → Prop} {i n : Nat} (hr : Reach (view g) cut roots i n) : refs i ≠ 0 := by
  cases hr with
  | root hi => exact h.roots i hi
  | edge _ hg _ ha => exact h.needed _ _ _ _ hg ha

theorem funcRoots_sub {reg : Nat → Bool} {d : CallData} {inst : Nat} :
    ∀ i ∈ funcRoots g reg d inst, i ∈ instRoots d inst := by
  intro i hi
  unfold funcRoots at hi
  unfold instRoots
  rcases List.mem_append.1 hi with hi | hi
  · obtain ⟨⟨j, o⟩, hp, rfl⟩ := List.mem_map.1 hi
    exact List.mem_append_left _ (List.of_mem_zip (List.mem_filter.1 hp).1).1
  · exact List.mem_append_right _ hi

/-- What is scheduled for a function was visited by the analysis. -/
theorem scheduled_within (hwf : Wf g) (hcalls : CallsOk g) {c : Nat} {nd : Node} {d : CallData}
    (hg : g c = some nd) (hk : nd.kind = .call d) {inst : Nat} {sub : List Nat}
    (hsub : ∀ i ∈ sub, i ∈ instRoots d inst) {cut : Nat → Prop} {i : Nat} {ndi : Node}
    (h : Reach (view g) cut sub i 0) (hgi : g i = some ndi) (hphi : ∀ k, ndi.kind ≠ .loopPhi k) :
    Within g (instRoots d inst) i :=
  (lev_reach hwf hcalls ((hcalls c nd d hg hk).bodies inst) hsub h).within hgi hphi

/-! ## Arguments -/

theorem reach_last {v : Nat → Option Eval.Node} {cut : Nat → Prop} {roots : List Nat} {i n : Nat}
    (h : Reach v cut roots i n) :
    i ∈ roots ∨ ∃ j nd m a, v j = some nd ∧ a ∈ edges nd m ∧ a.index = i := by
  cases h with
  | root h => exact Or.inl h
  | edge _ hg _ ha => exact Or.inr ⟨_, _, _, _, hg, ha, rfl⟩

theorem viewKind_scatter {nd : Node} {t : Nat} (h : viewKind g nd = some (.scatter t)) :
    nd.kind = .scatter t := by
  unfold viewKind at h
  cases hk : nd.kind <;> rw [hk] at h <;> dsimp only at h <;>
    (repeat' split at h) <;> simp_all

/-- The argument of a call that a function's code refers to: it is the one passed at
its position, and the caller computes it. -/
theorem argument_scheduled (hwf : Wf g) (hcalls : CallsOk g) {c : Nat} {nd : Node}
    {d : CallData} (hg : g c = some nd) (hk : nd.kind = .call d)
    {refs0 refs : Nat → Nat} (hok : CallerOk g refs c d)
    (hzero : ∀ t, refs0 t = 0 → refs t = 0) {roots : List Nat} {S : List SV}
    (hone : InputsAtOneDepth (view g) roots)
    (hcomplete : InputsAtOneDepth (view g) roots → ∀ i,
      Reach (view g) (Dead (view g) refs0) roots i 0 →
        i ∈ S.map SV.index ∨ Dead (view g) refs0 i)
    (hmin : ∀ x ∈ S, Reach (view g) (Dead (view g) refs0) roots x.index 0)
    (hc : c ∈ S.map SV.index) {inst : Nat} {x : Nat} {ndx : Node}
    (hx : Reach (view g) (Dead (view g) refs)
      (funcRoots g (fun i => decide (i ∈ S.map SV.index)) d inst) x 0)
    (hgx : g x = some ndx) (hkx : ndx.kind = .callInput) :
    d.innerIn[firstIndex d.innerIn x]? = some x ∧
    d.outerIn[firstIndex d.innerIn x]? = some (ndx.dep.headD 0) ∧
    ndx.dep.headD 0 ∈ S.map SV.index ∧ refs x ≠ 1 := by
  have hreg : ∀ i, decide (i ∈ S.map SV.index) = true →
      Reach (view g) (Dead (view g) refs0) roots i 0 := by
    intro i hi
    rw [decide_eq_true_iff] at hi
    obtain ⟨y, hy, rfl⟩ := List.mem_map.1 hi
    exact hmin y hy
  have hw := scheduled_within hwf hcalls hg hk funcRoots_sub hx hgx (by rw [hkx]; simp)
  have hcok := hcalls c nd d hg hk
  have hin : x ∈ d.innerIn := (hcok.bodies inst).inputs x ndx hw hgx hkx
  have hget : d.innerIn[firstIndex d.innerIn x]? = some x := by
    unfold firstIndex
    rw [List.getElem?_eq_getElem (List.idxOf_lt_length_iff.2 hin), List.getElem_idxOf]
  have hout := hcok.args _ x ndx hget hgx hkx
  refine ⟨hget, hout, ?_, ?_⟩
  · have h1 := reach_shift hzero
      (funcRoots_reach hg hk hok hreg (decide_eq_true_iff.2 hc)) hx
    have hv : view g x = some ⟨.callInput, ndx.dep, ndx.scope, ndx.size, ndx.consumed⟩ := by
      unfold view
      rw [hgx]
      dsimp only
      unfold viewKind
      rw [hkx]
    have hnd : ¬ Dead (view g) refs0 x := by
      rintro ⟨nd', t, e1, e2, _⟩
      rw [hv] at e1
      have := Option.some.inj e1
      subst this
      simp at e2
    have ha : Act.visit (ndx.dep.headD 0) 0 ∈
        edges ⟨.callInput, ndx.dep, ndx.scope, ndx.size, ndx.consumed⟩ (0 + 1) := by
      unfold edges
      simp
    have h2 := Reach.edge h1 hv hnd ha
    rcases hcomplete hone _ h2 with h3 | h3
    · exact h3
    · exfalso
      obtain ⟨ndo, t, e1, e2, _⟩ := h3
      obtain ⟨ndo', e3, e4⟩ := hok.values _ (List.mem_of_getElem? hout)
      unfold view at e1
      change (match g (ndx.dep.headD 0) with
        | none => none
        | some nd => _) = _ at e1
      rw [e3] at e1
      dsimp only at e1
      cases hvk : viewKind g ndo' with
      | none => rw [hvk] at e1; simp at e1
      | some k =>
        rw [hvk] at e1
        have := Option.some.inj e1
        subst this
        dsimp only at e2
        subst e2
        exact e4 _ (viewKind_scatter hvk)
  · refine hok.counted x hin ndx hgx hkx ?_
    rcases reach_last hx with hi | h
    · have := funcRoots_sub x hi
      unfold instRoots at this
      rw [List.getD_eq_getElem?_getD, List.getD_eq_getElem?_getD] at this
      rcases List.mem_append.1 this with h | h
      · left
        cases hr : d.innerOut[inst]? with
        | none => rw [hr] at h; simp at h
        | some r => rw [hr] at h; exact ⟨r, List.mem_of_getElem? hr, h⟩
      · right; left
        cases hr : d.sideEffects[inst]? with
        | none => rw [hr] at h; simp at h
        | some r => rw [hr] at h; exact ⟨r, List.mem_of_getElem? hr, h⟩
    · exact Or.inr (Or.inr h)

end Verif.Capture
