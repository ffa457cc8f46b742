import Verif.Capture.Analysis

/-!
# What a recorded function call captures (C71): what code generation reaches

The traversal of code generation follows loops and nested calls differently than the
analysis. Here: it never leaves the variables of the function.
-/

namespace Verif.Capture

open Verif.Eval (Act Reach edges operands)

variable {g : Graph}

/-- A variable of the function, or a state variable of a loop of the function. -/
def In (g : Graph) (roots : List Nat) (i : Nat) : Prop :=
  Within g roots i ∨ ∃ nd k c ndc, g i = some nd ∧ nd.kind = .loopPhi k ∧ Within g roots c ∧
    g c = some ndc ∧ ndc.kind = .loopCond ∧ ndc.dep.headD 0 = nd.dep.headD 0

theorem In.within {roots : List Nat} {i : Nat} (h : In g roots i) {nd : Node}
    (hg : g i = some nd) (hk : ∀ k, nd.kind ≠ .loopPhi k) : Within g roots i := by
  rcases h with h | ⟨nd', k, _, _, hg', hk', _⟩
  · exact h
  · rw [hg] at hg'
    exact absurd hk' (Option.some.inj hg' ▸ hk k)

theorem deps_refersTo {nd : Node} (hk : nd.kind ≠ .callInput) {j : Nat} (h : j ∈ nd.deps) :
    j ∈ refersTo g nd := by
  unfold refersTo
  cases hk' : nd.kind <;> first
    | exact absurd hk' hk
    | exact h
    | exact List.mem_append_right _ h
    | exact List.mem_cons_of_mem _ h

theorem loopOf_congr {a b : Node} (h : a.dep.headD 0 = b.dep.headD 0) :
    loopOf g a = loopOf g b := by
  unfold loopOf
  rw [h]

theorem loopOf_some {nd : Node} {l : List Entry} (h : loopOf g nd = some (some l)) :
    ∃ nds, g (nd.dep.headD 0) = some nds ∧ nds.kind = .loopStart (some l) := by
  unfold loopOf at h
  split at h
  · rename_i data _ _ _ _ _ hg
    simp only [Option.some.injEq] at h
    subst h
    exact ⟨_, hg, rfl⟩
  · simp at h

theorem callOf_some {nd : Node} {d : CallData} (h : callOf g nd = some d) :
    ∃ nds, g (nd.dep.headD 0) = some nds ∧ nds.kind = .call d := by
  unfold callOf at h
  split at h
  · rename_i data _ _ _ _ _ hg
    simp only [Option.some.injEq] at h
    subst h
    exact ⟨_, hg, rfl⟩
  · simp at h

/-- The state of a loop whose condition belongs to the function belongs to it too. -/
theorem within_entry {roots : List Nat} {c : Nat} {ndc : Node} {l : List Entry} {e : Entry}
    (hc : Within g roots c) (hg : g c = some ndc) (hk : ndc.kind = .loopCond)
    (hl : loopOf g ndc = some (some l)) (he : e ∈ l) (hne : e.outerIn ≠ e.innerIn) :
    Within g roots e.innerOut ∧ Within g roots e.outerIn := by
  have : ∀ j, j = e.innerOut ∨ j = e.outerIn → j ∈ refersTo g ndc := by
    intro j hj
    unfold refersTo
    rw [hk]
    dsimp only
    rw [hl]
    dsimp only
    apply List.mem_append_left
    rw [List.mem_flatMap]
    exact ⟨e, List.mem_filter.2 ⟨he, by simpa using hne⟩, by simpa using hj⟩
  exact ⟨.step hc hg (this _ (Or.inl rfl)), .step hc hg (this _ (Or.inr rfl))⟩

/-- A loop state variable of the function: its loop's condition belongs to the
function. -/
theorem In.cond {inputs roots : List Nat} (hb : BodyOk g inputs roots) {i : Nat} {nd : Node}
    {k : Nat} (h : In g roots i) (hg : g i = some nd) (hk : nd.kind = .loopPhi k) :
    ∃ c ndc, Within g roots c ∧ g c = some ndc ∧ ndc.kind = .loopCond ∧
      ndc.dep.headD 0 = nd.dep.headD 0 := by
  rcases h with h | ⟨nd', _, c, ndc, hg', _, h1, h2, h3, h4⟩
  · exact hb.loops i nd k h hg hk
  · rw [hg] at hg'
    have := Option.some.inj hg'
    subst this
    exact ⟨c, ndc, h1, h2, h3, h4⟩

theorem in_deps (hwf : Wf g) {inputs roots : List Nat} (hb : BodyOk g inputs roots) {i : Nat}
    {nd : Node} (h : In g roots i) (hg : g i = some nd) (hk : nd.kind ≠ .callInput) {j : Nat}
    (hj : j ∈ nd.deps) : In g roots j := by
  by_cases hp : ∃ k, nd.kind = .loopPhi k
  · obtain ⟨k, hp⟩ := hp
    obtain ⟨c, ndc, h1, h2, h3, h4⟩ := h.cond hb hg hp
    have hd := (hwf.phi i nd k hg hp).1
    rw [hd, List.mem_singleton] at hj
    rw [hj, ← h4]
    exact Or.inl (.step h1 h2 (deps_refersTo (by rw [h3]; simp) (hwf.cond c ndc h2 h3)))
  · have hw := h.within hg (fun k hk => hp ⟨k, hk⟩)
    exact Or.inl (.step hw hg (deps_refersTo hk hj))

/-- Loop state variables lead to initial and final values inside of the function. -/
theorem in_phi (hwf : Wf g) {inputs roots : List Nat} (hb : BodyOk g inputs roots) {i : Nat}
    {nd : Node} {k : Nat} (h : In g roots i) (hg : g i = some nd) (hk : nd.kind = .loopPhi k)
    {l : List Entry} {e : Entry} (hl : loopOf g nd = some (some l)) (he : l[k]? = some e) :
    In g roots e.outerIn ∧ In g roots e.innerOut := by
  obtain ⟨c, ndc, h1, h2, h3, h4⟩ := h.cond hb hg hk
  obtain ⟨_, l', e', hl', he', hne⟩ := hwf.phi i nd k hg hk
  rw [hl] at hl'
  have : l = l' := by simpa using hl'
  subst this
  rw [he] at he'
  have : e = e' := by simpa using he'
  subst this
  have := within_entry h1 h2 h3 (by rw [loopOf_congr h4]; exact hl) (List.mem_of_getElem? he) hne
  exact ⟨Or.inl this.2, Or.inl this.1⟩

theorem in_storage (hwf : Wf g) {inputs roots : List Nat} (hb : BodyOk g inputs roots)
    {j b : Nat} (hs : Storage g j b) (h : In g roots j) : In g roots b := by
  induction hs with
  | here => exact h
  | operand hg hk hj _ ih => exact ih (in_deps hwf hb h hg hk hj)
  | initial hg hk hl he _ ih => exact ih (in_phi hwf hb h hg hk hl he).1

/-- A variable of a nested call: `n` calls deep. -/
def Lev (g : Graph) (roots : List Nat) : Nat → Nat → Prop
  | 0, i => In g roots i
  | n + 1, i => ∃ c nd d inst, Lev g roots n c ∧ g c = some nd ∧ nd.kind = .call d ∧
      In g (instRoots d inst) i

/-- All calls are well-formed. -/
def CallsOk (g : Graph) : Prop := ∀ c nd d, g c = some nd → nd.kind = .call d → CallOk g d

/-- Each level consists of variables of one well-formed function. -/
theorem Lev.body (hcalls : CallsOk g) {inputs roots : List Nat} (hb : BodyOk g inputs roots)
    {n i : Nat} (h : Lev g roots n i) :
    ∃ inputs' roots', BodyOk g inputs' roots' ∧ In g roots' i ∧
      ∀ j, In g roots' j → Lev g roots n j := by
  cases n with
  | zero => exact ⟨inputs, roots, hb, h, fun j hj => hj⟩
  | succ n =>
    obtain ⟨c, nd, d, inst, h1, h2, h3, h4⟩ := h
    exact ⟨d.innerIn, instRoots d inst, (hcalls c nd d h2 h3).bodies inst, h4,
      fun j hj => ⟨c, nd, d, inst, h1, h2, h3, hj⟩⟩

theorem mem_flatten_getD {l : List (List Nat)} {j : Nat} (h : j ∈ l.flatten) :
    ∃ inst : Nat, j ∈ l.getD inst [] := by
  obtain ⟨r, hr, hj⟩ := List.mem_flatten.1 h
  obtain ⟨inst, hi⟩ := List.mem_iff_getElem?.1 hr
  exact ⟨inst, by rw [List.getD_eq_getElem?_getD, hi]; exact hj⟩

theorem lev_call_se {roots : List Nat} {n c : Nat} {nd : Node} {d : CallData}
    (h : Lev g roots n c) (hg : g c = some nd) (hk : nd.kind = .call d) {j : Nat}
    (hj : j ∈ d.sideEffects.flatten) : Lev g roots (n + 1) j := by
  obtain ⟨inst, hi⟩ := mem_flatten_getD hj
  exact ⟨c, nd, d, inst, h, hg, hk, Or.inl (.root (List.mem_append_right _ hi))⟩

theorem lev_call_out {roots : List Nat} {n c : Nat} {nd : Node} {d : CallData}
    (h : Lev g roots n c) (hg : g c = some nd) (hk : nd.kind = .call d) {j : Nat}
    (hj : j ∈ d.innerOut.flatten) : Lev g roots (n + 1) j := by
  obtain ⟨inst, hi⟩ := mem_flatten_getD hj
  exact ⟨c, nd, d, inst, h, hg, hk, Or.inl (.root (List.mem_append_left _ hi))⟩

theorem view_some {i : Nat} {ndv : Eval.Node} (h : view g i = some ndv) :
    ∃ nd k, g i = some nd ∧ viewKind g nd = some k ∧
      ndv = ⟨k, nd.dep, nd.scope, nd.size, nd.consumed⟩ := by
  unfold view at h
  cases hg : g i with
  | none => rw [hg] at h; simp at h
  | some nd =>
    rw [hg] at h
    dsimp only at h
    cases hk : viewKind g nd with
    | none => rw [hk] at h; simp at h
    | some k =>
      rw [hk] at h
      exact ⟨nd, k, rfl, hk, by simpa using h.symm⟩

/-- An edge of the traversal stays within the nest of functions. -/
theorem lev_edge (hwf : Wf g) (hcalls : CallsOk g) {inputs roots : List Nat}
    (hb : BodyOk g inputs roots) {i n : Nat} {ndv : Eval.Node} {a : Act}
    (h : Lev g roots n i) (hv : view g i = some ndv) (ha : a ∈ edges ndv n) :
    Lev g roots a.depth a.index := by
  obtain ⟨nd, k, hg, hk, hndv⟩ := view_some hv
  obtain ⟨inputs', roots', hb', hin, hup⟩ := h.body hcalls hb
  have hdeps : nd.kind ≠ .callInput → ∀ a ∈ operands ndv n, Lev g roots a.depth a.index := by
    intro hki a ha
    unfold operands at ha
    obtain ⟨j, hj, rfl⟩ := List.mem_map.1 ha
    rw [hndv] at hj
    exact hup j (in_deps hwf hb' hin hg hki hj)
  have hextra : ∀ l : List Nat, (∀ j ∈ l, j ∈ refersTo g nd) → (∀ k, nd.kind ≠ .loopPhi k) →
      ∀ a ∈ l.map (Act.visit · n), Lev g roots a.depth a.index := by
    intro l hl hph a ha
    obtain ⟨j, hj, rfl⟩ := List.mem_map.1 ha
    exact hup j (Or.inl (.step (hin.within hg hph) hg (hl j hj)))
  have hvk : ndv.kind = k := by rw [hndv]
  unfold viewKind at hk
  unfold edges at ha
  rw [hvk] at ha
  cases hkind : nd.kind with
  | callInput =>
    rw [hkind] at hk
    simp only [Option.some.injEq] at hk
    subst hk
    dsimp only at ha
    by_cases hn : n = 0
    · rw [if_pos hn] at ha; simp at ha
    · rw [if_neg hn, List.mem_singleton] at ha
      subst ha
      obtain ⟨m, rfl⟩ := Nat.exists_eq_succ_of_ne_zero hn
      obtain ⟨c, ndc, d, inst, h1, h2, h3, h4⟩ := h
      have hok := hcalls c ndc d h2 h3
      have hw := h4.within hg (fun k hc => by rw [hkind] at hc; simp at hc)
      obtain ⟨p, hp⟩ := List.mem_iff_getElem?.1 ((hok.bodies inst).inputs i nd hw hg hkind)
      have hout := List.mem_of_getElem? (hok.args p i nd hp hg hkind)
      obtain ⟨i2, r2, _, hin2, hup2⟩ := h1.body hcalls hb
      rw [hndv]
      show Lev g roots (m + 1 - 1) (nd.dep.headD 0)
      rw [Nat.add_sub_cancel]
      refine hup2 _ (Or.inl (.step (hin2.within h2 (fun k hc => by rw [h3] at hc; simp at hc)) h2 ?_))
      unfold refersTo
      rw [h3]
      exact List.mem_append_left _ hout
  | call d =>
    rw [hkind] at hk
    simp only [Option.some.injEq] at hk
    subst hk
    have hout : ∀ a ∈ d.outerIn.map (Act.visit · n), Lev g roots a.depth a.index :=
      hextra d.outerIn (fun j hj => by
        unfold refersTo; rw [hkind]; exact List.mem_append_left _ hj) (by rw [hkind]; simp)
    have hse : ∀ a ∈ d.sideEffects.flatten.map (Act.visit · (n + 1)),
        Lev g roots a.depth a.index := by
      intro a ha
      obtain ⟨j, hj, rfl⟩ := List.mem_map.1 ha
      exact lev_call_se h hg hkind hj
    have hio : ∀ a ∈ d.innerOut.flatten.map (Act.visit · (n + 1)),
        Lev g roots a.depth a.index := by
      intro a ha
      obtain ⟨j, hj, rfl⟩ := List.mem_map.1 ha
      exact lev_call_out h hg hkind hj
    have hd := hdeps (by rw [hkind]; simp)
    cases hopt : d.optimize with
    | true =>
      rw [hopt] at ha
      dsimp only at ha
      rcases List.mem_append.1 ha with ha | ha
      · exact hse a ha
      · exact hd a ha
    | false =>
      rw [hopt] at ha
      dsimp only at ha
      rcases List.mem_append.1 ha with ha | ha
      · rcases List.mem_append.1 ha with ha | ha
        · rcases List.mem_append.1 ha with ha | ha
          · exact hout a ha
          · exact hio a ha
        · exact hse a ha
      · exact hd a ha
  | callOutput p =>
    rw [hkind] at hk
    dsimp only at hk
    obtain ⟨hhead, d, hd, hlen⟩ := hwf.callOutput i nd p hg hkind
    rw [hd] at hk
    simp only [Option.some.injEq] at hk
    subst hk
    dsimp only at ha
    rcases List.mem_append.1 ha with ha | ha
    · obtain ⟨j, hj, rfl⟩ := List.mem_map.1 ha
      obtain ⟨r, hr, rfl⟩ := List.mem_map.1 hj
      obtain ⟨ndc, hgc, hkc⟩ := callOf_some hd
      have hlc : Lev g roots n (nd.dep.headD 0) :=
        hup _ (in_deps hwf hb' hin hg (by rw [hkind]; simp) hhead)
      refine lev_call_out hlc hgc hkc (List.mem_flatten.2 ⟨r, hr, ?_⟩)
      show r.getD p 0 ∈ r
      rw [List.getD_eq_getElem?_getD, List.getElem?_eq_getElem (hlen r hr)]
      exact List.getElem_mem _
    · exact hdeps (by rw [hkind]; simp) a ha
  | loopPhi p =>
    rw [hkind] at hk
    dsimp only at hk
    obtain ⟨_, l, e, hl, he, _⟩ := hwf.phi i nd p hg hkind
    rw [hl] at hk
    dsimp only at hk
    rw [he] at hk
    simp only [Option.some.injEq] at hk
    subst hk
    dsimp only at ha
    have := in_phi hwf hb' hin hg hkind hl he
    rcases List.mem_cons.1 ha with rfl | ha
    · exact hup _ this.1
    · rcases List.mem_cons.1 ha with rfl | ha
      · exact hup _ this.2
      · exact hdeps (by rw [hkind]; simp) a ha
  | loopOutput p =>
    rw [hkind] at hk
    dsimp only at hk
    obtain ⟨l, e, hl, he, hne, fin, ndf, c, ndc, hf, hgf, hkf, hcf, hgc, hkc, hhead⟩ :=
      hwf.output i nd p hg hkind
    rw [hl] at hk
    dsimp only at hk
    rw [he] at hk
    simp only [Option.some.injEq] at hk
    subst hk
    dsimp only at ha
    have hw := hin.within hg (by rw [hkind]; simp)
    have hwc : Within g roots' c :=
      .step (.step hw hg (deps_refersTo (by rw [hkind]; simp) hf)) hgf
        (deps_refersTo (by rw [hkf]; simp) hcf)
    have hlc : loopOf g ndc = some (some l) := by rw [loopOf_congr hhead]; exact hl
    have hent := within_entry hwc hgc hkc hlc (List.mem_of_getElem? he) hne
    obtain ⟨nds, hgs, hks⟩ := loopOf_some hl
    obtain ⟨ndi, q, hgi, hki, hhi⟩ := hwf.state _ nds l e hgs hks (List.mem_of_getElem? he) hne
    rcases List.mem_cons.1 ha with rfl | ha
    · exact hup _ (Or.inl hent.1)
    · rcases List.mem_cons.1 ha with rfl | ha
      · exact hup _ (Or.inl hent.2)
      · rcases List.mem_cons.1 ha with rfl | ha
        · exact hup _ (Or.inr ⟨ndi, q, c, ndc, hgi, hki, hwc, hgc, hkc, by rw [hhead, hhi]⟩)
        · exact hdeps (by rw [hkind]; simp) a ha
  | packetScatter l =>
    rw [hkind] at hk
    simp only [Option.some.injEq] at hk
    subst hk
    rcases List.mem_append.1 ha with ha | ha
    · exact hextra l (fun j hj => by
        unfold refersTo; rw [hkind]; exact List.mem_append_left _ hj) (by rw [hkind]; simp) a ha
    · exact hdeps (by rw [hkind]; simp) a ha
  | traceRay l =>
    rw [hkind] at hk
    simp only [Option.some.injEq] at hk
    subst hk
    rcases List.mem_append.1 ha with ha | ha
    · exact hextra l (fun j hj => by
        unfold refersTo; rw [hkind]; exact List.mem_append_left _ hj) (by rw [hkind]; simp) a ha
    · exact hdeps (by rw [hkind]; simp) a ha
  | texture l =>
    rw [hkind] at hk
    simp only [Option.some.injEq] at hk
    subst hk
    rcases List.mem_append.1 ha with ha | ha
    · exact hextra l (fun j hj => by
        unfold refersTo; rw [hkind]; exact List.mem_append_left _ hj) (by rw [hkind]; simp) a ha
    · exact hdeps (by rw [hkind]; simp) a ha
  | scatterCas m =>
    rw [hkind] at hk
    simp only [Option.some.injEq] at hk
    subst hk
    rcases List.mem_append.1 ha with ha | ha
    · exact hextra [m] (fun j hj => by
        unfold refersTo; rw [hkind]; rw [List.mem_singleton.1 hj]; exact List.mem_cons_self)
        (by rw [hkind]; simp) a ha
    · exact hdeps (by rw [hkind]; simp) a ha
  | coopVecPack l =>
    rw [hkind] at hk
    simp only [Option.some.injEq] at hk
    subst hk
    rcases List.mem_append.1 ha with ha | ha
    · exact hextra (l.filter (· ≠ 0)) (fun j hj => by
        unfold refersTo; rw [hkind]
        exact List.mem_append_left _ (List.mem_filter.1 hj).1) (by rw [hkind]; simp) a ha
    · exact hdeps (by rw [hkind]; simp) a ha
  | arrayWrite b =>
    rw [hkind] at hk
    simp only [Option.some.injEq] at hk
    subst hk
    rcases List.mem_cons.1 ha with rfl | ha
    · obtain ⟨j, hj, hs⟩ := hwf.arrayWrite i nd b hg hkind
      exact hup _ (in_storage hwf hb' hs (in_deps hwf hb' hin hg (by rw [hkind]; simp) hj))
    · exact hdeps (by rw [hkind]; simp) a ha
  | scatter t =>
    rw [hkind] at hk
    simp only [Option.some.injEq] at hk
    subst hk
    exact hdeps (by rw [hkind]; simp) a ha
  | _ =>
    rw [hkind] at hk
    simp only [Option.some.injEq] at hk
    subst hk
    exact hdeps (by rw [hkind]; simp) a ha

/-- Whatever code generation reaches belongs to the nest of functions. -/
theorem lev_reach (hwf : Wf g) (hcalls : CallsOk g) {inputs roots : List Nat}
    (hb : BodyOk g inputs roots) {cut : Nat → Prop} {sub : List Nat}
    (hsub : ∀ i ∈ sub, i ∈ roots) {i n : Nat} (h : Reach (view g) cut sub i n) :
    Lev g roots n i := by
  induction h with
  | root hi => exact Or.inl (.root (hsub _ hi))
  | edge _ hv _ ha ih => exact lev_edge hwf hcalls hb ih hv ha

end Verif.Capture
