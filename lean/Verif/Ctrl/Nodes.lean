import Verif.Ctrl.Record

/-
Symbolic loops and conditionals: facts about every recorded variable.
-/

namespace Verif.Ctrl

/-- Sizes of the loop variables that were not eliminated. -/
def Sized (g : Graph) (size : Nat) : List Nat → List Nat → List Nat → Prop
  | q :: qs, o :: os, i :: is => (q ≠ o → g.size q ≤ size ∧ g.size o ≤ size ∧ g.size i ≤ size) ∧ Sized g size qs os is
  | _, _, _ => True

/-- What is known about a loop. -/
structure LoopOK (cfg : Cfg) (g : Graph) (size : Nat) (ld : LoopData) : Prop where
  inner : ∃ base, base ≤ g.next ∧ Inner g base base ld.outerIn ld.innerIn
  len : ld.innerOut.length = ld.outerIn.length
  fixed : Fixed ld.innerIn ld.outerIn ld.innerOut
  active : g.size ld.active ≤ size
  sized : Sized g size ld.innerIn ld.outerIn ld.innerOut
  /-- lanes in which the condition is false keep their state (LLVM) -/
  frozen : cfg.llvm = true → List.Forall₂ (fun i q => ∀ sp lane e w, Val sp g lane e ld.active 0 →
    Val sp g lane e i w → Val sp g lane e q w) ld.innerOut ld.innerIn

/-- What is known about a variable. -/
def NodeOK (cfg : Cfg) (g : Graph) (v : Node) : Prop :=
  match v.kind with
  | .op _ args => ∀ a ∈ args, g.size a ≤ v.size
  | .condOut c _ _ => g.size c ≤ v.size
  | .loopOut ld k => LoopOK cfg g v.size ld ∧ ∃ q o, ld.innerIn[k]? = some q ∧ ld.outerIn[k]? = some o ∧ q ≠ o
  | _ => True

theorem ext_size {g g' : Graph} (hx : Ext g g') {i : Nat} (hi : i < g.next) : g'.size i = g.size i := by
  unfold Graph.size; rw [hx.2 i hi]

theorem Val.back {g g' : Graph} {lane : Nat} {e : Nat → Nat} {i v : Nat} (h : Val sp g' lane e i v)
    (hw : WF g) (hx : Ext g g') (hi : i < g.next) : Val sp g lane e i v := by
  obtain ⟨n, hn⟩ := h
  exact ⟨n, by rw [den_congr hw hx n g.next e e i (Nat.le_refl _) (fun _ _ => rfl) hi]; exact hn⟩

theorem Sized.ext {g g' : Graph} (hx : Ext g g') {size : Nat} : ∀ {qs os is : List Nat}, Sized g size qs os is →
    (∀ i ∈ qs, i < g.next) → (∀ i ∈ os, i < g.next) → (∀ i ∈ is, i < g.next) → Sized g' size qs os is := by
  intro qs
  induction qs with
  | nil => intro os is _ _ _ _; simp [Sized]
  | cons q qs ih =>
    intro os is h hq ho hi
    cases os with
    | nil => simp [Sized]
    | cons o os =>
      cases is with
      | nil => simp [Sized]
      | cons i is =>
        refine ⟨fun hne => ?_, ih h.2 (fun j hj => hq j (by simp [hj])) (fun j hj => ho j (by simp [hj]))
          fun j hj => hi j (by simp [hj])⟩
        rw [ext_size hx (hq q (by simp)), ext_size hx (ho o (by simp)), ext_size hx (hi i (by simp))]
        exact h.1 hne

theorem Sized.mono {g : Graph} {size size' : Nat} (hs : size ≤ size') : ∀ {qs os is : List Nat},
    Sized g size qs os is → Sized g size' qs os is := by
  intro qs
  induction qs with
  | nil => intro os is _; simp [Sized]
  | cons q qs ih =>
    intro os is h
    cases os with
    | nil => simp [Sized]
    | cons o os =>
      cases is with
      | nil => simp [Sized]
      | cons i is => exact ⟨fun hne => by have := h.1 hne; omega, ih h.2⟩

theorem forall₂_mem {α β : Type} {R S : α → β → Prop} {l : List α} {l' : List β} (h : List.Forall₂ R l l')
    (hi : ∀ a ∈ l, ∀ b ∈ l', R a b → S a b) : List.Forall₂ S l l' := by
  induction h with
  | nil => exact .nil
  | cons h1 _ ih =>
    exact .cons (hi _ (by simp) _ (by simp) h1)
      (ih fun a ha b hb => hi a (by simp [ha]) b (by simp [hb]))

theorem loopOK_ext {cfg : Cfg} {g g' : Graph} {size : Nat} {ld : LoopData} (hw : WF g) (hx : Ext g g')
    (hr : ∀ j ∈ (Kind.loopOut ld 0).refs, j < g.next) (h : LoopOK cfg g size ld) : LoopOK cfg g' size ld := by
  obtain ⟨⟨base, h1, h2⟩, h3, h4, h5, h6, h7⟩ := h
  have ra := hr ld.active (by simp [Kind.refs])
  have ro : ∀ j ∈ ld.outerIn, j < g.next := fun j hj => hr j (by simp [Kind.refs, hj])
  have rq : ∀ j ∈ ld.innerIn, j < g.next := fun j hj => hr j (by simp [Kind.refs, hj])
  have ri : ∀ j ∈ ld.innerOut, j < g.next := fun j hj => hr j (by simp [Kind.refs, hj])
  refine ⟨⟨base, Nat.le_trans h1 hx.1, h2.ext hx⟩, h3, h4, ?_, h6.ext hx rq ro ri, fun hl => ?_⟩
  · rw [ext_size hx ra]; exact h5
  · refine forall₂_mem (h7 hl) fun i hi q hq hf sp lane e w ha hv => ?_
    exact (hf sp lane e w (ha.back hw hx ra) (hv.back hw hx (ri i hi))).ext hw hx (rq q hq)

theorem nodeOK_ext {cfg : Cfg} {g g' : Graph} {v : Node} (hw : WF g) (hx : Ext g g')
    (hr : ∀ j ∈ v.kind.refs, j < g.next) (h : NodeOK cfg g v) : NodeOK cfg g' v := by
  obtain ⟨k, size⟩ := v
  cases k with
  | lit c => trivial
  | input x => trivial
  | phi => trivial
  | op f args => intro a ha; rw [ext_size hx (hr a (by simpa [Kind.refs] using ha))]; exact h a ha
  | condOut c t f => simp only [NodeOK] at h ⊢; rw [ext_size hx (hr c (by simp [Kind.refs]))]; exact h
  | loopOut ld k => exact ⟨loopOK_ext hw hx hr h.1, h.2⟩

/-- Every variable of a graph is as it should be. -/
def AllOK (cfg : Cfg) (g : Graph) : Prop := ∀ i, i < g.next → NodeOK cfg g (g.node i)

/-- `g'` is well-formed, contains `g`, and its variables are as they should be. -/
structure Grow (cfg : Cfg) (g g' : Graph) : Prop where
  wf : WF g'
  ext : Ext g g'
  ok : AllOK cfg g → AllOK cfg g'

theorem Grow.refl {cfg : Cfg} {g : Graph} (hw : WF g) : Grow cfg g g := ⟨hw, .refl _, id⟩

theorem Grow.trans {cfg : Cfg} {g g' g'' : Graph} (h : Grow cfg g g') (h' : Grow cfg g' g'') : Grow cfg g g'' :=
  ⟨h'.wf, h.ext.trans h'.ext, fun a => h'.ok (h.ok a)⟩

theorem fresh_grow {cfg : Cfg} {g : Graph} {v : Node} (hw : WF g) (hv : ∀ j ∈ v.kind.refs, j < g.next)
    (hn : NodeOK cfg g v) : Grow cfg g (g.fresh v).1 := by
  obtain ⟨h1, h2, h3, h4⟩ := fresh_wf hw hv
  refine ⟨h1, h2, fun h i hi => ?_⟩
  by_cases hlt : i < g.next
  · rw [h2.2 i hlt]
    exact nodeOK_ext hw h2 (fun j hj => Nat.lt_trans (hw i hlt j hj) hlt) (h i hlt)
  · have : i = g.next := by simp only [Graph.fresh] at hi; omega
    subst this
    have h4 : (g.fresh v).1.node g.next = v := h4
    rw [h4]
    exact nodeOK_ext hw h2 hv hn

theorem new_grow {cfg : Cfg} (hc : CfgOK cfg) {g : Graph} {v : Node} (hw : WF g)
    (hv : ∀ j ∈ v.kind.refs, j < g.next) (hn : NodeOK cfg g v) :
    Grow cfg g (new cfg g v).1 ∧ (new cfg g v).1.size (new cfg g v).2 = v.size := by
  have h4 := (new_wf hc hw hv).2.2.2
  refine ⟨?_, by unfold Graph.size; rw [h4]⟩
  unfold new
  split
  · exact .refl hw
  · exact fresh_grow hw hv hn

theorem resize_grow {cfg : Cfg} (hc : CfgOK cfg) {g : Graph} {i size : Nat} (hw : WF g) (hi : i < g.next)
    (hs : g.size i ≤ size) :
    Grow cfg g (resize cfg g i size).1 ∧ (resize cfg g i size).1.size (resize cfg g i size).2 = size := by
  unfold resize
  split
  · next h => exact ⟨.refl hw, h⟩
  · split
    · exact new_grow hc hw (by simp [Kind.refs]) trivial
    · refine ⟨fresh_grow hw (by simp [Kind.refs, hi]) (by simpa [NodeOK] using hs), ?_⟩
      simp [Graph.size, Graph.fresh, set]

theorem foldl_max_init : ∀ (l : List Nat) (a : Nat), a ≤ l.foldl max a := by
  intro l
  induction l with
  | nil => intro a; exact Nat.le_refl _
  | cons b l ih => intro a; exact Nat.le_trans (Nat.le_max_left _ _) (ih _)

theorem le_foldl_max : ∀ (l : List Nat) (a x : Nat), x ∈ l → x ≤ l.foldl max a := by
  intro l
  induction l with
  | nil => intro a x h; simp at h
  | cons b l ih =>
    intro a x h
    rcases List.mem_cons.1 h with rfl | h
    · exact Nat.le_trans (Nat.le_max_right _ _) (foldl_max_init _ _)
    · exact ih _ x h

theorem le_maxSize {l : List Nat} {x : Nat} (h : x ∈ l) : x ≤ maxSize l := le_foldl_max l 0 x h

theorem recOp_grow {cfg : Cfg} (hc : CfgOK cfg) {g : Graph} {f : List Nat → Nat} {args : List Nat}
    {r : Graph × Nat} (hw : WF g) (ha : ∀ i ∈ args, i < g.next) (h : recOp cfg g f args = some r) :
    Grow cfg g r.1 := by
  unfold recOp at h
  dsimp only at h
  split at h
  · simp at h
  · split at h
    · next cs _ =>
      cases h
      exact (new_grow hc (v := ⟨.lit (f cs), maxSize (args.map g.size)⟩) hw (by simp [Kind.refs]) trivial).1
    · split at h
      · next i hi =>
        cases h
        have hs : cfg.simp g f args = some i := by
          split at hi
          · exact hi
          · simp at hi
        obtain ⟨k, hk, _⟩ := hc.simp _ _ _ _ hs
        have hm : i ∈ args := List.mem_of_getElem? hk
        exact (resize_grow hc hw (ha i hm) (le_maxSize (List.mem_map.2 ⟨i, hm, rfl⟩))).1
      · cases h
        exact (new_grow hc (v := ⟨.op f args, maxSize (args.map g.size)⟩) hw (by simpa [Kind.refs] using ha)
          (fun a hm => le_maxSize (List.mem_map.2 ⟨a, hm, rfl⟩))).1

theorem val_op_inv {g : Graph} {lane : Nat} {e : Nat → Nat} {i w : Nat} {f : List Nat → Nat}
    {args : List Nat} (h : (g.node i).kind = .op f args) (hv : Val sp g lane e i w) :
    ∃ vs, List.Forall₂ (Val sp g lane e) args vs ∧ w = f vs := by
  obtain ⟨n, hn⟩ := hv
  cases n with
  | zero => simp [den] at hn
  | succ n =>
    simp only [den, h, Option.map_eq_some_iff] at hn
    obtain ⟨vs, h1, rfl⟩ := hn
    exact ⟨vs, (evalAll_iff.1 h1).imp fun _ _ h => ⟨n, h⟩, rfl⟩

theorem resize_back {cfg : Cfg} (hc : CfgOK cfg) {g : Graph} {i size lane w : Nat} {e : Nat → Nat} (hw : WF g)
    (hi : i < g.next) (h : Val sp (resize cfg g i size).1 lane e (resize cfg g i size).2 w) :
    Val sp (resize cfg g i size).1 lane e i w := by
  obtain ⟨_, hx, _⟩ := resize_makes (sp := sp) hc size hw hi
  revert h hx
  unfold resize
  split
  · exact fun h _ => h
  · split
    · next c hl =>
      intro h hx
      have h4 := (new_wf hc (v := ⟨.lit c, size⟩) hw (by simp [Kind.refs])).2.2.2
      rw [h.unique (val_lit (by rw [h4]))]
      exact (val_of_literal hl).ext hw hx hi
    · intro h hx
      have h4 := (fresh_wf (v := ⟨.op (fun l => l.getD 0 0) [i], size⟩) hw (by simp [Kind.refs, hi])).2.2.2
      obtain ⟨vs, h5, h6⟩ := val_op_inv (congrArg Node.kind h4) h
      cases h5 with
      | cons h5 h7 => cases h7; simpa [h6] using h5

/-- A selection in a lane in which the mask is false. -/
theorem select_grow {cfg : Cfg} (hc : CfgOK cfg) {g : Graph} {m t f : Nat} {r : Graph × Nat} (hw : WF g)
    (hm : m < g.next) (ht : t < g.next) (hf : f < g.next) (h : select cfg g m t f = some r) :
    Grow cfg g r.1 ∧ r.1.size r.2 ≤ max (g.size m) (max (g.size t) (g.size f)) ∧
      ∀ sp lane e w, Val sp r.1 lane e m 0 → Val sp r.1 lane e r.2 w → Val sp r.1 lane e f w := by
  have hmax : maxSize [g.size m, g.size t, g.size f] = max (g.size m) (max (g.size t) (g.size f)) := by
    simp [maxSize]
  unfold select at h
  dsimp only at h
  rw [hmax] at h
  split at h
  · simp at h
  · split at h
    · next heq =>
      cases h
      obtain ⟨h1, h2⟩ := resize_grow hc (size := max (g.size m) (max (g.size t) (g.size f))) hw ht (by omega)
      exact ⟨h1, Nat.le_of_eq h2, fun sp lane e w _ hv => by
        have := resize_back hc hw ht hv
        have h' : f = t := heq.symm
        rw [h'] at this ⊢; exact this⟩
    · split at h
      · next hl =>
        cases h
        obtain ⟨h1, h2⟩ := resize_grow hc (size := max (g.size m) (max (g.size t) (g.size f))) hw hf (by omega)
        exact ⟨h1, Nat.le_of_eq h2, fun sp lane e w _ hv => resize_back hc hw hf hv⟩
      · next c hne hl =>
        cases h
        have hl : g.literal m = some c := by
          split at hl
          · exact hl
          · simp at hl
        obtain ⟨h1, h2⟩ := resize_grow hc (size := max (g.size m) (max (g.size t) (g.size f))) hw ht (by omega)
        refine ⟨h1, Nat.le_of_eq h2, fun sp lane e w h0 hv => ?_⟩
        have := (h0.back hw h1.ext hm).unique (val_of_literal hl)
        exact absurd this.symm hne
      · cases h
        have hr : ∀ j ∈ (Node.mk (.op selectVal [m, t, f]) (max (g.size m) (max (g.size t) (g.size f)))).kind.refs,
            j < g.next := by simp [Kind.refs, hm, ht, hf]
        obtain ⟨h1, h2⟩ := new_grow hc hw hr (by
          intro a ha
          simp only [List.mem_cons, List.not_mem_nil, or_false] at ha
          dsimp only
          rcases ha with rfl | rfl | rfl <;> omega)
        refine ⟨h1, Nat.le_of_eq h2, fun sp lane e w h0 hv => ?_⟩
        have h4 := (new_wf hc hw hr).2.2.2
        obtain ⟨vs, h5, h6⟩ := val_op_inv (congrArg Node.kind h4) hv
        cases h5 with
        | cons a1 h5 =>
          cases h5 with
          | cons a2 h5 =>
            cases h5 with
            | cons a3 h5 =>
              cases h5
              have := a1.unique h0; subst this
              simp only [selectVal, ne_eq, not_true_eq_false, if_false] at h6
              subst h6
              exact a3

theorem condEnd_grow {cfg : Cfg} {c size : Nat} : ∀ {ts fs : List Nat} {g : Graph} {r : Graph × List Nat}, WF g →
    c < g.next → g.size c ≤ size → (∀ i ∈ ts, i < g.next) → (∀ i ∈ fs, i < g.next) → condEnd c size g ts fs = some r →
    Grow cfg g r.1 := by
  intro ts
  induction ts with
  | nil =>
    intro fs g r hw hc hsz ht hf h
    cases fs with
    | nil => simp only [condEnd, Option.some.injEq] at h; subst h; exact .refl hw
    | cons f fs => simp [condEnd] at h
  | cons t ts ih =>
    intro fs g r hw hc hsz ht hf h
    cases fs with
    | nil => simp [condEnd] at h
    | cons f fs =>
      simp only [condEnd, Option.bind_eq_some_iff, Option.map_eq_some_iff] at h
      obtain ⟨⟨g1, o⟩, h1, ⟨g2, os⟩, h2, rfl⟩ := h
      have hg : Grow cfg g g1 := by
        unfold condOutput at h1
        split at h1
        · cases h1; exact .refl hw
        · dsimp only at h1
          split at h1
          · simp at h1
          · cases h1
            exact fresh_grow hw (by simp [Kind.refs, hc, ht t, hf f]) hsz
      have hm : ∀ {i}, i < g.next → i < g1.next := fun h => Nat.lt_of_lt_of_le h hg.ext.1
      exact hg.trans (ih (fs := fs) (r := (g2, os)) hg.wf (hm hc) (by rw [ext_size hg.ext hc]; exact hsz)
        (fun i hi => hm (ht i (by simp [hi]))) (fun i hi => hm (hf i (by simp [hi]))) h2)

theorem makePhis_grow {cfg : Cfg} : ∀ {os : List Nat} {g : Graph}, WF g → Grow cfg g (makePhis g os).1 := by
  intro os
  induction os with
  | nil => intro g hw; exact .refl hw
  | cons o os ih =>
    intro g hw
    have := fresh_grow (cfg := cfg) (v := ⟨.phi, g.size o⟩) hw (by simp [Kind.refs]) trivial
    exact this.trans (ih this.wf)

/-- Loop variables have the sizes of the outer variables. -/
def PhiSize (g : Graph) : List Nat → List Nat → Prop
  | q :: qs, o :: os => g.size q = g.size o ∧ PhiSize g qs os
  | _, _ => True

theorem PhiSize.ext {g g' : Graph} (hx : Ext g g') : ∀ {qs os : List Nat}, PhiSize g qs os →
    (∀ i ∈ qs, i < g.next) → (∀ i ∈ os, i < g.next) → PhiSize g' qs os := by
  intro qs
  induction qs with
  | nil => intro os _ _ _; simp [PhiSize]
  | cons q qs ih =>
    intro os h hq ho
    cases os with
    | nil => simp [PhiSize]
    | cons o os =>
      refine ⟨?_, ih h.2 (fun j hj => hq j (by simp [hj])) (fun j hj => ho j (by simp [hj]))⟩
      rw [ext_size hx (hq q (by simp)), ext_size hx (ho o (by simp))]; exact h.1

theorem makePhis_size : ∀ {os : List Nat} {g : Graph}, WF g → (∀ o ∈ os, o < g.next) →
    PhiSize (makePhis g os).1 (makePhis g os).2 os := by
  intro os
  induction os with
  | nil => intro g hw _; simp [makePhis, PhiSize]
  | cons o os ih =>
    intro g hw ho
    have hg := fresh_grow (cfg := ⟨false, false, false, fun _ _ => none, fun _ _ _ => none⟩)
      (v := ⟨.phi, g.size o⟩) hw (by simp [Kind.refs]) trivial
    have hm : ∀ {i}, i < g.next → i < (g.fresh ⟨.phi, g.size o⟩).1.next := fun h => Nat.lt_of_lt_of_le h hg.ext.1
    have hg2 := makePhis_grow (cfg := ⟨false, false, false, fun _ _ => none, fun _ _ _ => none⟩) (os := os) hg.wf
    refine ⟨?_, ih hg.wf fun i hi => hm (ho i (by simp [hi]))⟩
    have h1 : (makePhis g (o :: os)).1.size g.next = g.size o := by
      rw [show (makePhis g (o :: os)).1 = (makePhis (g.fresh ⟨.phi, g.size o⟩).1 os).1 from rfl,
        ext_size hg2.ext (Nat.lt_succ_self _)]
      simp [Graph.size, Graph.fresh, set]
    show (makePhis g (o :: os)).1.size g.next = _
    rw [h1]
    exact (ext_size (hg.ext.trans hg2.ext) (ho o (by simp))).symm

theorem reduced_size {cfg : Cfg} {g : Graph} {size : Nat} : ∀ {os ps ys : List Nat}, PhiSize g ps os →
    PhiSize g (reduced cfg g size os ps ys) os := by
  intro os
  induction os with
  | nil => intro ps ys _; simp [reduced, PhiSize]
  | cons o os ih =>
    intro ps ys h
    cases ps with
    | nil => simp [reduced, PhiSize]
    | cons p ps =>
      cases ys with
      | nil => simp [reduced, PhiSize]
      | cons y ys =>
        simp only [reduced, PhiSize]
        refine ⟨?_, ih h.2⟩
        split_ifs
        · rfl
        · exact h.1

/-- The sizes of the variables that change are at most that of the loop. -/
def Within (g : Graph) (size : Nat) : List Nat → List Nat → List Nat → Prop
  | q :: qs, o :: os, y :: ys => (y ≠ q → g.size o ≤ size ∧ g.size y ≤ size) ∧ Within g size qs os ys
  | _, _, _ => True

theorem Within.imp {g g' : Graph} (hx : Ext g g') {size size' : Nat} (hs : size ≤ size') : ∀ {qs os ys : List Nat},
    Within g size qs os ys → (∀ i ∈ os, i < g.next) → (∀ i ∈ ys, i < g.next) → Within g' size' qs os ys := by
  intro qs
  induction qs with
  | nil => intro os ys _ _ _; simp [Within]
  | cons q qs ih =>
    intro os ys h ho hy
    cases os with
    | nil => simp [Within]
    | cons o os =>
      cases ys with
      | nil => simp [Within]
      | cons y ys =>
        refine ⟨fun hne => ?_, ih h.2 (fun j hj => ho j (by simp [hj])) (fun j hj => hy j (by simp [hj]))⟩
        rw [ext_size hx (ho o (by simp)), ext_size hx (hy y (by simp))]
        have := h.1 hne; omega

theorem Within.mono {g : Graph} {size size' : Nat} (hs : size ≤ size') : ∀ {qs os ys : List Nat},
    Within g size qs os ys → Within g size' qs os ys := by
  intro qs
  induction qs with
  | nil => intro os ys _; simp [Within]
  | cons q qs ih =>
    intro os ys h
    cases os with
    | nil => simp [Within]
    | cons o os =>
      cases ys with
      | nil => simp [Within]
      | cons y ys => exact ⟨fun hne => by have := h.1 hne; omega, ih h.2⟩

theorem loopSize_within {g : Graph} {active : Nat} : ∀ {os qs ys : List Nat},
    g.size active ≤ loopSize g active os qs ys ∧ Within g (loopSize g active os qs ys) qs os ys := by
  intro os
  induction os with
  | nil => intro qs ys; cases qs <;> exact ⟨by simp [loopSize]; omega, by simp [Within]⟩
  | cons o os ih =>
    intro qs ys
    cases qs with
    | nil => exact ⟨by simp [loopSize]; omega, by simp [Within]⟩
    | cons q qs =>
      cases ys with
      | nil => exact ⟨by simp [loopSize]; omega, by simp [Within]⟩
      | cons y ys =>
        obtain ⟨h1, h2⟩ := ih (qs := qs) (ys := ys)
        have hle : loopSize g active os qs ys ≤ loopSize g active (o :: os) (q :: qs) (y :: ys) := by
          simp only [loopSize]; split_ifs <;> omega
        refine ⟨Nat.le_trans h1 hle, fun hne => ?_, ?_⟩
        · simp only [loopSize, if_neg hne]; omega
        · exact h2.mono hle

theorem loopNexts_grow {cfg : Cfg} (hc : CfgOK cfg) {active : Nat} : ∀ {os qs ys : List Nat}
    {g : Graph} {size : Nat} {r : Graph × List Nat × Nat}, WF g → active < g.next → g.size active ≤ size →
    (∀ q ∈ qs, q < g.next) → (∀ y ∈ ys, y < g.next) → (∀ o ∈ os, o < g.next) → PhiSize g qs os →
    Within g size qs os ys → loopNexts cfg active g size os qs ys = some r →
    Grow cfg g r.1 ∧ size ≤ r.2.2 ∧ (∀ i ∈ r.2.1, i < r.1.next) ∧ Sized r.1 r.2.2 qs os r.2.1 ∧
    (cfg.llvm = true → List.Forall₂ (fun i q => ∀ sp lane e w, Val sp r.1 lane e active 0 →
      Val sp r.1 lane e i w → Val sp r.1 lane e q w) r.2.1 qs) := by
  intro os
  induction os with
  | nil =>
    intro qs ys g size r hw ha has hq hy ho hp hwi h
    cases qs with
    | cons _ _ => simp [loopNexts] at h
    | nil =>
      cases ys with
      | cons _ _ => simp [loopNexts] at h
      | nil =>
        simp only [loopNexts, Option.some.injEq] at h; subst h
        exact ⟨.refl hw, Nat.le_refl _, by simp, by simp [Sized], fun _ => .nil⟩
  | cons o os ih =>
    intro qs ys g size r hw ha has hq hy ho hp hwi h
    cases qs with
    | nil => simp [loopNexts] at h
    | cons q qs =>
      cases ys with
      | nil => simp [loopNexts] at h
      | cons y ys =>
        simp only [loopNexts, Option.bind_eq_some_iff, Option.map_eq_some_iff] at h
        obtain ⟨⟨g1, i, size1⟩, h1, ⟨g2, is, size2⟩, h2, rfl⟩ := h
        dsimp only at h2 ⊢
        have hqq := hq q (by simp)
        have hyy := hy y (by simp)
        have hoo := ho o (by simp)
        have step : Grow cfg g g1 ∧ size ≤ size1 ∧ i < g1.next ∧
            (q ≠ o → g1.size i ≤ size1 ∧ g.size q ≤ size1 ∧ g.size o ≤ size1) ∧
            (cfg.llvm = true → ∀ sp lane e w, Val sp g1 lane e active 0 → Val sp g1 lane e i w → Val sp g1 lane e q w) := by
          unfold loopNext at h1
          split at h1
          · next hne =>
            split at h1
            · simp at h1
            · dsimp only at h1
              have hsz : g.size q ≤ max (g.size y) size ∧ g.size o ≤ max (g.size y) size := by
                by_cases hyq : y = q
                · rw [hyq]; have := hp.1; omega
                · have := hwi.1 hyq; have := hp.1; omega
              split at h1
              · simp only [Option.map_eq_some_iff] at h1
                obtain ⟨⟨g1', i'⟩, h1, h3⟩ := h1
                cases h3
                obtain ⟨a1, a2, a3⟩ := select_grow hc hw ha hyy hqq h1
                obtain ⟨_, _, a4, _⟩ := select_makes (sp := false) hc hw ha hyy hqq h1
                refine ⟨a1, by omega, a4, fun _ => ⟨?_, hsz.1, hsz.2⟩, fun _ => a3⟩
                dsimp only at a2 ⊢
                omega
              · next hll =>
                cases h1
                exact ⟨.refl hw, by omega, hyy, fun _ => ⟨by omega, hsz.1, hsz.2⟩, fun h => absurd h hll⟩
          · next he =>
            split at h1
            · simp at h1
            · cases h1
              exact ⟨.refl hw, Nat.le_refl _, hqq, fun h => absurd h he, fun _ _ _ _ _ _ h => h⟩
        obtain ⟨a1, a2, a3, a4, a5⟩ := step
        have hm : ∀ {i}, i < g.next → i < g1.next := fun h => Nat.lt_of_lt_of_le h a1.ext.1
        obtain ⟨b1, b2, b3, b4, b5⟩ := ih a1.wf (hm ha) (by rw [ext_size a1.ext ha]; omega)
          (fun i hi => hm (hq i (by simp [hi]))) (fun i hi => hm (hy i (by simp [hi])))
          (fun i hi => hm (ho i (by simp [hi])))
          (hp.2.ext a1.ext (fun i hi => hq i (by simp [hi])) (fun i hi => ho i (by simp [hi])))
          (hwi.2.imp a1.ext a2 (fun i hi => ho i (by simp [hi])) (fun i hi => hy i (by simp [hi]))) h2
        dsimp only at b1 b2 b3 b4 b5
        refine ⟨a1.trans b1, by omega, ?_, ⟨fun hne => ?_, b4⟩, fun hl => .cons ?_ (b5 hl)⟩
        · intro j hj
          rcases List.mem_cons.1 hj with rfl | hj
          · exact Nat.lt_of_lt_of_le a3 b1.ext.1
          · exact b3 j hj
        · rw [ext_size b1.ext (hm hqq), ext_size b1.ext (hm hoo), ext_size b1.ext a3, ext_size a1.ext hqq,
            ext_size a1.ext hoo]
          have := a4 hne; omega
        · intro sp lane e w h0 hv
          exact (a5 hl sp lane e w (h0.back a1.wf b1.ext (hm ha)) (hv.back a1.wf b1.ext a3)).ext a1.wf b1.ext (hm hqq)

theorem loopOuts_grow {cfg : Cfg} {ld : LoopData} {size : Nat} : ∀ {os qs is : List Nat} {g : Graph} {k : Nat},
    WF g → (∀ j ∈ (Kind.loopOut ld 0).refs, j < g.next) → LoopOK cfg g size ld →
    (∀ j : Nat, qs[j]? = ld.innerIn[k + j]?) → (∀ j : Nat, os[j]? = ld.outerIn[k + j]?) →
    Grow cfg g (loopOuts ld size g k os qs is).1 := by
  intro os
  induction os with
  | nil => intro qs is g k hw _ _ _ _; simp only [loopOuts]; exact .refl hw
  | cons o os ih =>
    intro qs is g k hw hr hl hq ho
    cases qs with
    | nil => simp only [loopOuts]; exact .refl hw
    | cons q qs =>
      cases is with
      | nil => simp only [loopOuts]; exact .refl hw
      | cons i is =>
        have hstep : ∃ g1 r1, (if q ≠ o then g.fresh ⟨.loopOut ld k, size⟩ else (g, i)) = (g1, r1) ∧ Grow cfg g g1 := by
          by_cases hqo : q ≠ o
          · rw [if_pos hqo]
            exact ⟨_, _, rfl, fresh_grow hw hr ⟨hl, q, o, by simpa using (hq 0).symm, by simpa using (ho 0).symm, hqo⟩⟩
          · rw [if_neg hqo]; exact ⟨_, _, rfl, .refl hw⟩
        obtain ⟨g1, r1, heq, hg⟩ := hstep
        simp only [loopOuts, heq]
        refine hg.trans (ih hg.wf (fun j hj => Nat.lt_of_lt_of_le (hr j hj) hg.ext.1) ?_ ?_ ?_)
        · exact loopOK_ext hw hg.ext hr hl
        · intro j; have := hq (j + 1); simp only [List.getElem?_cons_succ] at this
          rw [this, show k + (j + 1) = k + 1 + j by omega]
        · intro j; have := ho (j + 1); simp only [List.getElem?_cons_succ] at this
          rw [this, show k + (j + 1) = k + 1 + j by omega]

theorem loopFinish_grow {cfg : Cfg} (hc : CfgOK cfg) {g : Graph} {active base : Nat}
    {os qs ys : List Nat} {r : Graph × List Nat} (hw : WF g) (ha : active < g.next)
    (hb : base ≤ g.next) (hin : Inner g base base os qs) (hp : PhiSize g qs os)
    (hy : ∀ y ∈ ys, y < g.next) (h : loopFinish cfg g active os qs ys = some r) : Grow cfg g r.1 := by
  have hos : ∀ o ∈ os, o < g.next := fun o ho => Nat.lt_of_lt_of_le ((hin.lt hb).2 o ho) hb
  simp only [loopFinish, Option.map_eq_some_iff] at h
  obtain ⟨⟨g1, is, size⟩, h1, rfl⟩ := h
  obtain ⟨⟨hfx, hl1, hl2⟩, _⟩ := loopNexts_made (sp := false) hc hw ha (hin.lt hb).1 hy hos h1
  obtain ⟨hs1, hs2⟩ := loopSize_within (g := g) (active := active) (os := os) (qs := qs) (ys := ys)
  obtain ⟨b1, b2, b3, b4, b5⟩ := loopNexts_grow hc hw ha hs1 (hin.lt hb).1 hy hos hp hs2 h1
  dsimp only at b1 b2 b3 b4 b5 hfx hl1 ⊢
  have hm : ∀ {i}, i < g.next → i < g1.next := fun h => Nat.lt_of_lt_of_le h b1.ext.1
  refine b1.trans (loopOuts_grow b1.wf ?_ ⟨⟨base, Nat.le_trans hb b1.ext.1, hin.ext b1.ext⟩, hl1, hfx, ?_, b4, b5⟩
    (by simp) (by simp))
  · intro j hj
    simp only [Kind.refs, List.mem_cons, List.mem_append] at hj
    rcases hj with rfl | (hj | hj) | hj
    · exact hm ha
    · exact hm (hos j hj)
    · exact hm ((hin.lt hb).1 j hj)
    · exact b3 j hj
  · dsimp only
    rw [ext_size b1.ext ha]
    exact Nat.le_trans hs1 b2

mutual

theorem recS_grow {cfg : Cfg} (hc : CfgOK cfg) : ∀ (st : Stmt) (g : Graph) (xs : List Nat)
    (r : Graph × List Nat), WF g → (∀ i ∈ xs, i < g.next) → recS cfg st g xs = some r → Grow cfg g r.1
  | .lit c size, g, xs, r, hw, hx, h => by
    simp only [recS, Option.some.injEq] at h; subst h
    exact (new_grow hc (v := ⟨.lit c, size⟩) hw (by simp [Kind.refs]) trivial).1
  | .input x size, g, xs, r, hw, hx, h => by
    simp only [recS, Option.some.injEq] at h; subst h
    exact fresh_grow (v := ⟨.input x, size⟩) hw (by simp [Kind.refs]) trivial
  | .op f args, g, xs, r, hw, hx, h => by
    simp only [recS, Option.bind_eq_some_iff, Option.map_eq_some_iff] at h
    obtain ⟨is, hp, ⟨g1, i⟩, h1, rfl⟩ := h
    exact recOp_grow hc hw (fun i hi => hx i (pick_mem hp i hi)) h1
  | .ite c t f, g, xs, r, hw, hx, h => by
    simp only [recS, Option.bind_eq_some_iff, Option.map_eq_some_iff] at h
    obtain ⟨ci, hci, ⟨g1, ts⟩, h1, ⟨g2, fs⟩, h2, ⟨g3, os⟩, h3, rfl⟩ := h
    have a := recB_ok (sp := false) hc t g xs _ hw hx h1
    have a' := recB_grow hc t g xs _ hw hx h1
    have hm1 : ∀ {i}, i < g.next → i < g1.next := fun h => Nat.lt_of_lt_of_le h a.ext.1
    have b := recB_ok (sp := false) hc f g1 xs _ a.wf (fun i hi => hm1 (hx i hi)) h2
    have b' := recB_grow hc f g1 xs _ a.wf (fun i hi => hm1 (hx i hi)) h2
    have hm2 : ∀ {i}, i < g1.next → i < g2.next := fun h => Nat.lt_of_lt_of_le h b.ext.1
    exact (a'.trans b').trans (condEnd_grow (r := (g3, os)) b.wf (hm2 (hm1 (hx ci (List.mem_of_getElem? hci))))
      (Nat.le_refl _) (fun i hi => hm2 (a.lt i hi)) b.lt h3)
  | .loop st cond body, g, xs, r, hw, hx, h => by
    simp only [recS, Option.bind_eq_some_iff] at h
    obtain ⟨os, hos, ⟨g2, as⟩, h2, a, ha, ⟨g3, ys⟩, h3, h⟩ := h
    have ho : ∀ o ∈ os, o < g.next := fun o ho => hx o (pick_mem hos o ho)
    obtain ⟨p1, p2, p3⟩ := makePhis_inner hw (Nat.le_refl _) ho
    have pg := makePhis_grow (cfg := cfg) (os := os) hw
    have psz := makePhis_size hw ho
    revert h2 h3 h
    generalize hph : makePhis g os = ph at p1 p2 p3 pg psz
    obtain ⟨g1, ps⟩ := ph
    dsimp only at p1 p2 p3 pg psz ⊢
    intro h2 h3 h
    have := one_some ha; subst this
    have hlt1 : ∀ i ∈ xs ++ ps, i < g1.next := append_lt hx p2.1 (p3.lt p2.1).1
    have c := recB_ok (sp := false) hc cond g1 _ _ p1 hlt1 h2
    have c' := recB_grow hc cond g1 _ _ p1 hlt1 h2
    have hlt2 : ∀ i ∈ xs ++ ps, i < g2.next := fun i hi => Nat.lt_of_lt_of_le (hlt1 i hi) c.ext.1
    have b := recB_ok (sp := false) hc body g2 _ _ c.wf hlt2 h3
    have b' := recB_grow hc body g2 _ _ c.wf hlt2 h3
    dsimp only at c' b'
    split at h
    · simp at h
    next hlen =>
    have hlen : ys.length = ps.length := by simpa using hlen
    have e13 : Ext g1 g3 := c.ext.trans b.ext
    have e03 : Ext g g3 := p2.trans e13
    have hin3 : Inner g3 g.next g.next os ps := p3.ext e13
    have psz3 : PhiSize g3 ps os := psz.ext e13 (p3.lt p2.1).1 fun o h => Nat.lt_of_lt_of_le (ho o h) p2.1
    have g03 : Grow cfg g g3 := pg.trans (c'.trans b')
    generalize hqs : reduced cfg g3 (loopSize g3 a os ps ys) os ps ys = qs at h
    have hinq : Inner g3 g.next g.next os qs := hqs ▸ reduced_inner hin3 ys hlen
    have pszq : PhiSize g3 qs os := hqs ▸ reduced_size psz3
    split at h
    · next heq =>
      subst heq
      simp only [Option.map_eq_some_iff] at h
      obtain ⟨⟨g6, rs⟩, h6, rfl⟩ := h
      exact g03.trans (loopFinish_grow (r := (g6, rs)) hc b.wf (Nat.lt_of_lt_of_le (c.lt a (by simp)) b.ext.1) e03.1 hinq pszq b.lt h6)
    · simp only [Option.bind_eq_some_iff, Option.map_eq_some_iff] at h
      obtain ⟨⟨g4, as'⟩, h4, a', ha', ⟨g5, ys'⟩, h5, ⟨g6, rs⟩, h6, rfl⟩ := h
      have := one_some ha'; subst this
      have hlt3 : ∀ i ∈ xs ++ qs, i < g3.next := append_lt hx e03.1 (hinq.lt e03.1).1
      have c2 := recB_ok (sp := false) hc cond g3 _ _ b.wf hlt3 h4
      have c2' := recB_grow hc cond g3 _ _ b.wf hlt3 h4
      have hlt4 : ∀ i ∈ xs ++ qs, i < g4.next := fun i hi => Nat.lt_of_lt_of_le (hlt3 i hi) c2.ext.1
      have b2 := recB_ok (sp := false) hc body g4 _ _ c2.wf hlt4 h5
      have b2' := recB_grow hc body g4 _ _ c2.wf hlt4 h5
      have e35 : Ext g3 g5 := c2.ext.trans b2.ext
      refine (g03.trans (c2'.trans b2')).trans (loopFinish_grow (r := (g6, rs)) hc b2.wf
        (Nat.lt_of_lt_of_le (c2.lt a' (by simp)) b2.ext.1) (e03.trans e35).1 (hinq.ext e35)
        (pszq.ext e35 (hinq.lt e03.1).1 fun o h => Nat.lt_of_lt_of_le (ho o h) e03.1) b2.lt h6)

theorem recB_grow {cfg : Cfg} (hc : CfgOK cfg) : ∀ (b : Block) (g : Graph) (xs : List Nat)
    (r : Graph × List Nat), WF g → (∀ i ∈ xs, i < g.next) → recB cfg b g xs = some r → Grow cfg g r.1
  | .ret res, g, xs, r, hw, hx, h => by
    simp only [recB, Option.map_eq_some_iff] at h
    obtain ⟨is, hp, rfl⟩ := h
    exact .refl hw
  | .seq s b, g, xs, r, hw, hx, h => by
    simp only [recB, Option.bind_eq_some_iff] at h
    obtain ⟨⟨g1, xs1⟩, h1, h2⟩ := h
    have a := recS_ok (sp := false) hc s g xs _ hw hx h1
    exact (recS_grow hc s g xs _ hw hx h1).trans (recB_grow hc b g1 xs1 _ a.wf a.lt h2)

end

end Verif.Ctrl
