import Verif.Ctrl.Lemmas

/-
Symbolic loops and conditionals: the recorded variables have the values of the program.
-/

namespace Verif.Ctrl

variable {sp : Bool}

theorem pick_vals {R : Nat → Nat → Prop} {xs vs : List Nat} (h : List.Forall₂ R xs vs) :
    ∀ {ks is ws : List Nat}, pick xs ks = some is → pick vs ks = some ws → List.Forall₂ R is ws := by
  intro ks
  induction ks with
  | nil => intro is ws h1 h2; simp only [pick, evalAll, Option.some.injEq] at h1 h2; subst h1 h2; exact .nil
  | cons k ks ih =>
    intro is ws h1 h2
    simp only [pick, evalAll, Option.bind_eq_some_iff, Option.map_eq_some_iff] at h1 h2
    obtain ⟨a, ha, is', hi, rfl⟩ := h1
    obtain ⟨w, hw, ws', hws, rfl⟩ := h2
    obtain ⟨v, hv, hr⟩ := vals_getElem h k a ha
    rw [hv] at hw; cases hw
    exact .cons hr (ih hi hws)

theorem pick_mem {xs : List Nat} : ∀ {ks is : List Nat}, pick xs ks = some is → ∀ i ∈ is, i ∈ xs := by
  intro ks
  induction ks with
  | nil => intro is h; simp only [pick, evalAll, Option.some.injEq] at h; subst h; simp
  | cons k ks ih =>
    intro is h
    simp only [pick, evalAll, Option.bind_eq_some_iff, Option.map_eq_some_iff] at h
    obtain ⟨a, ha, is', hi, rfl⟩ := h
    intro i hm
    rcases List.mem_cons.1 hm with rfl | hm
    · exact List.mem_of_getElem? ha
    · exact ih hi i hm

/-! ### Conditionals -/

theorem condOutput_makes {g : Graph} {c size t f : Nat} {r : Graph × Nat} (hw : WF g)
    (hc : c < g.next) (ht : t < g.next) (hf : f < g.next) (h : condOutput g c size t f = some r) :
    Makes sp g r fun lane e v => ∃ b, Val sp g lane e c b ∧ Val sp g lane e (if b ≠ 0 then t else f) v ∧
      (sp = true → ∃ x, Val sp g lane e (if b ≠ 0 then f else t) x) := by
  unfold condOutput at h
  split at h
  · next he =>
    cases h
    refine ⟨hw, .refl _, hf, ?_⟩
    rintro lane e v ⟨b, _, hv, _⟩
    rcases he with rfl | ⟨h1, h2⟩
    · rwa [ite_self] at hv
    · obtain ⟨x, hx⟩ := Option.ne_none_iff_exists'.1 h1
      have hx' := h2 ▸ hx
      have : v = x := by
        split_ifs at hv
        · exact hv.unique (val_of_literal hx)
        · exact hv.unique (val_of_literal hx')
      subst this
      exact val_of_literal hx'
  · dsimp only at h
    split at h
    · simp at h
    · cases h
      obtain ⟨h1, h2, h3, h4⟩ := fresh_wf (v := ⟨.condOut c t f, size⟩) hw
        (by simp [Kind.refs, hc, ht, hf])
      refine ⟨h1, h2, h3, ?_⟩
      rintro lane e v ⟨b, hb, hv, ho⟩
      refine val_cond (by rw [h4]) (hb.ext hw h2 hc) (hv.ext hw h2 ?_) fun hs => ?_
      · split_ifs <;> assumption
      · obtain ⟨x, hx⟩ := ho hs
        exact ⟨x, hx.ext hw h2 (by split_ifs <;> assumption)⟩

/-- What a part of the recording achieves. -/
structure Made (sp : Bool) (g : Graph) (r : Graph × List Nat)
    (P : Nat → (Nat → Nat) → List Nat → Prop) : Prop where
  wf : WF r.1
  ext : Ext g r.1
  lt : ∀ i ∈ r.2, i < r.1.next
  val : ∀ lane e vs, P lane e vs → List.Forall₂ (Val sp r.1 lane e) r.2 vs

theorem condEnd_made {c size : Nat} : ∀ {ts fs : List Nat} {g : Graph} {r : Graph × List Nat}, WF g →
    c < g.next → (∀ i ∈ ts, i < g.next) → (∀ i ∈ fs, i < g.next) → condEnd c size g ts fs = some r →
    Made sp g r fun lane e vs => ∃ b, Val sp g lane e c b ∧
      List.Forall₂ (Val sp g lane e) (if b ≠ 0 then ts else fs) vs ∧
      (sp = true → ∃ us, List.Forall₂ (Val sp g lane e) (if b ≠ 0 then fs else ts) us) := by
  intro ts
  induction ts with
  | nil =>
    intro fs g r hw hc ht hf h
    cases fs with
    | nil =>
      simp only [condEnd, Option.some.injEq] at h; subst h
      refine ⟨hw, .refl _, by simp, ?_⟩
      rintro lane e vs ⟨b, _, hv, _⟩
      simpa using hv
    | cons f fs => simp [condEnd] at h
  | cons t ts ih =>
    intro fs g r hw hc ht hf h
    cases fs with
    | nil => simp [condEnd] at h
    | cons f fs =>
      simp only [condEnd, Option.bind_eq_some_iff, Option.map_eq_some_iff] at h
      obtain ⟨⟨g1, o⟩, h1, ⟨g2, os⟩, h2, rfl⟩ := h
      obtain ⟨a1, a2, a3, a4⟩ := condOutput_makes hw hc (ht t (by simp)) (hf f (by simp)) h1
      have hm : ∀ {i}, i < g.next → i < g1.next := fun h => Nat.lt_of_lt_of_le h a2.1
      obtain ⟨b1, b2, b3, b4⟩ := ih a1 (hm hc) (fun i hi => hm (ht i (by simp [hi])))
        (fun i hi => hm (hf i (by simp [hi]))) h2
      refine ⟨b1, a2.trans b2, ?_, ?_⟩
      · intro i hi
        rcases List.mem_cons.1 hi with rfl | hi
        · exact Nat.lt_of_lt_of_le a3 b2.1
        · exact b3 i hi
      · rintro lane e vs ⟨b, hb, hv, hoth⟩
        have hb1 := hb.ext hw a2 hc
        have hoth' : sp = true → ∃ x us, Val sp g lane e (if b ≠ 0 then f else t) x ∧
            List.Forall₂ (Val sp g lane e) (if b ≠ 0 then fs else ts) us := by
          intro hs
          obtain ⟨us, hu⟩ := hoth hs
          split_ifs at hu ⊢ <;> cases hu with | cons h1 h2 => exact ⟨_, _, h1, h2⟩
        have hlo : ∀ i ∈ (if b ≠ 0 then fs else ts), i < g.next := by
          intro i hi
          split_ifs at hi
          · exact hf i (by simp [hi])
          · exact ht i (by simp [hi])
        have ho1 : sp = true → ∃ x, Val sp g lane e (if b ≠ 0 then f else t) x := fun hs => by
          obtain ⟨x, _, h, _⟩ := hoth' hs; exact ⟨x, h⟩
        have ho2 : sp = true → ∃ us, List.Forall₂ (Val sp g1 lane e) (if b ≠ 0 then fs else ts) us := fun hs => by
          obtain ⟨_, us, _, h⟩ := hoth' hs; exact ⟨us, vals_ext h hw a2 hlo⟩
        by_cases h0 : b ≠ 0
        · rw [if_pos h0] at hv
          cases hv with
          | cons hv1 hv2 =>
            refine .cons ((a4 lane e _ ⟨b, hb, by rw [if_pos h0]; exact hv1, ho1⟩).ext a1 b2 a3) ?_
            refine b4 lane e _ ⟨b, hb1, ?_, ho2⟩
            rw [if_pos h0]
            exact vals_ext hv2 hw a2 fun i hi => ht i (by simp [hi])
        · rw [if_neg h0] at hv
          cases hv with
          | cons hv1 hv2 =>
            refine .cons ((a4 lane e _ ⟨b, hb, by rw [if_neg h0]; exact hv1, ho1⟩).ext a1 b2 a3) ?_
            refine b4 lane e _ ⟨b, hb1, ?_, ho2⟩
            rw [if_neg h0]
            exact vals_ext hv2 hw a2 fun i hi => hf i (by simp [hi])

/-! ### Loops -/

/-- The inner variables of a loop are `phi` variables from `N` on, except for those that were
eliminated and are equal to the outer variables. -/
inductive Inner (g : Graph) (base : Nat) : Nat → List Nat → List Nat → Prop
  | nil {N} : Inner g base N [] []
  | phi {N o os qs} : o < base → base ≤ N → N < g.next → (g.node N).kind = .phi →
      Inner g base (N + 1) os qs → Inner g base N (o :: os) (N :: qs)
  | elim {N o os qs} : o < base → base ≤ N → Inner g base (N + 1) os qs →
      Inner g base N (o :: os) (o :: qs)

theorem Inner.ext {g g' : Graph} {base : Nat} (hx : Ext g g') {N os qs} (h : Inner g base N os qs) :
    Inner g' base N os qs := by
  induction h with
  | nil => exact .nil
  | phi h1 h2 h3 h4 _ ih => exact .phi h1 h2 (Nat.lt_of_lt_of_le h3 hx.1) (by rw [hx.2 _ h3]; exact h4) ih
  | elim h1 h2 _ ih => exact .elim h1 h2 ih

theorem Inner.lt {g : Graph} {base : Nat} (hb : base ≤ g.next) {N os qs} (h : Inner g base N os qs) :
    (∀ q ∈ qs, q < g.next) ∧ ∀ o ∈ os, o < base := by
  induction h with
  | nil => simp
  | phi h1 h2 h3 h4 _ ih =>
    exact ⟨fun q hq => by rcases List.mem_cons.1 hq with rfl | hq; exacts [h3, ih.1 q hq],
      fun q hq => by rcases List.mem_cons.1 hq with rfl | hq; exacts [h1, ih.2 q hq]⟩
  | elim h1 h2 _ ih =>
    exact ⟨fun q hq => by rcases List.mem_cons.1 hq with rfl | hq; exacts [by omega, ih.1 q hq],
      fun q hq => by rcases List.mem_cons.1 hq with rfl | hq; exacts [h1, ih.2 q hq]⟩

theorem Inner.length {g : Graph} {base : Nat} {N os qs} (h : Inner g base N os qs) :
    qs.length = os.length := by
  induction h with
  | nil => rfl
  | phi _ _ _ _ _ ih => simp [ih]
  | elim _ _ _ ih => simp [ih]

theorem assign_below {g : Graph} {base : Nat} {N os qs} (h : Inner g base N os qs) :
    ∀ (s : List Nat) (e : Nat → Nat) (j : Nat), j < N → assign qs os s e j = e j := by
  induction h with
  | nil => intro s e j _; simp [assign]
  | @phi N o os qs h1 h2 h3 h4 h5 ih =>
    intro s e j hj
    cases s with
    | nil => simp [assign]
    | cons v s =>
      have : N ≠ o := by omega
      have h' : j ≠ N := by omega
      simp [assign, this, set, h', ih s e j (by omega)]
  | elim h1 h2 h5 ih =>
    intro s e j hj
    cases s with
    | nil => simp [assign]
    | cons v s => simp [assign, ih s e j (by omega)]

/-- The eliminated variables have values related by `R`. -/
def Elim (R : Nat → Nat → Prop) : List Nat → List Nat → List Nat → Prop
  | q :: qs, o :: os, w :: ws => (q = o → R o w) ∧ Elim R qs os ws
  | _, _, _ => True

theorem Elim.imp {R R' : Nat → Nat → Prop} : ∀ {qs os ws : List Nat}, Elim R qs os ws →
    (∀ o ∈ os, ∀ w, R o w → R' o w) → Elim R' qs os ws := by
  intro qs
  induction qs with
  | nil => intro os ws _ _; simp [Elim]
  | cons q qs ih =>
    intro os ws h hi
    cases os with
    | nil => simp [Elim]
    | cons o os =>
      cases ws with
      | nil => simp [Elim]
      | cons w ws => exact ⟨fun he => hi o (by simp) _ (h.1 he), ih h.2 fun o ho => hi o (by simp [ho])⟩

theorem elim_of_vals {R : Nat → Nat → Prop} : ∀ {qs os ws : List Nat}, List.Forall₂ R os ws →
    Elim R qs os ws := by
  intro qs
  induction qs with
  | nil => intro os ws _; simp [Elim]
  | cons q qs ih =>
    intro os ws h
    cases h with
    | nil => simp [Elim]
    | cons h1 h2 => exact ⟨fun _ => h1, ih h2⟩

/-- The inner variables have the values of the state at the start of an iteration. -/
theorem inner_vals {g : Graph} {base : Nat} {lane : Nat} {e : Nat → Nat} {N os qs}
    (hw : WF g) (hb : base ≤ g.next) (h : Inner g base N os qs) :
    ∀ (s : List Nat) (e' : Nat → Nat), s.length = os.length → Elim (Val sp g lane e) qs os s →
      (∀ j, N ≤ j → e' j = assign qs os s e j) → (∀ j, j < base → e' j = e j) →
      List.Forall₂ (Val sp g lane e') qs s := by
  induction h with
  | nil => intro s e' hl _ _ _; cases s with | nil => exact .nil | cons _ _ => simp at hl
  | @phi N o os qs h1 h2 h3 h4 h5 ih =>
    intro s e' hl he h h'
    cases s with
    | nil => simp at hl
    | cons v s =>
      have hne : N ≠ o := by omega
      simp only [assign, hne, if_false] at h
      refine .cons ?_ (ih s e' (by simpa using hl) he.2 ?_ h')
      · have hv := val_phi (sp := sp) (lane := lane) (e := e') h4
        rw [h N (Nat.le_refl _)] at hv
        simpa [set] using hv
      · intro j hj
        rw [h j (by omega), set, if_neg (by omega)]
  | @elim N o os qs h1 h2 h5 ih =>
    intro s e' hl he h h'
    cases s with
    | nil => simp at hl
    | cons v s =>
      simp only [assign, if_true] at h
      exact .cons ((he.1 rfl).congr hw (.refl _) hb (fun j hj => (h' j hj).symm) h1)
        (ih s e' (by simpa using hl) he.2 (fun j hj => h j (by omega)) h')

theorem makePhis_inner : ∀ {os : List Nat} {g : Graph} {base : Nat}, WF g → base ≤ g.next →
    (∀ o ∈ os, o < base) → WF (makePhis g os).1 ∧ Ext g (makePhis g os).1 ∧
      Inner (makePhis g os).1 base g.next os (makePhis g os).2 := by
  intro os
  induction os with
  | nil => intro g base hw _ _; exact ⟨hw, .refl _, .nil⟩
  | cons o os ih =>
    intro g base hw hb ho
    obtain ⟨h1, h2, h3, h4⟩ := fresh_wf (v := ⟨.phi, g.size o⟩) hw (by simp [Kind.refs])
    have hb' : base ≤ (g.fresh ⟨.phi, g.size o⟩).1.next := Nat.le_trans hb h2.1
    obtain ⟨a1, a2, a3⟩ := ih h1 hb' fun o ho' => ho o (by simp [ho'])
    refine ⟨a1, h2.trans a2, ?_⟩
    exact .phi (ho o (by simp)) hb (Nat.lt_of_lt_of_le h3 a2.1)
      ((congrArg Node.kind (a2.2 _ h3)).trans (congrArg Node.kind h4)) a3

theorem reduced_inner {cfg : Cfg} {g : Graph} {size base : Nat} {N os ps} (h : Inner g base N os ps) :
    ∀ ys : List Nat, ys.length = ps.length → Inner g base N os (reduced cfg g size os ps ys) := by
  induction h with
  | nil => intro ys _; exact .nil
  | phi h1 h2 h3 h4 _ ih =>
    intro ys hl
    cases ys with
    | nil => simp at hl
    | cons y ys =>
      have := ih ys (by simpa using hl)
      simp only [reduced]
      split_ifs
      · exact .elim h1 h2 this
      · exact .phi h1 h2 h3 h4 this
  | elim h1 h2 _ ih =>
    intro ys hl
    cases ys with
    | nil => simp at hl
    | cons y ys =>
      have := ih ys (by simpa using hl)
      simp only [reduced, ite_self]
      exact .elim h1 h2 this

/-- A loop variable that is eliminated keeps its value. -/
theorem reduced_const {cfg : Cfg} {g : Graph} {size lane : Nat} {e e' : Nat → Nat} {base : Nat}
    {N os ps} (h : Inner g base N os ps) : ∀ ys s ws : List Nat, (∀ p ∈ ps, base ≤ p) →
      List.Forall₂ (Val sp g lane e') ps s → List.Forall₂ (Val sp g lane e') ys ws →
      Elim (Val sp g lane e) (reduced cfg g size os ps ys) os s →
      Elim (Val sp g lane e) (reduced cfg g size os ps ys) os ws := by
  have key : ∀ o p y s w : Nat, o < base → Val sp g lane e' p s → Val sp g lane e' y w →
      ((if eliminate cfg g size o p y then o else p) = o → Val sp g lane e o s) → (p = o ∨ p ≠ o) →
      (p ≠ o → (if eliminate cfg g size o p y then o else p) = o → Val sp g lane e o w) := by
    intro o p y s w ho hp hy hs _ hne he
    split_ifs at he with h1
    · unfold eliminate at h1
      split at h1
      · next hyp => rw [hyp] at hy; rw [hy.unique hp]; exact hs (if_pos (by unfold eliminate; rw [if_pos hyp]; exact h1))
      · simp only [Bool.and_eq_true, beq_iff_eq] at h1
        obtain ⟨⟨_, h2⟩, h3⟩ := h1
        obtain ⟨c, hc⟩ := Option.isSome_iff_exists.1 h2
        rw [hy.unique (val_of_literal (h3 ▸ hc))]
        exact val_of_literal hc
    · exact absurd he hne
  induction h with
  | nil => intro ys s ws _ _ _ _; cases ys <;> cases ws <;> simp [reduced, Elim]
  | @phi N o os qs h1 h2 h3 h4 _ ih =>
    intro ys s ws hp hs hy he
    cases hs with
    | cons hs1 hs2 =>
      cases hy with
      | nil => simp [reduced, Elim]
      | cons hy1 hy2 =>
        exact ⟨key _ _ _ _ _ h1 hs1 hy1 he.1 (by omega) (by omega),
          ih _ _ _ (fun p h => hp p (by simp [h])) hs2 hy2 he.2⟩
  | @elim N o os qs h1 h2 _ ih =>
    intro ys s ws hp
    have := hp o (by simp)
    omega

theorem elim_phis {R : Nat → Nat → Prop} {g : Graph} {base N : Nat} {os ps : List Nat}
    (h : Inner g base N os ps) : ∀ s : List Nat, (∀ p ∈ ps, base ≤ p) → Elim R ps os s := by
  induction h with
  | nil => intro s _; simp [Elim]
  | @phi N o os qs k1 k2 k3 k4 _ ih =>
    intro s pb
    cases s with
    | nil => simp [Elim]
    | cons v s => exact ⟨fun h => by omega, ih s fun p hp => pb p (by simp [hp])⟩
  | @elim N o os qs k1 k2 _ ih => intro s pb; have := pb o (by simp); omega

theorem makePhis_base : ∀ {os : List Nat} {g : Graph}, ∀ p ∈ (makePhis g os).2, g.next ≤ p := by
  intro os
  induction os with
  | nil => intro g p hp; simp [makePhis] at hp
  | cons o os ih =>
    intro g p hp
    simp only [makePhis] at hp
    rcases List.mem_cons.1 hp with rfl | hp
    · exact Nat.le_refl _
    · exact Nat.le_trans (Nat.le_succ _) (ih p hp)

theorem loopNext_makes {cfg : Cfg} (hc : CfgOK cfg) {g : Graph} {active size o q y : Nat}
    {r : Graph × Nat × Nat} (hw : WF g) (ha : active < g.next) (hq : q < g.next) (hy : y < g.next)
    (h : loopNext cfg g active size o q y = some r) :
    (q = o → r.2.1 = o) ∧ Makes sp g (r.1, r.2.1) fun lane e x => ∃ b w v, Val sp g lane e active b ∧
      Val sp g lane e y w ∧ Val sp g lane e q v ∧ (q = o → w = v) ∧
      x = if cfg.llvm = true ∧ b = 0 then v else w := by
  unfold loopNext at h
  split at h
  · next hne =>
    refine ⟨fun h => absurd h hne, ?_⟩
    split at h
    · simp at h
    · dsimp only at h
      split at h
      · next hll =>
        simp only [Option.map_eq_some_iff] at h
        obtain ⟨⟨g1, i⟩, h1, rfl⟩ := h
        obtain ⟨a1, a2, a3, a4⟩ := select_makes (sp := sp) hc hw ha hy hq h1
        refine ⟨a1, a2, a3, ?_⟩
        rintro lane e x ⟨b, w, v, hb, hv, hv', _, rfl⟩
        refine a4 _ _ _ ⟨b, hb, w, v, hv, hv', ?_⟩
        by_cases h0 : b = 0 <;> simp [h0, hll]
      · next hll =>
        cases h
        refine ⟨hw, .refl _, hy, ?_⟩
        rintro lane e x ⟨b, w, v, hb, hv, hv', _, rfl⟩
        simpa [hll] using hv
  · next he =>
    have he : q = o := by simpa using he
    split at h
    · simp at h
    · cases h
      refine ⟨fun _ => he, hw, .refl _, hq, ?_⟩
      rintro lane e x ⟨b, w, v, hb, hv, hv', hwv, rfl⟩
      rw [hwv he, ite_self]; exact hv'

/-- Where a loop variable was eliminated, its next value is the outer variable. -/
def Fixed : List Nat → List Nat → List Nat → Prop
  | q :: qs, o :: os, i :: is => (q = o → i = o) ∧ Fixed qs os is
  | _, _, _ => True

theorem loopNexts_made {cfg : Cfg} (hc : CfgOK cfg) {active : Nat} : ∀ {os qs ys : List Nat}
    {g : Graph} {size : Nat} {r : Graph × List Nat × Nat}, WF g → active < g.next →
    (∀ q ∈ qs, q < g.next) → (∀ y ∈ ys, y < g.next) → (∀ o ∈ os, o < g.next) →
    loopNexts cfg active g size os qs ys = some r →
    (Fixed qs os r.2.1 ∧ r.2.1.length = os.length ∧ qs.length = os.length) ∧ Made sp g (r.1, r.2.1) fun lane e ws =>
      ∃ b us s, Val sp g lane e active b ∧ List.Forall₂ (Val sp g lane e) ys us ∧
      List.Forall₂ (Val sp g lane e) qs s ∧ Elim (Val sp g lane e) qs os us ∧
      ws = if cfg.llvm = true ∧ b = 0 then s else us := by
  intro os
  induction os with
  | nil =>
    intro qs ys g size r hw ha hq hy ho h
    cases qs with
    | cons _ _ => simp [loopNexts] at h
    | nil =>
      cases ys with
      | cons _ _ => simp [loopNexts] at h
      | nil =>
        simp only [loopNexts, Option.some.injEq] at h; subst h
        refine ⟨⟨by simp [Fixed], rfl, rfl⟩, hw, .refl _, by simp, ?_⟩
        rintro lane e ws ⟨b, us, s, _, h1, h2, _, rfl⟩
        cases h1; cases h2; simp
  | cons o os ih =>
    intro qs ys g size r hw ha hq hy ho h
    cases qs with
    | nil => simp [loopNexts] at h
    | cons q qs =>
      cases ys with
      | nil => simp [loopNexts] at h
      | cons y ys =>
        simp only [loopNexts, Option.bind_eq_some_iff, Option.map_eq_some_iff] at h
        obtain ⟨⟨g1, i, size1⟩, h1, ⟨g2, is, size2⟩, h2, rfl⟩ := h
        obtain ⟨hf, a1, a2, a3, a4⟩ := loopNext_makes hc hw ha (hq q (by simp)) (hy y (by simp)) h1
        have hm : ∀ {i}, i < g.next → i < g1.next := fun h => Nat.lt_of_lt_of_le h a2.1
        obtain ⟨⟨hf2, hl, hl2⟩, b1, b2, b3, b4⟩ := ih a1 (hm ha) (fun i hi => hm (hq i (by simp [hi])))
          (fun i hi => hm (hy i (by simp [hi]))) (fun i hi => hm (ho i (by simp [hi]))) h2
        refine ⟨⟨⟨hf, hf2⟩, by simpa using hl, by simpa using hl2⟩, b1, a2.trans b2, ?_, ?_⟩
        · intro i hi
          rcases List.mem_cons.1 hi with rfl | hi
          · exact Nat.lt_of_lt_of_le a3 b2.1
          · exact b3 i hi
        · rintro lane e ws ⟨b, us, s, hb, hv, hs, he, rfl⟩
          cases hv with
          | @cons _ u _ us hv1 hv2 =>
            cases hs with
            | @cons _ x _ s hs1 hs2 =>
              have e1 := a4 lane e (if cfg.llvm = true ∧ b = 0 then x else u) ⟨b, u, x, hb, hv1, hs1, fun hqo => by
                have := he.1 hqo; rw [← hqo] at this; exact this.unique hs1, rfl⟩
              have e2 := b4 lane e (if cfg.llvm = true ∧ b = 0 then s else us) ⟨b, us, s, hb.ext hw a2 ha,
                vals_ext hv2 hw a2 fun i hi => hy i (by simp [hi]),
                vals_ext hs2 hw a2 fun i hi => hq i (by simp [hi]),
                he.2.imp fun o ho' w h => h.ext hw a2 (ho o (by simp [ho'])), rfl⟩
              split_ifs at e1 e2 ⊢
              · exact .cons (e1.ext a1 b2 a3) e2
              · exact .cons (e1.ext a1 b2 a3) e2

theorem loopOuts_made {ld : LoopData} {size : Nat} {g0 : Graph} {lane : Nat} {e : Nat → Nat}
    {rr : List Nat} (hx : ∀ g2, WF g2 → Ext g0 g2 → ∀ i k v : Nat, (g2.node i).kind = .loopOut ld k →
      rr[k]? = some v → Val sp g2 lane e i v)
    (hld : ∀ j ∈ (Kind.loopOut ld 0).refs, j < g0.next) : ∀ {os qs is : List Nat} {g : Graph} {k : Nat},
    WF g → Ext g0 g → (∀ i ∈ is, i < g.next) → Fixed qs os is → is.length = os.length →
    qs.length = os.length → (∀ o ∈ os, o < g.next) →
    WF (loopOuts ld size g k os qs is).1 ∧ Ext g (loopOuts ld size g k os qs is).1 ∧
    (∀ i ∈ (loopOuts ld size g k os qs is).2, i < (loopOuts ld size g k os qs is).1.next) ∧
    ∀ r, (∀ j : Nat, r[j]? = rr[k + j]?) → r.length = os.length → Elim (Val sp g lane e) qs os r →
      List.Forall₂ (Val sp (loopOuts ld size g k os qs is).1 lane e) (loopOuts ld size g k os qs is).2 r := by
  intro os
  induction os with
  | nil =>
    intro qs is g k hw _ _ _ hl hl2 _
    refine ⟨hw, .refl _, by simp [loopOuts], fun r _ hr _ => ?_⟩
    cases r with
    | nil => simp only [loopOuts]; exact .nil
    | cons _ _ => simp at hr
  | cons o os ih =>
    intro qs is g k hw hx0 hi hf hl hl2 ho
    cases is with
    | nil => simp at hl
    | cons i is =>
    cases qs with
    | nil => simp at hl2
    | cons q qs =>
    have hstep : ∃ g1 r1, (if q ≠ o then g.fresh ⟨.loopOut ld k, size⟩ else (g, i)) = (g1, r1) ∧
        WF g1 ∧ Ext g g1 ∧ r1 < g1.next ∧ ((q ≠ o ∧ (g1.node r1).kind = .loopOut ld k) ∨ (q = o ∧ r1 = o)) := by
      by_cases hqo : q ≠ o
      · rw [if_pos hqo]
        obtain ⟨h1, h2, h3, h4⟩ := fresh_wf (v := ⟨.loopOut ld k, size⟩) hw
          (fun j hj => Nat.lt_of_lt_of_le (hld j hj) hx0.1)
        exact ⟨_, _, rfl, h1, h2, h3, .inl ⟨hqo, congrArg Node.kind h4⟩⟩
      · rw [if_neg hqo]
        exact ⟨_, _, rfl, hw, .refl _, hi i (by simp), .inr ⟨by simpa using hqo, hf.1 (by simpa using hqo)⟩⟩
    obtain ⟨g1, r1, heq, c1, c2, c3, c4⟩ := hstep
    have hm : ∀ {i}, i < g.next → i < g1.next := fun h => Nat.lt_of_lt_of_le h c2.1
    obtain ⟨b1, b2, b3, b4⟩ := ih (qs := qs) (is := is) (k := k + 1) c1 (hx0.trans c2)
      (fun j hj => hm (hi j (by simp [hj]))) hf.2 (by simpa using hl) (by simpa using hl2)
      (fun j hj => hm (ho j (by simp [hj])))
    simp only [loopOuts, heq]
    refine ⟨b1, c2.trans b2, ?_, ?_⟩
    · intro j hj
      rcases List.mem_cons.1 hj with rfl | hj
      · exact Nat.lt_of_lt_of_le c3 b2.1
      · exact b3 j hj
    · intro r hr hrl he
      cases r with
      | nil => simp at hrl
      | cons v r =>
        refine .cons ?_ (b4 r (fun j => ?_) (by simpa using hrl) ?_)
        · rcases c4 with ⟨_, hk⟩ | ⟨hqo, rfl⟩
          · refine (hx g1 c1 (hx0.trans c2) r1 k v hk ?_).ext c1 b2 c3
            have := hr 0
            simpa using this.symm
          · exact (he.1 hqo).ext hw (c2.trans b2) (ho _ (by simp))
        · have := hr (j + 1)
          rw [List.getElem?_cons_succ] at this
          rw [this, show k + (j + 1) = k + 1 + j by omega]
        · exact he.2.imp fun o' ho' w h => h.ext hw c2 (ho o' (by simp [ho']))

/-- Loops with the same conditions and bodies have the same results. -/
theorem while_sim {C : List Nat → Option Nat} {B : List Nat → Option (List Nat)}
    {D : Nat → List Nat → Option Nat} {E : Nat → List Nat → Option (List Nat)} {P : List Nat → Prop}
    (hD : ∀ s b, P s → C s = some b → ∃ n, ∀ m, n ≤ m → D m s = some b)
    (hE : ∀ s b s', P s → C s = some b → B s = some s' →
      P s' ∧ ∃ n x, (b ≠ 0 → x = s') ∧ ∀ m, n ≤ m → E m s = some x) :
    ∀ n s r, P s → whileN sp C B n s = some r →
      P r ∧ ∃ k, ∀ m m', k ≤ m → k ≤ m' → whileN sp (D m) (E m) m' s = some r := by
  intro n
  induction n with
  | zero => intro s r _ h; simp [whileN] at h
  | succ n ih =>
    intro s r hp h
    simp only [whileN, Option.bind_eq_some_iff] at h
    obtain ⟨b, hb, h⟩ := h
    obtain ⟨k1, hk1⟩ := hD s b hp hb
    split at h
    · next h0 =>
      split at h
      · next hs =>
        simp only [Option.map_eq_some_iff] at h
        obtain ⟨s', hs', rfl⟩ := h
        obtain ⟨_, k2, x, _, hk2⟩ := hE s b s' hp hb hs'
        refine ⟨hp, k1 + k2 + 1, fun m m' hm hm' => ?_⟩
        obtain ⟨m', rfl⟩ : ∃ k, m' = k + 1 := ⟨m' - 1, by omega⟩
        simp only [whileN, hk1 m (by omega), Option.bind_some, if_pos h0, if_pos hs, hk2 m (by omega), Option.map_some]
      · next hs =>
        cases h
        refine ⟨hp, k1 + 1, fun m m' hm hm' => ?_⟩
        obtain ⟨m', rfl⟩ : ∃ k, m' = k + 1 := ⟨m' - 1, by omega⟩
        simp only [whileN, hk1 m (by omega), Option.bind_some, if_pos h0, if_neg hs]
    · next h0 =>
      simp only [Option.bind_eq_some_iff] at h
      obtain ⟨s', hs', h⟩ := h
      obtain ⟨hp', k2, x, hx, hk2⟩ := hE s b s' hp hb hs'
      rw [hx h0] at hk2
      obtain ⟨hpr, k3, hk3⟩ := ih s' r hp' h
      refine ⟨hpr, k1 + k2 + k3 + 1, fun m m' hm hm' => ?_⟩
      obtain ⟨m', rfl⟩ : ∃ k, m' = k + 1 := ⟨m' - 1, by omega⟩
      simp only [whileN, hk1 m (by omega), Option.bind_some, if_neg h0, hk2 m (by omega)]
      exact hk3 m m' (by omega) (by omega)

/-- The results of a recorded loop. -/
theorem loopFinish_made {cfg : Cfg} (hc : CfgOK cfg) {g : Graph} {active base N : Nat}
    {os qs ys : List Nat} {r : Graph × List Nat} (hw : WF g) (ha : active < g.next)
    (hb : base ≤ g.next) (hbN : base ≤ N) (hin : Inner g base N os qs) (hy : ∀ y ∈ ys, y < g.next)
    (h : loopFinish cfg g active os qs ys = some r) :
    (WF r.1 ∧ Ext g r.1 ∧ ∀ i ∈ r.2, i < r.1.next) ∧
    ∀ lane e (C : List Nat → Option Nat) (B : List Nat → Option (List Nat)) n s0 res,
      List.Forall₂ (Val sp g lane e) os s0 →
      (∀ s b, Elim (Val sp g lane e) qs os s → s.length = os.length → C s = some b →
        Val sp g lane (assign qs os s e) active b) →
      (∀ s s', Elim (Val sp g lane e) qs os s → s.length = os.length → B s = some s' →
        Elim (Val sp g lane e) qs os s' ∧ s'.length = os.length ∧
        List.Forall₂ (Val sp g lane (assign qs os s e)) ys s') →
      whileN sp C B n s0 = some res → List.Forall₂ (Val sp r.1 lane e) r.2 res := by
  have hos : ∀ o ∈ os, o < g.next := fun o ho => Nat.lt_of_lt_of_le ((hin.lt hb).2 o ho) hb
  simp only [loopFinish, Option.map_eq_some_iff] at h
  obtain ⟨⟨g1, is, size⟩, h1, rfl⟩ := h
  obtain ⟨⟨hfx, hl1, hl2⟩, a1, a2, a3, a4⟩ := loopNexts_made hc hw ha (hin.lt hb).1 hy hos h1
  dsimp only at a1 a2 a3 a4 hfx hl1 ⊢
  have hos1 : ∀ o ∈ os, o < g1.next := fun o ho => Nat.lt_of_lt_of_le (hos o ho) a2.1
  have hld : ∀ j ∈ (Kind.loopOut ⟨os, qs, is, active⟩ 0).refs, j < g1.next := by
    intro j hj
    simp only [Kind.refs, List.mem_cons, List.mem_append] at hj
    rcases hj with rfl | (hj | hj) | hj
    · exact Nat.lt_of_lt_of_le ha a2.1
    · exact hos1 j hj
    · exact Nat.lt_of_lt_of_le ((hin.lt hb).1 j hj) a2.1
    · exact a3 j hj
  constructor
  · obtain ⟨b1, b2, b3, _⟩ := loopOuts_made (sp := sp) (ld := ⟨os, qs, is, active⟩) (size := size) (g0 := g1)
      (lane := 0) (e := fun _ => 0) (rr := []) (by simp) hld (k := 0) a1 (.refl _) a3 hfx hl1 hl2 hos1
    exact ⟨b1, a2.trans b2, b3⟩
  · intro lane e C B n s0 res hs0 hC hB hrun
    have hP0 : Elim (Val sp g lane e) qs os s0 ∧ s0.length = os.length :=
      ⟨elim_of_vals hs0, hs0.length_eq.symm⟩
    have hbelow : ∀ (s : List Nat) (j : Nat), j < N → assign qs os s e j = e j :=
      fun s j hj => assign_below hin s e j hj
    -- the values in an iteration
    have hq : ∀ s, Elim (Val sp g lane e) qs os s → s.length = os.length →
        List.Forall₂ (Val sp g lane (assign qs os s e)) qs s := fun s he hl =>
      inner_vals hw hb hin s _ hl he (fun _ _ => rfl) fun j hj => hbelow s j (by omega)
    have hsim := while_sim (C := C) (B := B)
      (P := fun s => Elim (Val sp g lane e) qs os s ∧ s.length = os.length)
      (D := fun m s => den sp g1 lane m (assign qs os s e) active)
      (E := fun m s => evalAll (den sp g1 lane m (assign qs os s e)) is)
      (by
        rintro s b ⟨he, hl⟩ hb'
        obtain ⟨n, hn⟩ := (hC s b he hl hb').ext hw a2 ha
        exact ⟨n, fun m hm => den_mono n m _ _ _ hm hn⟩)
      (by
        rintro s b s' ⟨he, hl⟩ hb' hs'
        obtain ⟨e1, e2, e3⟩ := hB s s' he hl hs'
        refine ⟨⟨e1, e2⟩, ?_⟩
        have e4 := a4 lane (assign qs os s e) (if cfg.llvm = true ∧ b = 0 then s else s')
          ⟨b, s', s, hC s b he hl hb', e3, hq s he hl, ?_, rfl⟩
        · obtain ⟨n, hn⟩ := vals_fuel e4
          exact ⟨n, _, fun h0 => by simp [h0], hn⟩
        exact e1.imp fun o ho w hv => hv.congr hw (.refl _) hb
          (fun j hj => (hbelow s j (by omega)).symm) ((hin.lt hb).2 o ho))
      n s0 res hP0 hrun
    obtain ⟨⟨hPr, hlr⟩, k, hk⟩ := hsim
    have hx : ∀ g2, WF g2 → Ext g1 g2 → ∀ i k v : Nat,
        (g2.node i).kind = .loopOut ⟨os, qs, is, active⟩ k → res[k]? = some v → Val sp g2 lane e i v := by
      intro g2 hw2 hx2 i kk v hk' hv
      refine val_loop hk' (vals_ext hs0 hw (a2.trans hx2) hos) ⟨k, fun m hm => ?_⟩ hv
      dsimp only
      have := hk m m hm hm
      rw [← this]
      congr 1
      · funext s
        exact (den_congr a1 hx2 m g1.next _ _ _ (Nat.le_refl _) (fun _ _ => rfl)
          (Nat.lt_of_lt_of_le ha a2.1)).symm
      · funext s
        exact evalAll_congr fun j hj => (den_congr a1 hx2 m g1.next _ _ _ (Nat.le_refl _)
          (fun _ _ => rfl) (a3 j hj)).symm
    obtain ⟨b1, b2, b3, b4⟩ := loopOuts_made (size := size) (g0 := g1)
      hx hld (k := 0) a1 (.refl _) a3 hfx hl1 hl2 hos1
    refine b4 res (fun j => by simp) hlr ?_
    exact hPr.imp fun o ho w hv => hv.ext hw a2 (hos o ho)

/-! ### Programs -/

/-- What it means that a program is recorded correctly. -/
structure RecOK (sp : Bool) (g : Graph) (xs : List Nat) (r : Graph × List Nat)
    (run : Nat → Nat → List Nat → Option (List Nat)) : Prop where
  wf : WF r.1
  ext : Ext g r.1
  lt : ∀ i ∈ r.2, i < r.1.next
  val : ∀ lane e n vs ws, List.Forall₂ (Val sp g lane e) xs vs → run lane n vs = some ws →
    List.Forall₂ (Val sp r.1 lane e) r.2 ws

theorem one_some {α : Type} {l : List α} {a : α} (h : one l = some a) : l = [a] := by
  match l, h with
  | [x], h => simp only [one, Option.some.injEq] at h; rw [h]

theorem append_lt {N M : Nat} {l l' : List Nat} (h : ∀ i ∈ l, i < N) (hNM : N ≤ M) (h' : ∀ i ∈ l', i < M) :
    ∀ i ∈ l ++ l', i < M := by
  intro i hi
  rcases List.mem_append.1 hi with hi | hi
  · exact Nat.lt_of_lt_of_le (h i hi) hNM
  · exact h' i hi

theorem append_vals {g g' : Graph} {lane : Nat} {e : Nat → Nat} {xs vs l ws : List Nat}
    (h : List.Forall₂ (Val sp g lane e) xs vs) (hw : WF g) (hx : Ext g g') (hl : ∀ i ∈ xs, i < g.next)
    (h' : List.Forall₂ (Val sp g' lane e) l ws) : List.Forall₂ (Val sp g' lane e) (xs ++ l) (vs ++ ws) :=
  List.rel_append (vals_ext h hw hx hl) h'

theorem elim_back {g g' g'' : Graph} {lane : Nat} {e : Nat → Nat} {os qs s s0 : List Nat}
    (h : List.Forall₂ (Val sp g lane e) os s0) (hw : WF g) (hx : Ext g g') (hx' : Ext g g'')
    (ho : ∀ o ∈ os, o < g.next) (he : Elim (Val sp g'' lane e) qs os s) : Elim (Val sp g' lane e) qs os s := by
  refine he.imp fun o hm w hv => ?_
  obtain ⟨k, hk⟩ := List.mem_iff_getElem?.1 hm
  obtain ⟨v, _, hv'⟩ := vals_getElem h k o hk
  rw [hv.unique (hv'.ext hw hx' (ho o hm))]
  exact hv'.ext hw hx (ho o hm)

mutual

theorem recS_ok {cfg : Cfg} (hc : CfgOK cfg) : ∀ (st : Stmt) (g : Graph) (xs : List Nat)
    (r : Graph × List Nat), WF g → (∀ i ∈ xs, i < g.next) → recS cfg st g xs = some r →
    RecOK sp g xs r fun lane n vs => runS sp lane n st vs
  | .lit c size, g, xs, r, hw, hx, h => by
    simp only [recS, Option.some.injEq] at h; subst h
    obtain ⟨h1, h2, h3, h4⟩ := lit_makes hc c size hw
    refine ⟨h1, h2, append_lt hx h2.1 (by simpa using h3), ?_⟩
    intro lane e n vs ws hv hr
    simp only [runS, Option.some.injEq] at hr; subst hr
    exact append_vals hv hw h2 hx (.cons (h4 _ _ _ rfl) .nil)
  | .input x size, g, xs, r, hw, hx, h => by
    simp only [recS, Option.some.injEq] at h; subst h
    obtain ⟨h1, h2, h3, h4⟩ := fresh_wf (v := ⟨.input x, size⟩) hw (by simp [Kind.refs])
    refine ⟨h1, h2, append_lt hx h2.1 (by simpa using h3), ?_⟩
    intro lane e n vs ws hv hr
    simp only [runS, Option.some.injEq] at hr; subst hr
    have := val_input (sp := sp) (lane := lane) (e := e) (congrArg Node.kind h4)
    rw [h4] at this
    exact append_vals hv hw h2 hx (.cons this .nil)
  | .op f args, g, xs, r, hw, hx, h => by
    simp only [recS, Option.bind_eq_some_iff, Option.map_eq_some_iff] at h
    obtain ⟨is, hp, ⟨g1, i⟩, h1, rfl⟩ := h
    obtain ⟨h1, h2, h3, h4⟩ := recOp_makes hc hw (fun i hi => hx i (pick_mem hp i hi)) h1
    refine ⟨h1, h2, append_lt hx h2.1 (by simpa using h3), ?_⟩
    intro lane e n vs ws hv hr
    simp only [runS, Option.map_eq_some_iff] at hr
    obtain ⟨a, ha, rfl⟩ := hr
    exact append_vals hv hw h2 hx (.cons (h4 _ _ _ ⟨a, pick_vals hv hp ha, rfl⟩) .nil)
  | .ite c t f, g, xs, r, hw, hx, h => by
    simp only [recS, Option.bind_eq_some_iff, Option.map_eq_some_iff] at h
    obtain ⟨ci, hci, ⟨g1, ts⟩, h1, ⟨g2, fs⟩, h2, ⟨g3, os⟩, h3, rfl⟩ := h
    obtain ⟨a1, a2, a3, a4⟩ := recB_ok hc t g xs _ hw hx h1
    have hm1 : ∀ {i}, i < g.next → i < g1.next := fun h => Nat.lt_of_lt_of_le h a2.1
    obtain ⟨b1, b2, b3, b4⟩ := recB_ok hc f g1 xs _ a1 (fun i hi => hm1 (hx i hi)) h2
    have hm2 : ∀ {i}, i < g1.next → i < g2.next := fun h => Nat.lt_of_lt_of_le h b2.1
    have hcm := hx ci (List.mem_of_getElem? hci)
    obtain ⟨c1, c2, c3, c4⟩ := condEnd_made b1 (hm2 (hm1 hcm)) (fun i hi => hm2 (a3 i hi)) b3 h3
    have hx' : Ext g g3 := (a2.trans b2).trans c2
    refine ⟨c1, hx', append_lt hx hx'.1 c3, ?_⟩
    intro lane e n vs ws hv hr
    simp only [runS, Option.bind_eq_some_iff, Option.map_eq_some_iff] at hr
    obtain ⟨b, hb, hr⟩ := hr
    have hrun : ∃ rs, ws = vs ++ rs ∧ (if b ≠ 0 then runB sp lane n t vs else runB sp lane n f vs) = some rs ∧
        (sp = true → ∃ us, (if b ≠ 0 then runB sp lane n f vs else runB sp lane n t vs) = some us) := by
      split_ifs at hr ⊢ with h0 h1 h1
      · obtain ⟨rs, h2, h3⟩ := Option.bind_eq_some_iff.1 hr
        obtain ⟨us, h4, h5⟩ := Option.map_eq_some_iff.1 h3
        exact ⟨rs, h5.symm, h2, fun _ => ⟨us, h4⟩⟩
      · obtain ⟨rs, h2, h3⟩ := Option.bind_eq_some_iff.1 hr
        exact ⟨rs, (Option.some.inj h3).symm, h2, fun h => absurd h h1⟩
      · obtain ⟨rs, h2, h3⟩ := Option.bind_eq_some_iff.1 hr
        obtain ⟨us, h4, h5⟩ := Option.map_eq_some_iff.1 h3
        exact ⟨rs, h5.symm, h2, fun _ => ⟨us, h4⟩⟩
      · obtain ⟨rs, h2, h3⟩ := Option.bind_eq_some_iff.1 hr
        exact ⟨rs, (Option.some.inj h3).symm, h2, fun h => absurd h h1⟩
    obtain ⟨rs, rfl, hrs, hoth⟩ := hrun
    refine append_vals hv hw hx' hx (c4 _ _ _ ⟨b, ?_, ?_, fun hs => ?_⟩)
    · obtain ⟨v, hv1, hv2⟩ := vals_getElem hv c ci hci
      rw [hv1] at hb; cases hb
      exact hv2.ext hw (a2.trans b2) hcm
    · split_ifs at hrs ⊢ with h0
      · exact vals_ext (a4 lane e n vs rs hv hrs) a1 b2 a3
      · exact b4 lane e n vs rs (vals_ext hv hw a2 hx) hrs
    · obtain ⟨us, hus⟩ := hoth hs
      refine ⟨us, ?_⟩
      split_ifs at hus ⊢ with h0
      · exact b4 lane e n vs us (vals_ext hv hw a2 hx) hus
      · exact vals_ext (a4 lane e n vs us hv hus) a1 b2 a3
  | .loop st cond body, g, xs, r, hw, hx, h => by
    simp only [recS, Option.bind_eq_some_iff] at h
    obtain ⟨os, hos, ⟨g2, as⟩, h2, a, ha, ⟨g3, ys⟩, h3, h⟩ := h
    have ho : ∀ o ∈ os, o < g.next := fun o ho => hx o (pick_mem hos o ho)
    obtain ⟨p1, p2, p3⟩ := makePhis_inner hw (Nat.le_refl _) ho
    have pb := makePhis_base (g := g) (os := os)
    revert h2 h3 h
    generalize hph : makePhis g os = ph at p1 p2 p3 pb
    obtain ⟨g1, ps⟩ := ph
    dsimp only at p1 p2 p3 pb ⊢
    intro h2 h3 h
    have := one_some ha; subst this
    have hlt1 : ∀ i ∈ xs ++ ps, i < g1.next := append_lt hx p2.1 (p3.lt p2.1).1
    obtain ⟨c1, c2, c3, c4⟩ := recB_ok hc cond g1 _ _ p1 hlt1 h2
    have hlt2 : ∀ i ∈ xs ++ ps, i < g2.next := fun i hi => Nat.lt_of_lt_of_le (hlt1 i hi) c2.1
    obtain ⟨b1, b2, b3, b4⟩ := recB_ok hc body g2 _ _ c1 hlt2 h3
    dsimp only at c1 c2 c3 c4 b1 b2 b3 b4
    split at h
    · simp at h
    next hlen =>
    have hlen : ys.length = ps.length := by simpa using hlen
    have e13 : Ext g1 g3 := c2.trans b2
    have e03 : Ext g g3 := p2.trans e13
    have hin3 : Inner g3 g.next g.next os ps := p3.ext e13
    generalize hqs : reduced cfg g3 (loopSize g3 a os ps ys) os ps ys = qs at h
    have hinq : Inner g3 g.next g.next os qs := hqs ▸ reduced_inner hin3 ys hlen
    -- eliminated variables are constant
    have hconst : ∀ lane e n vs, List.Forall₂ (Val sp g lane e) xs vs → ∀ s s',
        Elim (Val sp g3 lane e) qs os s → s.length = os.length → runB sp lane n body (vs ++ s) = some s' →
        Elim (Val sp g3 lane e) qs os s' ∧ s'.length = os.length := by
      intro lane e n vs hv s s' he hl hs'
      have hpv : List.Forall₂ (Val sp g2 lane (assign ps os s e)) ps s := by
        refine inner_vals (e := e) c1 (Nat.le_trans p2.1 c2.1) (p3.ext c2) s _ hl ?_ (fun _ _ => rfl)
          fun j hj => assign_below p3 s e j hj
        exact elim_phis p3 s pb
      have hxv : List.Forall₂ (Val sp g2 lane (assign ps os s e)) xs vs :=
        vals_congr hv hw (p2.trans c2) (Nat.le_refl _) (fun j hj => (assign_below p3 s e j hj).symm) hx
      have hyv := b4 lane _ n _ _ (List.rel_append hxv hpv) hs'
      refine ⟨?_, ?_⟩
      · rw [← hqs] at he ⊢
        exact reduced_const hin3 ys s s' pb (vals_ext hpv c1 b2 fun p hp =>
          Nat.lt_of_lt_of_le ((p3.lt p2.1).1 p hp) c2.1) hyv he
      · rw [← hyv.length_eq, hlen, hin3.length]
    -- the last recording
    have final : ∀ (g4 g5 : Graph) (a' : Nat) (ys' : List Nat) (r' : Graph × List Nat), Ext g3 g5 → WF g5 →
        a' < g5.next → (∀ y ∈ ys', y < g5.next) → WF g4 → Ext g g4 → Inner g4 g.next g.next os qs →
        (∀ lane e n vs b, List.Forall₂ (Val sp g4 lane e) (xs ++ qs) vs → (runB sp lane n cond vs).bind one = some b →
          Val sp g5 lane e a' b) →
        (∀ lane e n vs ws, List.Forall₂ (Val sp g4 lane e) (xs ++ qs) vs → runB sp lane n body vs = some ws →
          List.Forall₂ (Val sp g5 lane e) ys' ws) →
        loopFinish cfg g5 a' os qs ys' = some r' →
        RecOK sp g xs (r'.1, xs ++ r'.2) fun lane n vs => runS sp lane n (.loop st cond body) vs := by
      intro g4 g5 a' ys' r' e35 hw5 ha' hy' hw4 e04 hin4 hC hB hfin
      have e05 : Ext g g5 := e03.trans e35
      obtain ⟨⟨d1, d2, d3⟩, d4⟩ := loopFinish_made hc hw5 ha' e05.1 (Nat.le_refl _) (hinq.ext e35) hy' hfin
      have e06 := e05.trans d2
      refine ⟨d1, e06, append_lt hx e06.1 d3, ?_⟩
      intro lane e n vs ws hv hr
      simp only [runS, Option.bind_eq_some_iff, Option.map_eq_some_iff] at hr
      obtain ⟨s0, hs0, res, hres, rfl⟩ := hr
      have hov := pick_vals hv hos hs0
      -- values of the variables in an iteration
      have hit : ∀ s, Elim (Val sp g5 lane e) qs os s → s.length = os.length →
          List.Forall₂ (Val sp g4 lane (assign qs os s e)) (xs ++ qs) (vs ++ s) := by
        intro s he hl
        refine List.rel_append (vals_congr hv hw e04 (Nat.le_refl _)
          (fun j hj => (assign_below hinq s e j hj).symm) hx) ?_
        refine inner_vals hw4 e04.1 hin4 s _ hl ?_ (fun _ _ => rfl) fun j hj => assign_below hinq s e j hj
        exact elim_back hov hw e04 e05 ho he
      refine append_vals hv hw e06 hx (d4 lane e _ _ n s0 res (vals_ext hov hw e05 ho) ?_ ?_ hres)
      · intro s b he hl hb
        exact hC lane _ n _ b (hit s he hl) hb
      · intro s s' he hl hs'
        have he3 : Elim (Val sp g3 lane e) qs os s := elim_back hov hw e03 e05 ho he
        obtain ⟨k1, k2⟩ := hconst lane e n vs hv s s' he3 hl hs'
        exact ⟨k1.imp fun o ho' w h => h.ext b1 e35 (Nat.lt_of_lt_of_le (ho o ho') e03.1), k2,
          hB lane _ n _ _ (hit s he hl) hs'⟩
    split at h
    · next heq =>
      subst heq
      simp only [Option.map_eq_some_iff] at h
      obtain ⟨⟨g6, rs⟩, h6, rfl⟩ := h
      refine final g1 g3 a ys (g6, rs) (.refl _) b1 (Nat.lt_of_lt_of_le (c3 a (by simp)) b2.1) b3 p1 p2 p3 ?_ ?_ h6
      · intro lane e n vs b hv hb
        simp only [Option.bind_eq_some_iff] at hb
        obtain ⟨l, hl, hb⟩ := hb
        have := one_some hb; subst this
        have := c4 lane e n vs _ hv hl
        cases this with | cons h _ => exact h.ext c1 b2 (c3 a (by simp))
      · intro lane e n vs ws hv hws
        exact b4 lane e n vs ws (vals_ext hv p1 c2 hlt1) hws
    · simp only [Option.bind_eq_some_iff, Option.map_eq_some_iff] at h
      obtain ⟨⟨g4, as'⟩, h4, a', ha', ⟨g5, ys'⟩, h5, ⟨g6, rs⟩, h6, rfl⟩ := h
      have := one_some ha'; subst this
      have hlt3 : ∀ i ∈ xs ++ qs, i < g3.next := append_lt hx e03.1 (hinq.lt e03.1).1
      obtain ⟨c1', c2', c3', c4'⟩ := recB_ok hc cond g3 _ _ b1 hlt3 h4
      have hlt4 : ∀ i ∈ xs ++ qs, i < g4.next := fun i hi => Nat.lt_of_lt_of_le (hlt3 i hi) c2'.1
      obtain ⟨b1', b2', b3', b4'⟩ := recB_ok hc body g4 _ _ c1' hlt4 h5
      dsimp only at c1' c2' c3' c4' b1' b2' b3' b4' h6
      refine final g3 g5 a' ys' (g6, rs) (c2'.trans b2') b1' (Nat.lt_of_lt_of_le (c3' a' (by simp)) b2'.1)
        b3' b1 e03 hinq ?_ ?_ h6
      · intro lane e n vs b hv hb
        simp only [Option.bind_eq_some_iff] at hb
        obtain ⟨l, hl, hb⟩ := hb
        have := one_some hb; subst this
        have := c4' lane e n vs _ hv hl
        cases this with | cons h _ => exact h.ext c1' b2' (c3' a' (by simp))
      · intro lane e n vs ws hv hws
        exact b4' lane e n vs ws (vals_ext hv b1 c2' hlt3) hws

theorem recB_ok {cfg : Cfg} (hc : CfgOK cfg) : ∀ (b : Block) (g : Graph) (xs : List Nat)
    (r : Graph × List Nat), WF g → (∀ i ∈ xs, i < g.next) → recB cfg b g xs = some r →
    RecOK sp g xs r fun lane n vs => runB sp lane n b vs
  | .ret res, g, xs, r, hw, hx, h => by
    simp only [recB, Option.map_eq_some_iff] at h
    obtain ⟨is, hp, rfl⟩ := h
    refine ⟨hw, .refl _, fun i hi => hx i (pick_mem hp i hi), ?_⟩
    intro lane e n vs ws hv hr
    simp only [runB] at hr
    exact pick_vals hv hp hr
  | .seq s b, g, xs, r, hw, hx, h => by
    simp only [recB, Option.bind_eq_some_iff] at h
    obtain ⟨⟨g1, xs1⟩, h1, h2⟩ := h
    obtain ⟨a1, a2, a3, a4⟩ := recS_ok hc s g xs _ hw hx h1
    obtain ⟨b1, b2, b3, b4⟩ := recB_ok hc b g1 xs1 _ a1 a3 h2
    refine ⟨b1, a2.trans b2, b3, ?_⟩
    intro lane e n vs ws hv hr
    simp only [runB, Option.bind_eq_some_iff] at hr
    obtain ⟨vs1, hr1, hr2⟩ := hr
    exact b4 lane e n vs1 ws (a4 lane e n vs vs1 hv hr1) hr2

end

end Verif.Ctrl
