import Verif.Ops.FoldBits
import Verif.Var.Hist
/-!
# Values are preserved by the functions that create variables
-/
namespace Verif.Ops
open Verif.Var

variable {s s' : Store} {U U' : List Nat} {u ext base : Nat → Nat}

/-! ## Partial correctness -/

/-- If `m` returns normally, then `Q` holds. -/
def wlp {α : Type} (m : M α) (s : Store) (Q : α → Store → Prop) : Prop :=
  ∀ a s', m s = .ok a s' → Q a s'

section
variable {α β : Type} {Q Q' : α → Store → Prop}

theorem wlp_pure {a : α} (h : Q a s) : wlp (pure a) s Q := by
  intro b s' e; cases e; exact h

theorem wlp_bind {m : M β} {f : β → M α} (h : wlp m s (fun b s' => wlp (f b) s' Q)) :
    wlp (m >>= f) s Q := by
  intro a s' e
  simp only [bind] at e
  cases hm : m s with
  | ok b s1 => rw [hm] at e; exact h b s1 hm a s' e
  | raise s1 => rw [hm] at e; cases e
  | abort => rw [hm] at e; cases e
  | stop r => rw [hm] at e; cases e

theorem wlp_mono {m : M α} (h : wlp m s Q) (hq : ∀ a s', Q a s' → Q' a s') : wlp m s Q' :=
  fun a s' e => hq a s' (h a s' e)

theorem wlp_getStore {Q : Store → Store → Prop} (h : Q s s) : wlp getStore s Q := by
  intro b s' e; cases e; exact h

theorem wlp_modify {f : Store → Store} {Q : Unit → Store → Prop} (h : Q () (f s)) :
    wlp (modifyStore f) s Q := by
  intro b s' e; cases e; exact h

theorem wlp_raise : wlp (raise : M α) s Q := by intro a s' e; cases e
theorem wlp_abort : wlp (abort : M α) s Q := by intro a s' e; cases e
theorem wlp_stop {r : Stop} : wlp (stop r : M α) s Q := by intro a s' e; cases e

theorem wlp_of_wp {m : M α} {R : Store → Prop} {T : Stop → Prop} (h : wp m s Q R T) : wlp m s Q :=
  fun _ _ e => wp_ok h e

theorem wlp_and {m : M α} (h : wlp m s Q) (h' : wlp m s Q') : wlp m s (fun a s' => Q a s' ∧ Q' a s') :=
  fun a s' e => ⟨h a s' e, h' a s' e⟩

theorem wlp_ite {c : Prop} [Decidable c] {m m' : M α} (h : c → wlp m s Q) (h' : ¬ c → wlp m' s Q) :
    wlp (if c then m else m') s Q := by
  split
  · exact h ‹_›
  · exact h' ‹_›
end

/-! ## Pending writes -/

/-- Writes are pending on evaluated variables only. -/
def WOK (s : Store) : Prop := ∀ i, 0 < (s.vars i).refCountSe → (s.vars i).kind = .evaluated

/-- The invariant between calls. -/
structure St (s : Store) (U : List Nat) (u : Nat → Nat) : Prop where
  inv : IInv s U u
  wok : WOK s

theorem se_src {P : List Nat} (h : Inv s U ext (fun _ => 0) P) {i : Nat}
    (hi : 0 < (s.vars i).refCountSe) :
    Alive s U i ∧ ∃ j, Alive s U j ∧ i ∈ (s.vars j).refsSe := by
  have ha : Alive s U i := by
    by_contra hn
    have := (h.dead i hn).2.1
    omega
  refine ⟨ha, ?_⟩
  have h1 := h.rcSe i ha
  by_contra hn
  have : refSumSe s U i = 0 := by
    unfold refSumSe
    refine Finset.sum_eq_zero (fun j _ => ?_)
    split
    · rename_i hj
      rw [List.count_eq_zero]
      intro hm
      exact hn ⟨j, hj, hm⟩
    · rfl
  omega

theorem body_refsSe {v w : Var} (h : v.body = w.body) : v.refsSe = w.refsSe := by
  have h1 : v.writePtr = w.writePtr := by simpa [Var.body] using congrArg Var.writePtr h
  have h2 : v.d3 = w.d3 := by simpa [Var.body] using congrArg Var.d3 h
  unfold Var.refsSe; rw [h1, h2]

/-- Steps that create nothing create no pending writes. -/
theorem se_frame (h : Inv s U ext (fun _ => 0) []) {ext' : Nat → Nat}
    (h' : Inv s' U' ext' (fun _ => 0) []) (hf : Frame base s U s' U')
    (hvc : s'.variableCounter = s.variableCounter) {i : Nat} (hi : 0 < (s'.vars i).refCountSe) :
    0 < (s.vars i).refCountSe ∧ (s'.vars i).body = (s.vars i).body := by
  obtain ⟨ha, j, hj, hm⟩ := se_src h' hi
  obtain ⟨a1, a2, _⟩ := hf.keep i ha (by rw [← hvc]; exact h'.uids i ha)
  obtain ⟨b1, b2, _⟩ := hf.keep j hj (by rw [← hvc]; exact h'.uids j hj)
  rw [body_refsSe b2] at hm
  have h1 := refSumSe_pos b1 hm
  have h2 := h.rcSe i a1
  exact ⟨by omega, a2⟩

theorem wok_frame (h : Inv s U ext (fun _ => 0) []) {ext' : Nat → Nat}
    (h' : Inv s' U' ext' (fun _ => 0) []) (hf : Frame base s U s' U')
    (hvc : s'.variableCounter = s.variableCounter) (hw : WOK s) : WOK s' := by
  intro i hi
  obtain ⟨a1, a2⟩ := se_frame h h' hf hvc hi
  rw [body_kind a2]
  exact hw i a1

theorem clean_frame (h : Inv s U ext (fun _ => 0) []) {ext' : Nat → Nat}
    (h' : Inv s' U' ext' (fun _ => 0) []) (hf : Frame base s U s' U')
    (hvc : s'.variableCounter = s.variableCounter) {i : Nat}
    (hd : (s.vars i).isDirty = false) : (s'.vars i).isDirty = false := by
  unfold Var.isDirty at hd ⊢
  by_contra hn
  simp only [gt_iff_lt, decide_eq_false_iff_not, not_not] at hn hd
  exact hd (se_frame h h' hf hvc hn).1

theorem isDirty_false {v : Var} (h : v.isDirty = false) : v.refCountSe = 0 := by
  simpa [Var.isDirty] using h

theorem WOK.clean (hw : WOK s) {i : Nat} (h : (s.vars i).kind ≠ .evaluated) :
    (s.vars i).isDirty = false := by
  unfold Var.isDirty
  by_contra hn
  simp only [gt_iff_lt, decide_eq_false_iff_not, not_not] at hn
  exact h (hw i hn)

theorem wok_inc (hw : WOK s) (i n : Nat) :
    WOK (s.set i { s.vars i with refCount := n }) := by
  intro k hk
  by_cases h : k = i
  · subst h
    rw [set_self] at hk ⊢
    exact hw k hk
  · rw [set_ne _ _ h] at hk ⊢
    exact hw k hk

/-! ## Values -/

theorem body_fields {v w : Var} (h : v.body = w.body) : v.kind = w.kind ∧ v.type = w.type ∧
    v.literal = w.literal ∧ v.d0 = w.d0 ∧ v.d1 = w.d1 ∧ v.d2 = w.d2 ∧ v.d3 = w.d3 ∧
    v.writePtr = w.writePtr :=
  ⟨by simpa [Var.body] using congrArg Var.kind h, by simpa [Var.body] using congrArg Var.type h,
   by simpa [Var.body] using congrArg Var.literal h, by simpa [Var.body] using congrArg Var.d0 h,
   by simpa [Var.body] using congrArg Var.d1 h, by simpa [Var.body] using congrArg Var.d2 h,
   by simpa [Var.body] using congrArg Var.d3 h, by simpa [Var.body] using congrArg Var.writePtr h⟩

theorem Frame.mem (h : Frame base s U s' U') : s'.mem = s.mem := congrArg (fun e => e.1) h.env
theorem Frame.constProp (h : Frame base s U s' U') : s'.constProp = s.constProp :=
  congrArg (fun e => e.2.2.2.2.2.2.1) h.env

/-- Values do not depend on the steps in between. -/
theorem Val.frame {P : List Nat} {ext' extSe : Nat → Nat} (h' : Inv s' U' ext' extSe P)
    (hf : Frame base s U s' U') {i l : Nat} {x : BitVec 64} (hv : Val s i l x) :
    Alive s' U' i → (s'.vars i).uid < s.variableCounter → Val s' i l x := by
  have step : ∀ {i : Nat}, Alive s' U' i → (s'.vars i).uid < s.variableCounter →
      (s'.vars i).writePtr = false → ∀ d ∈ [(s'.vars i).d0, (s'.vars i).d1, (s'.vars i).d2],
      d ≠ 0 → Alive s' U' d ∧ (s'.vars d).uid < s.variableCounter ∧
        (s'.vars d).type = (s.vars d).type ∧ (s'.vars d).kind = (s.vars d).kind ∧
        (s'.vars d).literal = (s.vars d).literal := by
    intro i ha hu hw d hd h0
    obtain ⟨a1, a2⟩ := h'.deps i ha d (by
      have : (s'.vars i).refs = [(s'.vars i).d0, (s'.vars i).d1, (s'.vars i).d2, (s'.vars i).d3] := by
        simp [Var.refs, hw]
      rw [this]
      simp only [List.mem_cons, List.not_mem_nil, or_false, List.mem_append] at hd ⊢
      tauto) h0
    have hu' : (s'.vars d).uid < s.variableCounter := by omega
    obtain ⟨e1, e2, e3, _⟩ := body_fields (hf.keep d a1 hu').2.1
    exact ⟨a1, hu', e2, e1, e3⟩
  induction hv with
  | @literal i l hk =>
    intro ha hu
    obtain ⟨_, b, _⟩ := hf.keep i ha hu
    obtain ⟨e1, e2, e3, _⟩ := body_fields b
    rw [← e2, ← e3]
    exact .literal (by rw [e1, hk])
  | @evaluated i l hk =>
    intro ha hu
    obtain ⟨_, b, c⟩ := hf.keep i ha hu
    obtain ⟨e1, e2, e3, _⟩ := body_fields b
    rw [← e2, ← e3, ← c hk, ← Frame.mem hf]
    exact .evaluated (by rw [e1, hk])
  | @counter i l hk =>
    intro ha hu
    obtain ⟨_, b, _⟩ := hf.keep i ha hu
    obtain ⟨e1, e2, _⟩ := body_fields b
    rw [← e2]
    exact .counter (by rw [e1, hk])
  | @defaultMask i l hk =>
    intro ha hu
    obtain ⟨_, b, _⟩ := hf.keep i ha hu
    obtain ⟨e1, e2, _⟩ := body_fields b
    rw [← e2]
    exact .defaultMask (by rw [e1, hk])
  | @gatherOff i l m hk hw h2 hvm hm ihm =>
    intro ha hu
    obtain ⟨_, b, _⟩ := hf.keep i ha hu
    obtain ⟨e1, e2, _, e4, e5, e6, _, e8⟩ := body_fields b
    have hw' : (s'.vars i).writePtr = false := by rw [e8, hw]
    obtain ⟨r1, r2, r3, _⟩ := step ha hu hw' (s'.vars i).d2 (by simp) (by rw [e6]; exact h2)
    exact .gatherOff (by rw [e1, hk]) hw' (by rw [e6]; exact h2)
      (by rw [e6] at r1 r2 ⊢; exact ihm r1 r2) hm
  | @gatherOn i l x m hk hw h0 h1 h2 hp hvx hvm hm ihx ihm =>
    intro ha hu
    obtain ⟨_, b, _⟩ := hf.keep i ha hu
    obtain ⟨e1, e2, _, e4, e5, e6, _, e8⟩ := body_fields b
    have hw' : (s'.vars i).writePtr = false := by rw [e8, hw]
    obtain ⟨p1, p2, p3, p4, p5⟩ := step ha hu hw' (s'.vars i).d0 (by simp) (by rw [e4]; exact h0)
    obtain ⟨q1, q2, q3, _⟩ := step ha hu hw' (s'.vars i).d1 (by simp) (by rw [e5]; exact h1)
    obtain ⟨r1, r2, r3, _⟩ := step ha hu hw' (s'.vars i).d2 (by simp) (by rw [e6]; exact h2)
    rw [← e2, ← Frame.mem hf, ← e4, ← p5]
    exact .gatherOn (by rw [e1, hk]) hw' (by rw [e4]; exact h0) (by rw [e5]; exact h1)
      (by rw [e6]; exact h2) (by rw [p4, e4]; exact hp)
      (by rw [e5] at q1 q2 ⊢; exact ihx q1 q2) (by rw [e6] at r1 r2 ⊢; exact ihm r1 r2) hm
  | @node1 i l x z hw h0 hv0 hs ih =>
    intro ha hu
    obtain ⟨_, b, _⟩ := hf.keep i ha hu
    obtain ⟨e1, e2, _, e4, e5, e6, _, e8⟩ := body_fields b
    have hw' : (s'.vars i).writePtr = false := by rw [e8, hw]
    obtain ⟨p1, p2, p3, _⟩ := step ha hu hw' (s'.vars i).d0 (by simp) (by rw [e4]; exact h0)
    refine .node1 hw' (by rw [e4]; exact h0) (by rw [e4] at p1 p2 ⊢; exact ih p1 p2) ?_
    rw [p3, e1, e2, e4]; exact hs
  | @node2 i l x y z hw h0 h1 hv0 hv1 hs ih0 ih1 =>
    intro ha hu
    obtain ⟨_, b, _⟩ := hf.keep i ha hu
    obtain ⟨e1, e2, _, e4, e5, e6, _, e8⟩ := body_fields b
    have hw' : (s'.vars i).writePtr = false := by rw [e8, hw]
    obtain ⟨p1, p2, p3, _⟩ := step ha hu hw' (s'.vars i).d0 (by simp) (by rw [e4]; exact h0)
    obtain ⟨q1, q2, q3, _⟩ := step ha hu hw' (s'.vars i).d1 (by simp) (by rw [e5]; exact h1)
    refine .node2 hw' (by rw [e4]; exact h0) (by rw [e5]; exact h1)
      (by rw [e4] at p1 p2 ⊢; exact ih0 p1 p2) (by rw [e5] at q1 q2 ⊢; exact ih1 q1 q2) ?_
    rw [p3, q3, e1, e2, e4, e5]; exact hs
  | @node3 i l x y w z hw h0 h1 h2 hv0 hv1 hv2 hs ih0 ih1 ih2 =>
    intro ha hu
    obtain ⟨_, b, _⟩ := hf.keep i ha hu
    obtain ⟨e1, e2, _, e4, e5, e6, _, e8⟩ := body_fields b
    have hw' : (s'.vars i).writePtr = false := by rw [e8, hw]
    obtain ⟨p1, p2, p3, _⟩ := step ha hu hw' (s'.vars i).d0 (by simp) (by rw [e4]; exact h0)
    obtain ⟨q1, q2, q3, _⟩ := step ha hu hw' (s'.vars i).d1 (by simp) (by rw [e5]; exact h1)
    obtain ⟨r1, r2, r3, _⟩ := step ha hu hw' (s'.vars i).d2 (by simp) (by rw [e6]; exact h2)
    refine .node3 hw' (by rw [e4]; exact h0) (by rw [e5]; exact h1) (by rw [e6]; exact h2)
      (by rw [e4] at p1 p2 ⊢; exact ih0 p1 p2) (by rw [e5] at q1 q2 ⊢; exact ih1 q1 q2)
      (by rw [e6] at r1 r2 ⊢; exact ih2 r1 r2) ?_
    rw [p3, q3, r3, e1, e2, e4, e5, e6]; exact hs

theorem Val.norm {i l : Nat} {x : BitVec 64} (hv : Val s i l x) : norm (s.vars i).type x = x := by
  cases hv with
  | literal => exact norm_norm _ _
  | evaluated => exact norm_norm _ _
  | counter => exact norm_norm _ _
  | defaultMask => exact norm_norm _ _
  | gatherOff => exact norm_zero _
  | gatherOn => exact norm_norm _ _
  | node1 _ _ _ h => exact sem1_norm h
  | node2 _ _ _ _ _ h => exact sem2_norm h
  | node3 _ _ _ _ _ _ _ h => exact sem3_norm h

/-- The three families of nodes are disjoint. -/
theorem sem_kinds {k : Kind} {t t0 a0 a1 : VType} {x y w z z' : BitVec 64} :
    (sem1 k t t0 x = some z → sem2 k t a0 a1 y w = some z' → False) := by
  intro h1 h2
  cases k <;> simp only [sem1, sem2] at h1 h2 <;> first | cases h1 | cases h2

theorem sem_kinds13 {k : Kind} {t t0 a0 a1 a2 : VType} {x y w v z z' : BitVec 64} :
    (sem1 k t t0 x = some z → sem3 k t a0 a1 a2 y w v = some z' → False) := by
  intro h1 h2
  cases k <;> simp only [sem1, sem3] at h1 h2 <;> first | cases h1 | cases h2

theorem sem_kinds23 {k : Kind} {t t0 t1 a0 a1 a2 : VType} {x x' y w v z z' : BitVec 64} :
    (sem2 k t t0 t1 x x' = some z → sem3 k t a0 a1 a2 y w v = some z' → False) := by
  intro h1 h2
  cases k <;> simp only [sem2, sem3] at h1 h2 <;> first | cases h1 | cases h2

theorem sem_leaf {k : Kind} (hk : k = .literal ∨ k = .evaluated ∨ k = .counter ∨ k = .defaultMask ∨ k = .gather) :
    (∀ t t0 x, sem1 k t t0 x = none) ∧ (∀ t t0 t1 x y, sem2 k t t0 t1 x y = none) ∧
    (∀ t t0 t1 t2 x y z, sem3 k t t0 t1 t2 x y z = none) := by
  rcases hk with rfl | rfl | rfl | rfl | rfl <;> exact ⟨fun _ _ _ => rfl, fun _ _ _ _ _ => rfl,
    fun _ _ _ _ _ _ _ => rfl⟩

theorem Val.literal_inv {i l : Nat} {x : BitVec 64} (hv : Val s i l x)
    (hk : (s.vars i).kind = .literal) : x = Ops.norm (s.vars i).type (s.vars i).literal := by
  obtain ⟨k1, k2, k3⟩ := sem_leaf (.inl hk)
  cases hv with
  | literal => rfl
  | evaluated h => rw [hk] at h; cases h
  | counter h => rw [hk] at h; cases h
  | defaultMask h => rw [hk] at h; cases h
  | gatherOff h => rw [hk] at h; cases h
  | gatherOn h => rw [hk] at h; cases h
  | node1 _ _ _ h => rw [k1] at h; cases h
  | node2 _ _ _ _ _ h => rw [k2] at h; cases h
  | node3 _ _ _ _ _ _ _ h => rw [k3] at h; cases h

/-- A variable has at most one value per thread. -/
theorem Val.unique {i l : Nat} {x : BitVec 64} (hv : Val s i l x) :
    ∀ {y : BitVec 64}, Val s i l y → x = y := by
  induction hv with
  | @literal i l hk => intro y hy; exact (hy.literal_inv hk).symm
  | @evaluated i l hk =>
    intro y hy
    obtain ⟨k1, k2, k3⟩ := sem_leaf (.inr (.inl hk))
    cases hy with
    | literal h => rw [hk] at h; cases h
    | evaluated h => rfl
    | counter h => rw [hk] at h; cases h
    | defaultMask h => rw [hk] at h; cases h
    | gatherOff h => rw [hk] at h; cases h
    | gatherOn h => rw [hk] at h; cases h
    | node1 _ _ _ h => rw [k1] at h; cases h
    | node2 _ _ _ _ _ h => rw [k2] at h; cases h
    | node3 _ _ _ _ _ _ _ h => rw [k3] at h; cases h
  | @counter i l hk =>
    intro y hy
    obtain ⟨k1, k2, k3⟩ := sem_leaf (.inr (.inr (.inl hk)))
    cases hy with
    | literal h => rw [hk] at h; cases h
    | evaluated h => rw [hk] at h; cases h
    | counter h => rfl
    | defaultMask h => rw [hk] at h; cases h
    | gatherOff h => rw [hk] at h; cases h
    | gatherOn h => rw [hk] at h; cases h
    | node1 _ _ _ h => rw [k1] at h; cases h
    | node2 _ _ _ _ _ h => rw [k2] at h; cases h
    | node3 _ _ _ _ _ _ _ h => rw [k3] at h; cases h
  | @defaultMask i l hk =>
    intro y hy
    obtain ⟨k1, k2, k3⟩ := sem_leaf (.inr (.inr (.inr (.inl hk))))
    cases hy with
    | literal h => rw [hk] at h; cases h
    | evaluated h => rw [hk] at h; cases h
    | counter h => rw [hk] at h; cases h
    | defaultMask h => rfl
    | gatherOff h => rw [hk] at h; cases h
    | gatherOn h => rw [hk] at h; cases h
    | node1 _ _ _ h => rw [k1] at h; cases h
    | node2 _ _ _ _ _ h => rw [k2] at h; cases h
    | node3 _ _ _ _ _ _ _ h => rw [k3] at h; cases h
  | @gatherOff i l m hk hw h2 hvm hm ihm =>
    intro y hy
    obtain ⟨k1, k2, k3⟩ := sem_leaf (.inr (.inr (.inr (.inr hk))))
    cases hy with
    | literal h => rw [hk] at h; cases h
    | evaluated h => rw [hk] at h; cases h
    | counter h => rw [hk] at h; cases h
    | defaultMask h => rw [hk] at h; cases h
    | gatherOff h => rfl
    | gatherOn _ _ _ _ _ _ _ hy' hm' => rw [← ihm hy', hm] at hm'; cases hm'
    | node1 _ _ _ h => rw [k1] at h; cases h
    | node2 _ _ _ _ _ h => rw [k2] at h; cases h
    | node3 _ _ _ _ _ _ _ h => rw [k3] at h; cases h
  | @gatherOn i l x m hk hw h0 h1 h2 hp hvx hvm hm ihx ihm =>
    intro y hy
    obtain ⟨k1, k2, k3⟩ := sem_leaf (.inr (.inr (.inr (.inr hk))))
    cases hy with
    | literal h => rw [hk] at h; cases h
    | evaluated h => rw [hk] at h; cases h
    | counter h => rw [hk] at h; cases h
    | defaultMask h => rw [hk] at h; cases h
    | gatherOff _ _ _ hy' hm' => rw [← ihm hy', hm] at hm'; cases hm'
    | gatherOn _ _ _ _ _ _ hx' _ _ => rw [ihx hx']
    | node1 _ _ _ h => rw [k1] at h; cases h
    | node2 _ _ _ _ _ h => rw [k2] at h; cases h
    | node3 _ _ _ _ _ _ _ h => rw [k3] at h; cases h
  | @node1 i l x z hw h0 hv0 hs ih =>
    intro y hy
    cases hy with
    | literal h => rw [(sem_leaf (.inl h)).1] at hs; cases hs
    | evaluated h => rw [(sem_leaf (.inr (.inl h))).1] at hs; cases hs
    | counter h => rw [(sem_leaf (.inr (.inr (.inl h)))).1] at hs; cases hs
    | defaultMask h => rw [(sem_leaf (.inr (.inr (.inr (.inl h))))).1] at hs; cases hs
    | gatherOff h => rw [(sem_leaf (.inr (.inr (.inr (.inr h))))).1] at hs; cases hs
    | gatherOn h => rw [(sem_leaf (.inr (.inr (.inr (.inr h))))).1] at hs; cases hs
    | node1 _ _ hx h => rw [ih hx, h] at hs; cases hs; rfl
    | node2 _ _ _ _ _ h => exact (sem_kinds hs h).elim
    | node3 _ _ _ _ _ _ _ h => exact (sem_kinds13 hs h).elim
  | @node2 i l x y z hw h0 h1 hv0 hv1 hs ih0 ih1 =>
    intro y hy
    cases hy with
    | literal h => rw [(sem_leaf (.inl h)).2.1] at hs; cases hs
    | evaluated h => rw [(sem_leaf (.inr (.inl h))).2.1] at hs; cases hs
    | counter h => rw [(sem_leaf (.inr (.inr (.inl h)))).2.1] at hs; cases hs
    | defaultMask h => rw [(sem_leaf (.inr (.inr (.inr (.inl h))))).2.1] at hs; cases hs
    | gatherOff h => rw [(sem_leaf (.inr (.inr (.inr (.inr h))))).2.1] at hs; cases hs
    | gatherOn h => rw [(sem_leaf (.inr (.inr (.inr (.inr h))))).2.1] at hs; cases hs
    | node1 _ _ hx h => exact (sem_kinds h hs).elim
    | node2 _ _ _ hx hy h => rw [ih0 hx, ih1 hy, h] at hs; cases hs; rfl
    | node3 _ _ _ _ _ _ _ h => exact (sem_kinds23 hs h).elim
  | @node3 i l x y w z hw h0 h1 h2 hv0 hv1 hv2 hs ih0 ih1 ih2 =>
    intro y hy
    cases hy with
    | literal h => rw [(sem_leaf (.inl h)).2.2] at hs; cases hs
    | evaluated h => rw [(sem_leaf (.inr (.inl h))).2.2] at hs; cases hs
    | counter h => rw [(sem_leaf (.inr (.inr (.inl h)))).2.2] at hs; cases hs
    | defaultMask h => rw [(sem_leaf (.inr (.inr (.inr (.inl h))))).2.2] at hs; cases hs
    | gatherOff h => rw [(sem_leaf (.inr (.inr (.inr (.inr h))))).2.2] at hs; cases hs
    | gatherOn h => rw [(sem_leaf (.inr (.inr (.inr (.inr h))))).2.2] at hs; cases hs
    | node1 _ _ hx h => exact (sem_kinds13 h hs).elim
    | node2 _ _ _ hx hy h => exact (sem_kinds23 h hs).elim
    | node3 _ _ _ _ hx hy hw h => rw [ih0 hx, ih1 hy, ih2 hw, h] at hs; cases hs; rfl

end Verif.Ops
