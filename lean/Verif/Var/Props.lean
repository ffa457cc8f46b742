import Verif.Var.Hist
import Mathlib.Order.Interval.Finset.Nat
/-!
# Properties of the variable table
-/
namespace Verif.Var
set_option linter.dupNamespace false

variable {s s' : Store} {U U' : List Nat} {u u' : Nat → Nat} {ev : M Unit}

/-! ## C15: local value numbering -/

theorem matches_of_key {v w : Var} {q : Request} {st : Store} (h : w.key = (v.placed st).key)
    (hk : v.kind ≠ .evaluated) (h1 : v.backend = q.backend) (h2 : v.kind = q.kind)
    (h3 : v.type = q.type) (h4 : v.size = q.size) (h5 : v.literal = q.payload)
    (h6 : [v.d0, v.d1, v.d2, v.d3] = q.operands ++ List.replicate (4 - q.operands.length) 0) :
    q.Matches st.scope w := by
  have hs : (v.placed st).scope = st.scope := by
    unfold Var.placed
    have : v.isEvaluated = false := by simp [Var.isEvaluated, hk]
    simp [this]
  unfold Var.key at h
  simp only [Key.mk.injEq] at h
  obtain ⟨a1, a2, a3, a4, a5, a6, a7, a8, a9, a10, _⟩ := h
  refine ⟨a9.trans h1, a8.trans h2, a10.trans h3, a7.trans h4, a6.trans h5, ?_, a1.trans hs⟩
  rw [a2, a3, a4, a5]; exact h6

/-- What the creating calls guarantee, in one statement. -/
theorem request_spec (hev : EvOK ev) (h : IInv s U u) {c : Call} (hl : c.legal u) {q : Request}
    (hq : c.request = some q) (hk : q.kind ≠ .evaluated) {r : Nat} (hr : r ≠ 0)
    (he : c.exec ev s = .ok r s') :
    (∃ U', Alive s' U' r ∧ Inv s' U' (plus (plus u [r]) s'.sideEffects) (fun _ => 0) []) ∧
    q.Matches s'.scope (s'.vars r) ∧
    ((∀ a ∈ c.operands, (s.vars a).isDirty = false) → Live s r →
      q.Matches s.scope (s.vars r) ∧ q.type ≠ .void ∧ s.valueNumbering = true) := by
  have live0 : Live s r → ((s.vars r).refCount ≠ 0 ∨ (s.vars r).refCountSe ≠ 0) := by
    intro hL
    have hA := (live_iff h r).1 hL
    have := h.counts_pos hA
    omega
  have fin : ∀ {v : Var}, (v.kind ≠ .evaluated → v.backend = q.backend → v.kind = q.kind →
      v.type = q.type → MergeOK v s r → Live s r →
      v.size = q.size → v.literal = q.payload →
      [v.d0, v.d1, v.d2, v.d3] = q.operands ++ List.replicate (4 - q.operands.length) 0 →
      q.Matches s.scope (s.vars r) ∧ q.type ≠ .void ∧ s.valueNumbering = true) := by
    intro v e0 e1 e2 e3 m hL e4 e5 e6
    obtain ⟨m1, m2⟩ := m (live0 hL)
    refine ⟨matches_of_key m2 e0 e1 e2 e3 e4 e5 e6, ?_, ?_⟩
    · intro hv
      unfold useLvn at m1
      rw [e3, hv] at m1
      simp at m1
    · unfold useLvn at m1
      simp only [Bool.and_eq_true] at m1
      exact m1.2
  have h0 : (s.vars 0).isDirty = false := by
    have := h.dead 0 (fun hh => hh.1 rfl)
    simp [Var.isDirty, this.2.1]
  cases c with
  | literal b t x n =>
    have a := wp_ok (varLiteral_spec h) he
    obtain ⟨U', a1, a2, a3⟩ := a
    cases hq
    obtain ⟨_, hr0⟩ | ⟨_, b1, b2, b3⟩ := a3
    · exact absurd hr0 hr
    refine ⟨⟨U', b1, IInv.of_frame a1 a2⟩, ?_, fun _ hL => ?_⟩
    · rw [← placed_frame a2] at b2
      exact matches_of_key b2 (by simp [literalVar]) rfl rfl rfl rfl rfl rfl
    · exact fin (by simp [literalVar]) rfl rfl rfl (b3.mergeOK h) hL rfl rfl rfl
  | node0 b k t n sy p =>
    cases hq
    obtain ⟨U', a1, a2, a3, a4, a5⟩ := wp_ok (newNode0_spec (R := fun _ => True)
      (T := fun r => r ≠ .ub) relOK_track (by decide) h) he
    refine ⟨⟨U', a3, a1⟩, matches_of_key a4 hk rfl rfl rfl rfl rfl rfl, fun hd hL => ?_⟩
    refine fin hk rfl rfl rfl (a5 ?_) hL rfl rfl rfl
    intro a ha
    simp [Var.refs, nodeVar] at ha
    subst ha; exact h0
  | node1 b k t n sy a0 p =>
    cases hq
    obtain ⟨U', a1, a2, a3, a4, a5⟩ := wp_ok (newNode1_spec (T := fun r => r ≠ .ub)
      relOK_track (by decide) hev h (hl a0 (by simp [Call.operands]))) he
    refine ⟨⟨U', a3, a1⟩, matches_of_key a4 hk rfl rfl rfl rfl rfl rfl, fun hd hL => ?_⟩
    refine fin hk rfl rfl rfl (a5 ?_) hL rfl rfl rfl
    intro a ha
    simp [Var.refs, nodeVar] at ha
    rcases ha with rfl | rfl
    · exact hd _ (by simp [Call.operands])
    · exact h0
  | node2 b k t n sy x0 x1 p =>
    cases hq
    obtain ⟨U', a1, a2, a3, a4, a5⟩ := wp_ok (newNode2_spec (T := fun r => r ≠ .ub)
      relOK_track (by decide) hev h (hl x0 (by simp [Call.operands])) (hl x1 (by simp [Call.operands]))) he
    refine ⟨⟨U', a3, a1⟩, matches_of_key a4 hk rfl rfl rfl rfl rfl rfl, fun hd hL => ?_⟩
    refine fin hk rfl rfl rfl (a5 ?_) hL rfl rfl rfl
    intro a ha
    simp [Var.refs, nodeVar] at ha
    rcases ha with rfl | rfl | rfl
    · exact hd _ (by simp [Call.operands])
    · exact hd _ (by simp [Call.operands])
    · exact h0
  | node3 b k t n sy x0 x1 x2 p =>
    cases hq
    obtain ⟨U', a1, a2, a3, a4, a5⟩ := wp_ok (newNode3_spec (T := fun r => r ≠ .ub)
      relOK_track (by decide) hev h (hl x0 (by simp [Call.operands])) (hl x1 (by simp [Call.operands]))
      (hl x2 (by simp [Call.operands]))) he
    refine ⟨⟨U', a3, a1⟩, matches_of_key a4 hk rfl rfl rfl rfl rfl rfl, fun hd hL => ?_⟩
    refine fin hk rfl rfl rfl (a5 ?_) hL rfl rfl rfl
    intro a ha
    simp [Var.refs, nodeVar] at ha
    rcases ha with rfl | rfl | rfl | rfl
    · exact hd _ (by simp [Call.operands])
    · exact hd _ (by simp [Call.operands])
    · exact hd _ (by simp [Call.operands])
    · exact h0
  | node4 b k t n sy x0 x1 x2 x3 p =>
    cases hq
    obtain ⟨U', a1, a2, a3, a4, a5⟩ := wp_ok (newNode4_spec (T := fun r => r ≠ .ub)
      relOK_track (by decide) hev h (hl x0 (by simp [Call.operands])) (hl x1 (by simp [Call.operands]))
      (hl x2 (by simp [Call.operands])) (hl x3 (by simp [Call.operands]))) he
    refine ⟨⟨U', a3, a1⟩, matches_of_key a4 hk rfl rfl rfl rfl rfl rfl, fun hd hL => ?_⟩
    refine fin hk rfl rfl rfl (a5 ?_) hL rfl rfl rfl
    intro a ha
    simp [Var.refs, nodeVar] at ha
    rcases ha with rfl | rfl | rfl | rfl
    · exact hd _ (by simp [Call.operands])
    · exact hd _ (by simp [Call.operands])
    · exact hd _ (by simp [Call.operands])
    · exact hd _ (by simp [Call.operands])
  | undefined => cases hq
  | counter => cases hq
  | memMap => cases hq
  | pointer => cases hq
  | resize => cases hq
  | incRef => cases hq
  | decRef => cases hq
  | markSideEffect => cases hq
  | eval => cases hq
  | newScope => cases hq
  | advanceScope => cases hq
  | setScope => cases hq

/-- **C15 (result).** In every history, a call that creates an unevaluated variable returns an
index whose variable has exactly the requested kind, type, size, operands, literal value and
backend, and belongs to the current scope. -/
theorem C15_result_matches (hev : EvOK ev) (h : Reachable ev s u) {c : Call} (hl : c.legal u)
    {q : Request} (hq : c.request = some q) (hk : q.kind ≠ .evaluated) {r : Nat} (hr : r ≠ 0)
    (he : c.exec ev s = .ok r s') : Live s' r ∧ q.Matches s'.scope (s'.vars r) := by
  obtain ⟨U, hi⟩ := reachable_inv hev h
  obtain ⟨⟨U', a1, a2⟩, a3, _⟩ := request_spec hev hi hl hq hk hr he
  exact ⟨(live_iff a2 r).2 a1, a3⟩

/-- **C15 (merging).** If the index that is returned was already in use before the call, then
the variable that was there had exactly the requested attributes and the current scope, the
type is not `void` (nodes with side effects) and value numbering is enabled. -/
theorem C15_merge_sound (hev : EvOK ev) (h : Reachable ev s u) {c : Call} (hl : c.legal u)
    {q : Request} (hq : c.request = some q) (hk : q.kind ≠ .evaluated) {r : Nat} (hr : r ≠ 0)
    (hclean : ∀ a ∈ c.operands, (s.vars a).isDirty = false)
    (he : c.exec ev s = .ok r s') (hlive : Live s r) :
    q.Matches s.scope (s.vars r) ∧ q.type ≠ .void ∧ s.valueNumbering = true := by
  obtain ⟨U, hi⟩ := reachable_inv hev h
  exact (request_spec hev hi hl hq hk hr he).2.2 hclean hlive

/-- **C15 (separation).** A live variable that differs from the request in any attribute is
not returned. -/
theorem C15_differ_separate (hev : EvOK ev) (h : Reachable ev s u) {c : Call} (hl : c.legal u)
    {q : Request} (hq : c.request = some q) (hk : q.kind ≠ .evaluated) {r i : Nat} (hr : r ≠ 0)
    (hclean : ∀ a ∈ c.operands, (s.vars a).isDirty = false)
    (he : c.exec ev s = .ok r s') (hlive : Live s i) (hd : ¬ q.Matches s.scope (s.vars i)) :
    r ≠ i := by
  rintro rfl
  exact hd (C15_merge_sound hev h hl hq hk hr hclean he hlive).1

/-- **C15 (side effects).** Creating a node with side effects (type `void`) never returns an
index that is in use. -/
theorem C15_side_effects_separate (hev : EvOK ev) (h : Reachable ev s u) {c : Call}
    (hl : c.legal u) {q : Request} (hq : c.request = some q) (hk : q.kind ≠ .evaluated)
    (hv : q.type = .void) {r : Nat} (hr : r ≠ 0)
    (hclean : ∀ a ∈ c.operands, (s.vars a).isDirty = false)
    (he : c.exec ev s = .ok r s') : ¬ Live s r :=
  fun hlive => (C15_merge_sound hev h hl hq hk hr hclean he hlive).2.1 hv

/-- **C15 (dirty operands).** If one of the operands has pending writes, the nodes with one or
two operands are created only after an evaluation that leaves no operand with pending writes. -/
theorem C15_dirty_operands (hev : EvOK ev) (h : Reachable ev s u) {ops : List Nat}
    {t : Store} (he : cleanOps ev ops ops s = .ok () t) :
    (∀ a ∈ ops, (t.vars a).isDirty = false) ∧ (t = s ∨ ev s = .ok () t) := by
  obtain ⟨U, hi⟩ := reachable_inv hev h
  obtain ⟨_, _, _, hd, _⟩ := wp_ok (cleanOps_spec relOK_track hev hi ops ops) he
  refine ⟨hd rfl, ?_⟩
  unfold cleanOps at he
  split at he
  · cases hx : ev s <;> rw [hx] at he <;> simp only at he
    · split at he
      · cases he
      · cases he; exact .inr rfl
    · cases he
    · cases he
    · cases he
  · cases he; exact .inl rfl

/-! ## C16: reference counting -/

/-- **C16 (no failure).** No legal call terminates the process: no index is stale and no counter
underflows. -/
theorem C16_no_abort (hev : EvOK ev) (h : Reachable ev s u) {c : Call} (hl : c.legal u) :
    c.exec ev s ≠ .abort ∧ c.exec ev s ≠ .stop .ub := by
  obtain ⟨U, hi⟩ := reachable_inv hev h
  have := call_spec hev hi hl
  unfold wp at this
  refine ⟨fun e => ?_, fun e => ?_⟩
  · rw [e] at this; exact this
  · rw [e] at this; exact this rfl

/-- **C16 (held).** A variable to which the caller owns a reference can be accessed. -/
theorem C16_held_live (hev : EvOK ev) (h : Reachable ev s u) {i : Nat} (hi : 0 < u i) :
    Live s i := by
  obtain ⟨U, hinv⟩ := reachable_inv hev h
  exact (live_iff hinv i).2 (hinv.alive_of_ext (plus_pos_left hi))

/-- **C16 (identity).** While the caller owns a reference, the index denotes the same variable: it
is neither released nor recycled, and its type and backend do not change. -/
theorem C16_held_same (hev : EvOK ev) (h : Reachable ev s u) {i : Nat}
    (hs : Steps ev (fun w => 0 < w i) s u s' u') :
    Live s' i ∧ (s'.vars i).uid = (s.vars i).uid ∧ (s'.vars i).type = (s.vars i).type ∧
      (s'.vars i).backend = (s.vars i).backend := by
  obtain ⟨U, hinv⟩ := reachable_inv hev h
  have hi : 0 < u i := by
    clear hinv h
    induction hs with
    | refl hq => exact hq
    | step _ _ _ ih => exact ih
  have hA := hinv.alive_of_ext (plus_pos_left (l := s.sideEffects) hi)
  obtain ⟨_, U', hinv', ht⟩ := steps_spec hev hinv hs (b := fun k => if k = i then 1 else 0)
    (by intro w hw k hk; split at hk
        · subst k; exact hw
        · omega)
  obtain ⟨a1, a2⟩ := ht.stay i (by simp) hA
  obtain ⟨_, _, b3, b4, _⟩ := ht.keep i a1 (by rw [a2]; exact hinv.uids i hA)
  exact ⟨(live_iff hinv' i).2 a1, a2, b3, b4⟩

/-- **C16 (operands).** The operands of a live variable are live, and older. -/
theorem C16_operands_live (hev : EvOK ev) (h : Reachable ev s u) {i d : Nat} (hl : Live s i)
    (hd : d ∈ [(s.vars i).d0, (s.vars i).d1, (s.vars i).d2, (s.vars i).d3])
    (hw : (s.vars i).writePtr = false) (h0 : d ≠ 0) :
    Live s d ∧ (s.vars d).uid < (s.vars i).uid := by
  obtain ⟨U, hinv⟩ := reachable_inv hev h
  have := hinv.deps i ((live_iff hinv i).1 hl) d
    (List.mem_append_left _ (by unfold Var.refs; rw [hw]; exact hd)) h0
  exact ⟨(live_iff hinv d).2 this.1, this.2⟩

theorem refSum_pos_elim {i : Nat} (h : 0 < refSum s U i) :
    ∃ j, Alive s U j ∧ i ∈ (s.vars j).refs := by
  unfold refSum at h
  obtain ⟨j, hj, hp⟩ := Finset.exists_ne_zero_of_sum_ne_zero (ne_of_gt h)
  by_cases hA : Alive s U j
  · rw [if_pos hA] at hp
    exact ⟨j, hA, List.count_pos_iff.1 (by omega)⟩
  · rw [if_neg hA] at hp; exact absurd rfl hp

theorem refSumSe_pos_elim {i : Nat} (h : 0 < refSumSe s U i) :
    ∃ j, Alive s U j ∧ i ∈ (s.vars j).refsSe := by
  unfold refSumSe at h
  obtain ⟨j, hj, hp⟩ := Finset.exists_ne_zero_of_sum_ne_zero (ne_of_gt h)
  by_cases hA : Alive s U j
  · rw [if_pos hA] at hp
    exact ⟨j, hA, List.count_pos_iff.1 (by omega)⟩
  · rw [if_neg hA] at hp; exact absurd rfl hp

/-- Without external references there is no variable. -/
theorem no_alive (h : Inv s U (fun _ => 0) (fun _ => 0) []) (i : Nat) : ¬ Alive s U i := by
  have main : ∀ n i, s.variableCounter - (s.vars i).uid ≤ n → ¬ Alive s U i := by
    intro n
    induction n with
    | zero =>
      intro i hn hA
      have := h.uids i hA
      omega
    | succ n ih =>
      intro i hn hA
      have e1 := h.rc i hA
      have e2 := h.rcSe i hA
      have hp := h.counts_pos hA
      have : 0 < refSum s U i ∨ 0 < refSumSe s U i := by omega
      obtain ⟨j, hj, hm⟩ : ∃ j, Alive s U j ∧ i ∈ (s.vars j).refs ++ (s.vars j).refsSe := by
        rcases this with h' | h'
        · obtain ⟨j, a, b⟩ := refSum_pos_elim h'
          exact ⟨j, a, List.mem_append_left _ b⟩
        · obtain ⟨j, a, b⟩ := refSumSe_pos_elim h'
          exact ⟨j, a, List.mem_append_right _ b⟩
      have hd := (h.deps j hj i hm hA.1).2
      have hu := h.uids j hj
      exact ih j (by omega) hj
  exact main _ i (le_refl _)

/-- **C16 (no leak).** Once the caller has given back all references and no side effect is
pending, no variable is left, every slot of the table is recycled, value numbering remembers
nothing, and every buffer owned by a variable has been given back. -/
theorem C16_no_leak (hev : EvOK ev) (h : Reachable ev s u) (hu : ∀ i, u i = 0)
    (hse : s.sideEffects = []) :
    (∀ i, ¬ Live s i) ∧ s.unused.count = s.len - 1 ∧ s.lvn = [] ∧
    ∀ p, s.freed.count p = s.acquired.count p := by
  obtain ⟨U, hinv⟩ := reachable_inv hev h
  have e : u = fun _ => 0 := funext hu
  have hI : Inv s U (fun _ => 0) (fun _ => 0) [] := by
    have := hinv
    unfold IInv at this
    rw [hse, plus_nil, e] at this; exact this
  have hna := no_alive hI
  refine ⟨fun i hl => hna i ((live_iff hinv i).1 hl), ?_, ?_, ?_⟩
  · rw [hI.rep.count]
    have hsub : ∀ i, i ∈ U ↔ i ∈ (Finset.Ico 1 s.len) := by
      intro i
      rw [Finset.mem_Ico]
      constructor
      · intro hi; have := hI.ub i hi; omega
      · intro hi
        by_contra hn
        exact hna i ⟨by omega, hi.2, hn⟩
    have hnd : U.Nodup := hI.rep.sorted.imp (fun h => ne_of_lt h)
    rw [← List.toFinset_card_of_nodup hnd,
      show U.toFinset = Finset.Ico 1 s.len by ext i; rw [List.mem_toFinset]; exact hsub i]
    exact Nat.card_Ico 1 s.len
  · cases hl : s.lvn with
    | nil => rfl
    | cons p l =>
      exact absurd (hI.lvn p.1 p.2 (by rw [hl]; exact List.mem_cons_self)).1 (hna p.2)
  · intro p
    have := hI.bal p
    have h0 : owned s U p = 0 := by
      unfold owned
      exact Finset.sum_eq_zero (fun j _ => if_neg (fun h => hna j h.1))
    omega

/-- **C16 (buffers).** A buffer is never given back more often than it was handed over; and while
a variable owns it, strictly less often. -/
theorem C16_no_double_free (hev : EvOK ev) (h : Reachable ev s u) (p : BitVec 64) :
    s.freed.count p ≤ s.acquired.count p ∧
    ∀ i, Live s i → (s.vars i).kind = .evaluated → (s.vars i).retainData = false →
      (s.vars i).literal = p → s.freed.count p < s.acquired.count p := by
  obtain ⟨U, hinv⟩ := reachable_inv hev h
  have hb := hinv.bal p
  refine ⟨by omega, ?_⟩
  intro i hl h1 h2 h3
  have hA := (live_iff hinv i).1 hl
  have : 1 ≤ owned s U p := by
    unfold owned
    have hle := Finset.single_le_sum
      (f := fun j => if Alive s U j ∧ (s.vars j).owns p = true then 1 else 0)
      (fun j _ => Nat.zero_le _) (Finset.mem_range.2 hA.2.1)
    rw [if_pos ⟨hA, by simp [Var.owns, Var.isEvaluated, h1, h2, h3]⟩] at hle
    exact hle
  omega

/-! ## C17: weak references -/

/-- **C17.** A weak reference `(i, c)` taken while the variable `i` was alive resolves, after any
further calls, to that same variable if it is still alive, and to nothing otherwise; in
particular if the index has been recycled for another variable. -/
theorem C17_weak_ref (hev : EvOK ev) (h : Reachable ev s u) {i : Nat} (hl : Live s i)
    (hs : Steps ev (fun _ => True) s u s' u') :
    (Live s' i ∧ (s'.vars i).uid = (s.vars i).uid ∧
      getWeak i (s.vars i).counter s' = .ok (some (s'.vars i)) s') ∨
    (¬ (Live s' i ∧ (s'.vars i).uid = (s.vars i).uid) ∧
      getWeak i (s.vars i).counter s' = .ok none s') := by
  obtain ⟨U, hinv⟩ := reachable_inv hev h
  have hA := (live_iff hinv i).1 hl
  obtain ⟨_, U', hinv', ht⟩ := steps_spec hev hinv hs (b := fun _ => 0)
    (by intro w _ k hk; omega)
  have hlen : ¬ i ≥ s'.len := by have := ht.len; have := hA.2.1; omega
  rcases ht.gone i hA with ⟨a1, a2⟩ | hc
  · left
    have hk := ht.keep i a1 (by rw [a2]; exact hinv.uids i hA)
    refine ⟨(live_iff hinv' i).2 a1, a2, ?_⟩
    unfold getWeak
    rw [if_neg hlen, if_neg]
    rintro (h0 | h0)
    · exact hA.1 h0
    · exact h0 hk.2.2.2.2
  · right
    refine ⟨?_, ?_⟩
    · rintro ⟨b1, b2⟩
      have hk := ht.keep i ((live_iff hinv' i).1 b1) (by rw [b2]; exact hinv.uids i hA)
      have := hk.2.2.2.2
      omega
    · unfold getWeak
      rw [if_neg hlen, if_pos (.inr (by omega))]

/-! ## C18: compaction of scopes -/

/-- **C18.** Compaction preserves, for every two live variables and for the scopes of all
threads, which of two scopes is smaller and whether they are equal; nothing else about a
variable changes, the index-to-entry relation of value numbering is preserved, and the
next scope is larger than all of them. -/
theorem C18_compact_order (hev : EvOK ev) (h : Reachable ev s u) :
    (∀ i j, Live s i → Live s j →
      ((((compactScopes s).vars i).scope < ((compactScopes s).vars j).scope ↔
        (s.vars i).scope < (s.vars j).scope) ∧
      (((compactScopes s).vars i).scope = ((compactScopes s).vars j).scope ↔
        (s.vars i).scope = (s.vars j).scope))) ∧
    (∀ i, Live s i →
      ((((compactScopes s).vars i).scope < (compactScopes s).scope ↔
        (s.vars i).scope < s.scope) ∧
      (((compactScopes s).vars i).scope = (compactScopes s).scope ↔
        (s.vars i).scope = s.scope) ∧
      ∀ (k c c' : Nat), s.otherScopes[k]? = some c → (compactScopes s).otherScopes[k]? = some c' →
        ((((compactScopes s).vars i).scope < c' ↔ (s.vars i).scope < c) ∧
         (((compactScopes s).vars i).scope = c' ↔ (s.vars i).scope = c)))) ∧
    (∀ i, Live s i → (compactScopes s).vars i =
      { s.vars i with scope := ((compactScopes s).vars i).scope } ∧ Live (compactScopes s) i) ∧
    (∀ i, (∃ k, (k, i) ∈ (compactScopes s).lvn) ↔ ∃ k, (k, i) ∈ s.lvn) ∧
    (∀ i, Live s i → ((compactScopes s).vars i).scope ≤ (compactScopes s).scopeCtr) ∧
    (compactScopes s).scope ≤ (compactScopes s).scopeCtr := by
  obtain ⟨U, hinv⟩ := reachable_inv hev h
  have hv : ∀ i, Live s i → (compactScopes s).vars i =
      { s.vars i with scope := remap (sortedScopes s) (s.vars i).scope } := by
    intro i hi
    rw [compact_vars hinv, if_pos ((live_iff hinv i).1 hi)]
  have eq : ∀ {a b : Nat}, (a < 2 ∨ a ∈ liveScopes s) → (b < 2 ∨ b ∈ liveScopes s) →
      ((remap (sortedScopes s) a = remap (sortedScopes s) b) ↔ a = b) :=
    fun ha hb => ⟨remap_inj ha hb, fun e => by rw [e]⟩
  have sl : ∀ {i}, Live s i → (s.vars i).scope < 2 ∨ (s.vars i).scope ∈ liveScopes s :=
    fun hi => scope_live hinv ((live_iff hinv _).1 hi)
  refine ⟨?_, ?_, ?_, (compact_inv hinv).2, ?_, ?_⟩
  · intro i j hi hj
    rw [hv i hi, hv j hj]
    exact ⟨remap_lt (sl hi) (sl hj), eq (sl hi) (sl hj)⟩
  · intro i hi
    rw [hv i hi]
    refine ⟨remap_lt (sl hi) (scope_live_cur s), eq (sl hi) (scope_live_cur s), ?_⟩
    intro k c c' hc hc'
    have : (compactScopes s).otherScopes = s.otherScopes.map (remap (sortedScopes s)) := rfl
    rw [this, List.getElem?_map, hc, Option.map_some] at hc'
    cases hc'
    have hm := scope_live_other s (List.mem_of_getElem? hc)
    exact ⟨remap_lt (sl hi) hm, eq (sl hi) hm⟩
  · intro i hi
    refine ⟨by rw [hv i hi], ?_⟩
    rw [live_iff (compact_inv hinv).1]
    exact (live_iff hinv i).1 hi
  · intro i hi
    rw [hv i hi]
    exact remap_le (sl hi)
  · exact remap_le (scope_live_cur s)

/-! ## Reachable examples and counterexamples -/

theorem runAll_steps : ∀ (l : List Call) {s s' : Store} {u u' : Nat → Nat},
    runAll ev l s u = some (s', u') → Steps ev (fun _ => True) s u s' u' := by
  intro l
  suffices H : ∀ {s0 s s' : Store} {u0 u u' : Nat → Nat}, Steps ev (fun _ => True) s0 u0 s u →
      runAll ev l s u = some (s', u') → Steps ev (fun _ => True) s0 u0 s' u' from
    fun {_ _ _ _} h => H (.refl trivial) h
  induction l with
  | nil => intro s0 s s' u0 u u' h e; cases e; exact h
  | cons c l ih =>
    intro s0 s s' u0 u u' h e
    unfold runAll at e
    split at e
    · rename_i hl
      split at e
      · rename_i r s1 he
        exact ih (.step h (.ok hl he) trivial) e
      · cases e
    · cases e

theorem runAll_reachable (l : List Call) {s s' : Store} {u u' : Nat → Nat}
    (h : Reachable ev s u) (e : runAll ev l s u = some (s', u')) : Reachable ev s' u' := by
  have := runAll_steps l e
  clear e
  induction this with
  | refl => exact h
  | step _ hs _ ih => exact .step (ih h) hs

/-- The initial state, and evaluation in a situation where nothing can be evaluated. -/
def init : Store := {}
@[inherit_doc init] def noEval : M Unit := pure ()

theorem init_reachable : Reachable noEval init (fun _ => 0) :=
  .init (fun _ _ => 0#64) true true true false false

/-- Two literals, an index vector, their sum twice, and their difference. -/
def demo : List Call :=
  [.literal 2 .u32 5#64 1, .counter 2 10, .node2 2 .add .u32 10 false 1 2 0#64,
   .node2 2 .add .u32 10 false 1 2 0#64, .node2 2 .sub .u32 10 false 1 2 0#64]

/-- The second sum is the first one, the difference is another variable (C15). -/
example : (runAll noEval demo init (fun _ => 0)).map (fun p =>
    ((p.1.vars 3).kind, (p.1.vars 3).refCount, (p.1.vars 4).kind, p.1.len, p.2 3, p.2 4)) =
    some (.add, 2, .sub, 5, 2, 1) := by decide +kernel

/-- A reachable state in which `P` holds, from a run. -/
theorem reach (l : List Call) (P : Store → (Nat → Nat) → Prop) [∀ s u, Decidable (P s u)]
    (h : (runAll noEval l init (fun _ => 0)).any (fun p => decide (P p.1 p.2)) = true) :
    ∃ s u, Reachable noEval s u ∧ P s u := by
  cases hr : runAll noEval l init (fun _ => 0) with
  | none => rw [hr] at h; cases h
  | some p =>
    rw [hr] at h
    exact ⟨p.1, p.2, runAll_reachable _ init_reachable hr, by simpa using h⟩

/-- The index returned by a call, if it returns normally. -/
def Res.value : Res Nat → Option Nat
  | .ok r _ => some r
  | _ => none

/-- The hypotheses of the theorems of C15 are met, with a merge: the second sum. -/
example : ∃ s u, Reachable noEval s u ∧
    (Call.node2 2 .add .u32 10 false 1 2 0#64).legal u ∧
    (∀ a ∈ (Call.node2 2 .add .u32 10 false 1 2 0#64).operands, (s.vars a).isDirty = false) ∧
    ((Call.node2 2 .add .u32 10 false 1 2 0#64).exec noEval s).value = some 3 ∧ Live s 3 :=
  reach (demo.take 3) (fun s u => (Call.node2 2 .add .u32 10 false 1 2 0#64).legal u ∧
    (∀ a ∈ (Call.node2 2 .add .u32 10 false 1 2 0#64).operands, (s.vars a).isDirty = false) ∧
    ((Call.node2 2 .add .u32 10 false 1 2 0#64).exec noEval s).value = some 3 ∧ Live s 3)
    (by decide +kernel)

/-- The hypotheses of C15 are met without a merge: the same operands in another scope. -/
example : ∃ s u, Reachable noEval s u ∧
    (Call.node2 2 .add .u32 10 false 1 2 0#64).legal u ∧
    ((Call.node2 2 .add .u32 10 false 1 2 0#64).exec noEval s).value = some 4 ∧ Live s 3 ∧
    (s.vars 3).kind = .add :=
  reach (demo.take 3 ++ [.newScope]) (fun s u =>
    (Call.node2 2 .add .u32 10 false 1 2 0#64).legal u ∧
    ((Call.node2 2 .add .u32 10 false 1 2 0#64).exec noEval s).value = some 4 ∧ Live s 3 ∧
    (s.vars 3).kind = .add) (by decide +kernel)

/-- A buffer is mapped, used, and written to. -/
def demoDirty : List Call :=
  [.memMap 2 .f32 4096#64 10 true, .memMap 2 .f32 8192#64 10 true, .memMap 2 .f32 12288#64 10 true,
   .pointer 2 12288#64 3 true]

/-- **C15 fails for the third operand**: `jitc_var_new_node_3()` accepts a third operand with
pending writes that the evaluation could not perform, while `jitc_var_new_node_2()` raises an
exception in the same state (the check after the evaluation looks at the second operand twice,
src/var.cpp:1276). -/
theorem C15_third_operand_dirty_counterexample :
    ∃ s u, Reachable noEval s u ∧ (Call.node3 2 .fma .f32 10 false 1 2 3 0#64).legal u ∧
      (match (Call.node3 2 .fma .f32 10 false 1 2 3 0#64).exec noEval s with
        | .ok r s' => (s'.vars r).d2 = 3 ∧ (s'.vars 3).isDirty = true
        | _ => False) ∧
      (match (Call.node2 2 .add .f32 10 false 1 3 0#64).exec noEval s with
        | .raise _ => True
        | _ => False) := by
  have h := reach demoDirty (fun s u => (Call.node3 2 .fma .f32 10 false 1 2 3 0#64).legal u ∧
      (match (Call.node3 2 .fma .f32 10 false 1 2 3 0#64).exec noEval s with
        | .ok r s' => decide ((s'.vars r).d2 = 3 ∧ (s'.vars 3).isDirty = true)
        | _ => false) = true ∧
      (match (Call.node2 2 .add .f32 10 false 1 3 0#64).exec noEval s with
        | .raise _ => true
        | _ => false) = true) (by decide +kernel)
  obtain ⟨s, u, h1, h2, h3, h4⟩ := h
  refine ⟨s, u, h1, h2, ?_, ?_⟩
  · split at h3
    · simpa using h3
    · cases h3
  · split at h4
    · trivial
    · cases h4

/-- C16: a chain of nodes is released completely, and its slots are recycled. -/
example : ∃ s u, Reachable noEval s u ∧
    (u 1 = 0 ∧ u 2 = 0 ∧ u 3 = 0 ∧ u 4 = 0) ∧ s.unused.count = 4 ∧ s.sideEffects = [] ∧
    s.freed = [4096#64] :=
  reach [.memMap 2 .u32 4096#64 10 true, .counter 2 10, .node2 2 .add .u32 10 false 1 2 0#64,
    .node1 2 .neg .u32 10 false 3 0#64, .decRef 1, .decRef 2, .decRef 3, .decRef 4]
    (fun s u => (u 1 = 0 ∧ u 2 = 0 ∧ u 3 = 0 ∧ u 4 = 0) ∧ s.unused.count = 4 ∧ s.sideEffects = [] ∧
      s.freed = [4096#64]) (by decide +kernel)

/-- C16: while only the last node of a chain is held, all of its operands stay alive. -/
example : ∃ s u, Reachable noEval s u ∧ (u 1 = 0 ∧ u 2 = 0 ∧ u 3 = 0 ∧ u 4 = 1) ∧
    Live s 1 ∧ Live s 2 ∧ Live s 3 ∧ s.freed = [] :=
  reach [.memMap 2 .u32 4096#64 10 true, .counter 2 10, .node2 2 .add .u32 10 false 1 2 0#64,
    .node1 2 .neg .u32 10 false 3 0#64, .decRef 1, .decRef 2, .decRef 3]
    (fun s u => (u 1 = 0 ∧ u 2 = 0 ∧ u 3 = 0 ∧ u 4 = 1) ∧
      Live s 1 ∧ Live s 2 ∧ Live s 3 ∧ s.freed = []) (by decide +kernel)

/-- C17: the index 1 is recycled for another variable; the old weak reference (counter 0)
resolves to nothing, a new one (counter 1) to the new variable. -/
example : ∃ s u, Reachable noEval s u ∧ Live s 1 ∧ (s.vars 1).literal = 7#64 ∧
    (match getWeak 1 0 s with | .ok o _ => o.isNone | _ => false) = true ∧
    (match getWeak 1 1 s with | .ok o _ => o.isSome | _ => false) = true :=
  reach [.literal 2 .u32 5#64 1, .decRef 1, .literal 2 .u32 7#64 1]
    (fun s _ => Live s 1 ∧ (s.vars 1).literal = 7#64 ∧
      (match getWeak 1 0 s with | .ok o _ => o.isNone | _ => false) = true ∧
      (match getWeak 1 1 s with | .ok o _ => o.isSome | _ => false) = true) (by decide +kernel)

/-- Three literals in three scopes, the last of which exhausts the scope counter. -/
def demoScopes : List Call :=
  [.literal 2 .u32 5#64 1, .advanceScope 1000, .literal 2 .u32 6#64 1, .advanceScope 0xFFFFFFFF,
   .literal 2 .u32 7#64 1]

/-- C18: the scopes before the compaction … -/
example : ∃ s u, Reachable noEval s u ∧ (s.vars 1).scope = 2 ∧ (s.vars 2).scope = 1002 ∧
    (s.vars 3).scope = 0xFFFFFFFF ∧ s.scopeCtr = 0xFFFFFFFF ∧
    ((compactScopes s).vars 2).scope = 3 ∧ ((compactScopes s).vars 3).scope = 4 :=
  reach demoScopes (fun s _ => (s.vars 1).scope = 2 ∧ (s.vars 2).scope = 1002 ∧
    (s.vars 3).scope = 0xFFFFFFFF ∧ s.scopeCtr = 0xFFFFFFFF ∧
    ((compactScopes s).vars 2).scope = 3 ∧ ((compactScopes s).vars 3).scope = 4)
    (by decide +kernel)

/-- **Scope identifiers kept by the caller are not updated.**  After the compaction caused by
`jit_new_scope()`, switching back to the scope 1002 in which variable 2 was created places new
variables in a different scope than variable 2, and after all later scopes. -/
theorem C18_caller_scope_counterexample :
    ∃ s u, Reachable noEval s u ∧ (s.vars 2).scope = 3 ∧ (s.vars 4).scope = 5 ∧
      (s.vars 5).scope = 1002 :=
  reach (demoScopes ++ [.newScope, .literal 2 .u32 8#64 1, .setScope 1002, .literal 2 .u32 6#64 1])
    (fun s _ => (s.vars 2).scope = 3 ∧ (s.vars 4).scope = 5 ∧ (s.vars 5).scope = 1002)
    (by decide +kernel)

/-! ## C55: attributes of operands -/

/-- **C55, proved part.**  Creating, resizing and releasing variables (on operands without pending
writes) leaves kind, type, operands, literal value or data pointer, and scope of every other variable
that the caller holds as they are, and also the size of evaluated ones.  Missing: the size of
unevaluated variables, for which the claim is false (see below). -/
theorem C55_attributes_kept_partial (hev : EvOK ev) (h : Reachable ev s u) {c : Call}
    (hl : c.legal u) (hc : c.request.isSome = true ∨ (∃ i, c = .decRef i) ∨
      (∃ i n, c = .resize i n) ∨ ∃ b t x n f, c = .memMap b t x n f)
    (hclean : ∀ a ∈ c.operands, (s.vars a).isDirty = false)
    {r : Nat} (he : c.exec ev s = .ok r s') {i : Nat} (h1 : 0 < u i) (h2 : 0 < c.after u r i) :
    (s'.vars i).kind = (s.vars i).kind ∧ (s'.vars i).type = (s.vars i).type ∧
    (s'.vars i).d0 = (s.vars i).d0 ∧ (s'.vars i).d1 = (s.vars i).d1 ∧
    (s'.vars i).d2 = (s.vars i).d2 ∧ (s'.vars i).d3 = (s.vars i).d3 ∧
    (s'.vars i).literal = (s.vars i).literal ∧ (s'.vars i).scope = (s.vars i).scope ∧
    ((s.vars i).kind = .evaluated → (s'.vars i).size = (s.vars i).size) := by
  obtain ⟨U, hinv⟩ := reachable_inv hev h
  have hne : c ≠ .eval := by rintro rfl; simp [Call.request] at hc
  rw [exec_clean (ev' := pure ()) hne hclean] at he
  obtain ⟨U', _, hf⟩ := call_frame hinv hl hc he
  have hA := hinv.alive_of_ext (plus_pos_left (l := s.sideEffects) h1)
  obtain ⟨a1, a2⟩ := hf.stay i (by omega) hA
  obtain ⟨_, b2, b3⟩ := hf.keep i a1 (by rw [a2]; exact hinv.uids i hA)
  unfold Var.body at b2
  simp only [Var.mk.injEq] at b2
  obtain ⟨_, _, e3, e4, e5, e6, e7, e8, _, _, e11, _, e13, _⟩ := b2
  exact ⟨e11, e13, e4, e5, e6, e7, e8, e3, b3⟩

/-- **C55 fails for `jit_var_resize()`**: if the caller's reference is the only one, resizing
changes the size of the operand itself (src/var.cpp:2027-2033): here from 1 to 10. -/
theorem C55_resize_changes_operand_counterexample :
    ∃ s u, Reachable noEval s u ∧ u 1 = 1 ∧ (s.vars 1).size = 1 ∧
      (match varResize noEval 1 10 s with
       | .ok r s' => r = 1 ∧ (s'.vars 1).size = 10
       | _ => False) := by
  obtain ⟨s, u, h1, h2, h3, h4⟩ := reach [.node0 2 (.other 7) .u32 1 false 0#64]
    (fun s u => u 1 = 1 ∧ (s.vars 1).size = 1 ∧
      (match varResize noEval 1 10 s with
       | .ok r s' => decide (r = 1 ∧ (s'.vars 1).size = 10)
       | _ => false) = true) (by decide +kernel)
  refine ⟨s, u, h1, h2, h3, ?_⟩
  split at h4
  · simpa using h4
  · cases h4

end Verif.Var
