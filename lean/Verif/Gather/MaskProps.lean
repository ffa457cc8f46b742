import Verif.Gather.MaskHist
/-!
# Properties of the mask stack (C44)
-/
namespace Verif.Gather
open Verif.Var Verif.Ops

variable {s s' s'' : Store} {U U' : List Nat} {u u' u'' : Nat → Nat} {ev : M Unit}
  {st st' st'' : List Nat}

/-! ## The stack holds references -/

/-- **C44 (references).** In every history, the masks on the stack are variables that exist, no
matter which references the caller has given up. -/
theorem C44_entries_live (hev : EvOK ev) (h : MReachable ev s u st) {t : Nat} (ht : t ∈ st) :
    Live s t := by
  obtain ⟨U, h0, hi⟩ := mreachable_inv hev h
  have : t ≠ 0 := fun e => h0 (e ▸ ht)
  exact (live_iff hi t).2 (hi.alive_of_ext (plus_pos_left (plus_apply_pos this ht)))

theorem refSum_congr_count {i : Nat} (h : Inv s U u (fun _ => 0) []) (hi : Alive s U i) :
    u i ≤ (s.vars i).refCount := by
  rw [h.rc i hi]; omega

/-- **C44 (references).** The stack owns one reference for every entry, in addition to those of the
caller. -/
theorem C44_entries_counted (hev : EvOK ev) (h : MReachable ev s u st) {t : Nat} (ht : t ∈ st) :
    u t + st.count t ≤ (s.vars t).refCount := by
  obtain ⟨U, h0, hi⟩ := mreachable_inv hev h
  have hz : t ≠ 0 := fun e => h0 (e ▸ ht)
  have ha := hi.alive_of_ext (plus_pos_left (plus_apply_pos hz ht))
  have := hi.rc t ha
  have e : plus u st t = u t + st.count t := by unfold plus; rw [if_neg hz]
  have e2 : plus u st t ≤ plus (plus u st) s.sideEffects t := by
    conv_rhs => unfold plus
    exact Nat.le_add_right _ _
  omega

/-- **C44 (references).** Once the stack is empty and the caller has given up all references, no
variable is left: pushing and popping masks does not leak references. -/
theorem C44_no_leak (hev : EvOK ev) (h : MReachable ev s u []) (hu : ∀ i, u i = 0)
    (hse : s.sideEffects = []) (i : Nat) : ¬ Live s i := by
  obtain ⟨U, h0, hi⟩ := mreachable_inv hev h
  rw [plus_nil] at hi
  have e : u = fun _ => 0 := funext hu
  have hI : Inv s U (fun _ => 0) (fun _ => 0) [] := by
    have := hi
    unfold IInv at this
    rw [hse, plus_nil, e] at this; exact this
  rw [live_iff hi]
  exact no_alive hI i

/-! ## Last in, first out -/

theorem plain_stack {o : MOp} (ho : o.plain = true) (h : MStep ev s u st o s' u' st') : st' = st := by
  cases h <;> first | rfl | cases ho

theorem push_stack {i : Nat} (h : MStep ev s u st (.push i) s' u' st') : 0 < u i ∧ st' = i :: st := by
  cases h with
  | push hu e => exact ⟨hu, (push_ok (ev := ev) e).2⟩

theorem pop_stack (hev : EvOK ev) (hi : MInv s U u st) (h : MStep ev s u st .pop s' u' st') :
    st' = st.tail := by
  cases h with
  | pop e => exact (pop_inv hi hev e).1
  | popRaise e => rw [(pop_raise hi e).1]; rfl

theorem MSteps.split {l m : List MOp} (h : MSteps ev s u st (l ++ m) s'' u'' st'') :
    ∃ s' u' st', MSteps ev s u st l s' u' st' ∧ MSteps ev s' u' st' m s'' u'' st'' := by
  induction l generalizing s u st with
  | nil => exact ⟨s, u, st, .nil, h⟩
  | cons o l ih =>
    cases h with
    | cons h1 h2 =>
      obtain ⟨s', u', st', a, b⟩ := ih h2
      exact ⟨s', u', st', .cons h1 a, b⟩

theorem balanced_keeps (hev : EvOK ev) {l : List MOp} (hb : Balanced l) :
    ∀ {s s' : Store} {U : List Nat} {u u' : Nat → Nat} {st st' : List Nat}, MInv s U u st →
      MSteps ev s u st l s' u' st' → st' = st ∧ ∃ U', MInv s' U' u' st' ∧
        ∀ t ∈ st, Alive s U t → Alive s' U' t ∧ (s'.vars t).uid = (s.vars t).uid := by
  induction hb with
  | nil =>
    intro s s' U u u' st st' hi h
    cases h
    exact ⟨rfl, U, hi, fun t _ ha => ⟨ha, rfl⟩⟩
  | @plain o l ho _ ih =>
    intro s s' U u u' st st' hi h
    cases h with
    | cons h1 h2 =>
      obtain ⟨U1, i1, t1⟩ := mstep_inv hev hi h1
      obtain rfl := plain_stack ho h1
      obtain ⟨e, U2, i2, k2⟩ := ih i1 h2
      refine ⟨e, U2, i2, fun t ht ha => ?_⟩
      have hz : t ≠ 0 := fun e => hi.1 (e ▸ ht)
      obtain ⟨a1, a2⟩ := t1.stay t (lt_min (plus_apply_pos hz ht) (plus_apply_pos hz ht)) ha
      obtain ⟨b1, b2⟩ := k2 t ht a1
      exact ⟨b1, b2.trans a2⟩
  | @nest i l m _ _ ih1 ih2 =>
    intro s s' U u u' st st' hi h
    cases h with
    | cons h1 h2 =>
      obtain ⟨U1, i1, t1⟩ := mstep_inv hev hi h1
      obtain ⟨_, rfl⟩ := push_stack h1
      obtain ⟨s2, u2, st2, h3, h4⟩ := MSteps.split h2
      obtain ⟨rfl, U2, i2, k2⟩ := ih1 i1 h3
      cases h4 with
      | cons h5 h6 =>
        obtain ⟨U3, i3, t3⟩ := mstep_inv hev i2 h5
        obtain rfl := pop_stack hev i2 h5
        obtain ⟨rfl, U4, i4, k4⟩ := ih2 i3 h6
        refine ⟨rfl, U4, i4, fun t ht ha => ?_⟩
        have hz : t ≠ 0 := fun e => hi.1 (e ▸ ht)
        obtain ⟨a1, a2⟩ := t1.stay t (lt_min (plus_apply_pos hz ht)
          (plus_apply_pos hz (List.mem_cons_of_mem _ ht))) ha
        obtain ⟨b1, b2⟩ := k2 t (List.mem_cons_of_mem _ ht) a1
        obtain ⟨c1, c2⟩ := t3.stay t (lt_min (plus_apply_pos hz (List.mem_cons_of_mem _ ht))
          (plus_apply_pos hz ht)) b1
        obtain ⟨d1, d2⟩ := k4 t ht c1
        exact ⟨d1, d2.trans (c2.trans (b2.trans a2))⟩

/-- **C44 (last in, first out).** A sequence of calls in which every mask that is pushed is popped
again leaves the stack as it was; the masks on it are still the same variables. -/
theorem C44_balanced (hev : EvOK ev) (h : MReachable ev s u st) {l : List MOp} (hb : Balanced l)
    (hs : MSteps ev s u st l s' u' st') :
    st' = st ∧ ∀ t ∈ st, Live s' t ∧ (s'.vars t).uid = (s.vars t).uid := by
  obtain ⟨U, hi⟩ := mreachable_inv hev h
  obtain ⟨e, U', i', k⟩ := balanced_keeps hev hb hi hs
  refine ⟨e, fun t ht => ?_⟩
  obtain ⟨a, b⟩ := k t ht ((live_iff hi.2 t).1 (C44_entries_live hev h ht))
  exact ⟨(live_iff i'.2 t).2 a, b⟩

/-- **C44 (innermost mask).** After a mask was pushed, and any further masks were pushed and popped,
it is at the top of the stack and still the same variable, even if the caller gave up all
references to it. -/
theorem C44_innermost (hev : EvOK ev) (h : MReachable ev s u st) {i : Nat} {l : List MOp}
    (hb : Balanced l) (hs : MSteps ev s u st (.push i :: l) s' u' st') :
    st' = i :: st ∧ Live s' i ∧ (s'.vars i).uid = (s.vars i).uid := by
  cases hs with
  | cons h1 h2 =>
    obtain ⟨U, hi⟩ := mreachable_inv hev h
    obtain ⟨U1, i1, t1⟩ := mstep_inv hev hi h1
    obtain ⟨hu, rfl⟩ := push_stack h1
    obtain ⟨e, U2, i2, k2⟩ := balanced_keeps hev hb i1 h2
    have ha := hi.2.alive_of_ext (plus_pos_left (plus_pos_left (l := st) hu))
    obtain ⟨a1, a2⟩ := t1.stay i (lt_min (plus_pos_left hu)
      (plus_apply_pos (ne_zero hi.2 (plus_pos_left hu)) (by simp))) ha
    obtain ⟨b1, b2⟩ := k2 i (by simp) a1
    exact ⟨e, (live_iff i2.2 i).2 b1, b2.trans a2⟩

/-- **C44 (underflow).** Popping from an empty stack raises an exception that changes nothing, and
popping from a stack with entries never does. -/
theorem C44_underflow (hev : EvOK ev) (h : MReachable ev s u st) :
    (maskPop [] s = .raise s) ∧ (∀ s', maskPop st s = .raise s' → st = [] ∧ s' = s) ∧
    (st ≠ [] → ∃ s', maskPop st s = .ok st.tail s' ∨ maskPop st s = .stop .limit) := by
  obtain ⟨U, hi⟩ := mreachable_inv hev h
  refine ⟨rfl, fun s' e => pop_raise hi e, fun hne => ?_⟩
  cases st with
  | nil => exact absurd rfl hne
  | cons t l =>
    have hi' : IInv s U (plus (plus u l) [t]) := by rw [← plus_cons]; exact hi.2
    have h' : Inv s U (plus (plus (plus u l) s.sideEffects) [t]) (fun _ => 0) [] := by
      rw [plus_comm]; exact hi'
    have := decRef_spec (R := fun _ => False) (T := fun r => r = .limit) h'
    unfold wp at this
    simp only [maskPop, bind]
    cases hx : decRef t s with
    | ok a s1 => exact ⟨s1, .inl rfl⟩
    | raise s1 => rw [hx] at this; exact this.elim
    | abort => rw [hx] at this; exact this.elim
    | stop r => rw [hx] at this; exact ⟨s, .inr (by rw [this])⟩

/-- **C44 (peek).** `jit_var_mask_peek` returns the innermost mask, or 0 if there is none. -/
theorem C44_peek (hev : EvOK ev) (h : MReachable ev s u st) {r : Nat} (he : maskPeek st s = .ok r s') :
    r = st.head?.getD 0 ∧ (r ≠ 0 → Live s' r ∧ (s'.vars r).uid = (s.vars r).uid) := by
  obtain ⟨U, hi⟩ := mreachable_inv hev h
  obtain ⟨U', i', t'⟩ := mstep_inv hev hi (.peek he)
  have e : r = st.head?.getD 0 := by
    cases st with
    | nil => cases he; rfl
    | cons t l =>
      simp only [maskPeek, bind] at he
      cases hx : incRef t s <;> rw [hx] at he <;> cases he
      rfl
  refine ⟨e, fun hr => ?_⟩
  cases st with
  | nil => exact absurd e hr
  | cons t l =>
    obtain rfl : r = t := e
    have ha := hi.2.alive_of_ext (plus_pos_left (plus_apply_pos (ext := u) (l := r :: l) hr (by simp)))
    obtain ⟨a, b⟩ := t'.stay r (lt_min (plus_apply_pos hr (by simp)) (plus_apply_pos hr (by simp))) ha
    exact ⟨(live_iff i'.2 r).2 a, b⟩

/-! ## Application of masks -/

theorem usable_active {n : Nat} : usable s st n = (active s st n).getD 0 := by
  unfold usable active
  cases st with
  | nil => rfl
  | cons t l =>
    simp only [List.head?_cons, Option.filter]
    split <;> simp_all

theorem maskApply_bool {i n : Nat} :
    wlp (maskApply ev st i n) s (fun _ _ => (s.vars i).type = .bool) := by
  unfold maskApply
  refine wlp_bind (wlp_getVar ?_)
  refine wlp_ite (fun _ => wlp_raise) (fun ht => ?_)
  intro _ _ _
  by_contra hh; exact ht hh

/-- **C44 (conjunction).** `jit_var_mask_apply` turns the mask of an operation with `n` threads into
its conjunction with the innermost mask of the stack, provided that its size fits, and otherwise
leaves its values alone.  (A boolean is the 64-bit number 0 or 1.) -/
theorem C44_apply (hev : EvOK ev) (h : MReachable ev s u st) (hw : WritesOK s) {i n r : Nat}
    (hi : Operand s u i) (hn : 0 < n) (hz : (s.vars i).size = 1 ∨ (s.vars i).size = n)
    (ht : ∀ t, st.head? = some t → Operand s (holders u st) t ∧ (s.vars t).type = .bool)
    (he : maskApply ev st i n s = .ok r s') :
    (s'.vars r).type = .bool ∧ Live s' r ∧
    (∀ t, active s st n = some t → (s'.vars r).size = max (s.vars t).size (s.vars i).size ∧
      ∀ l x y, Val s t l x → Val s i l y → Val s' r l (x &&& y)) ∧
    (active s st n = none → (s'.vars r).size = n ∧ ∀ l y, Val s i l y → Val s' r l y) ∧
    (∀ k, 0 < u k ∨ k ∈ st → ∀ l x, Val s k l x → Val s' k l x) := by
  obtain ⟨U, h0, hinv⟩ := mreachable_inv hev h
  rw [holders_eq h0] at ht
  have S : St s U (plus u st) := ⟨hinv, (writesOK_iff hinv).1 hw⟩
  have hty : (s.vars i).type = .bool := maskApply_bool r s' he
  obtain ⟨U', p⟩ := maskApply_post S (Operand.more hi) ht hn (fun _ => by omega) r s' he
  have p : PostAt _ _ _ _ _ _ _ r s' U' := p
  have hua := usable_active (s := s) (st := st) (n := n)
  refine ⟨p.type, (live_iff p.st.inv r).2 p.alive, fun t ha => ?_, fun ha => ?_, fun k hk l x hx => ?_⟩
  · rw [ha] at hua
    simp only [Option.getD_some] at hua
    have hm : st.head? = some t := by
      unfold active at ha
      exact (Option.filter_eq_some_iff.1 ha).1
    have htz : t ≠ 0 := fun e => h0 (by rw [← e]; exact List.mem_of_mem_head? hm)
    have hsz := p.size
    unfold applySize at hsz
    rw [hua, if_neg htz] at hsz
    refine ⟨hsz, fun l x y hx hy => p.val ⟨y, hy, fun e => absurd (hua ▸ e) htz, fun _ => ⟨x, hua ▸ hx, ?_⟩⟩⟩
    have hx' := hx.norm
    have hy' := hy.norm
    rw [(ht t hm).2] at hx'
    rw [hty] at hy'
    rcases norm_bool hx' with rfl | rfl <;> rcases norm_bool hy' with rfl | rfl <;> rfl
  · rw [ha] at hua
    have hsz := p.size
    unfold applySize at hsz
    rw [hua] at hsz
    exact ⟨hsz, fun l y hy => p.val ⟨y, hy, fun _ => rfl, fun e => absurd hua e⟩⟩
  · have : 0 < plus u st k := by
      rcases hk with hk | hk
      · exact plus_pos_left hk
      · exact plus_apply_pos (fun e => h0 (e ▸ hk)) hk
    exact (p.same S this).val l x hx

/-! ## Evaluation scopes -/

/-- **C44 (evaluation scope).** `jit_eval_scope_enter` in a symbolic region makes a mask that is set
everywhere the innermost one. -/
theorem C44_scope_enter (hev : EvOK ev) (h : MReachable ev s u st) (hw : WritesOK s)
    (hs : s.symbolicScope = true) {b tok : Nat}
    (he : evalScopeEnter ev b st s = .ok (tok, st') s') :
    tok = s.scope ∧ s'.symbolicScope = false ∧ ∃ m, st' = m :: st ∧ Live s' m ∧
      (s'.vars m).type = .bool ∧ (s'.vars m).size = 1 ∧ ∀ l x, Val s' m l x ↔ x = 1#64 := by
  obtain ⟨U, hi⟩ := mreachable_inv hev h
  rcases enter_inv hi ((writesOK_iff hi.2).1 hw) _ _ he with ⟨e, _⟩ |
    ⟨_, e2, e3, m, e4, e5, e6, e7, U', a1, a2⟩
  · rw [hs] at e; cases e
  · refine ⟨e2, e3, m, e4, ?_, e5, e6, fun l x => ⟨fun hx => hx.unique (e7 l), fun e => e ▸ e7 l⟩⟩
    have e4 : st' = m :: st := e4
    subst e4
    have hm : m ≠ 0 := fun e => a1.1 (by simp [e])
    exact (live_iff a1.2 m).2 (a1.2.alive_of_ext (plus_pos_left
      (plus_apply_pos hm (by simp))))

/-- **C44 (evaluation scope).** Entering an evaluation scope, a balanced sequence of calls, and
leaving the scope with the token restore the stack, the scope and the flag. -/
theorem C44_scope_round_trip (hev : EvOK ev) (h : MReachable ev s u st) (hw : WritesOK s)
    (h0 : s.scope ≠ 0) {b tok : Nat} {s1 s2 s3 : Store} {u2 : Nat → Nat} {st1 st2 st3 : List Nat}
    {l : List MOp} (hb : Balanced l) (he : evalScopeEnter ev b st s = .ok (tok, st1) s1)
    (hs : MSteps ev s1 u st1 l s2 u2 st2) (hl : evalScopeLeave st2 tok s2 = .ok st3 s3) :
    st3 = st ∧ (s.symbolicScope = true → s3.scope = s.scope ∧ s3.symbolicScope = true) := by
  obtain ⟨U, hi⟩ := mreachable_inv hev h
  obtain ⟨U1, i1, _⟩ := mstep_inv hev hi (.enter hw he)
  obtain ⟨rfl, U2, i2, _⟩ := balanced_keeps hev hb i1 hs
  rcases enter_inv hi ((writesOK_iff hi.2).1 hw) _ _ he with ⟨e1, e2, e3, _⟩ |
    ⟨e1, e2, e3, m, e4, _⟩
  · obtain rfl : tok = 0 := e2
    obtain rfl : st2 = st := e3
    rcases leave_ok hl with ⟨_, e, _⟩ | ⟨e, _⟩
    · exact ⟨e, fun e' => by rw [e1] at e'; cases e'⟩
    · exact absurd rfl e
  · obtain rfl : tok = s.scope := e2
    obtain rfl : st2 = m :: st := e4
    rcases leave_ok hl with ⟨e, _⟩ | ⟨_, s4, e5, rfl⟩
    · exact absurd e h0
    · exact ⟨(pop_inv i2 hev e5).1, fun _ => ⟨rfl, rfl⟩⟩

end Verif.Gather
