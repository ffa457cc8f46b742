import Verif.Gather.Mask
import Verif.Gather.MaskSpec
import Verif.Ops.Props
/-!
# The invariant of histories with a mask stack
-/
namespace Verif.Gather
open Verif.Var Verif.Ops

variable {s s' s'' : Store} {U U' : List Nat} {u u' u'' ext base : Nat → Nat} {ev : M Unit}
  {st st' : List Nat}

/-- The invariant: the references are those of the caller and of the stack. -/
def MInv (s : Store) (U : List Nat) (u : Nat → Nat) (st : List Nat) : Prop :=
  0 ∉ st ∧ IInv s U (plus u st)

theorem holders_eq (h : 0 ∉ st) : holders u st = plus u st := by
  funext k
  unfold holders plus
  split
  · rename_i e
    subst e
    rw [List.count_eq_zero_of_not_mem h]
  · rfl

theorem gain_eq {r : Nat} : gain u r = plus u [r] := by
  funext k
  unfold gain plus
  by_cases hk : k = r
  · subst hk
    by_cases h0 : k = 0 <;> simp [h0]
  · rw [if_neg (fun e => hk e.2), List.count_cons_of_ne (fun e => hk e.symm)]; simp

theorem after_plus {c : Call} (hl : c.legal u) (r : Nat) :
    c.after (plus u st) r = plus (c.after u r) st := by
  funext k
  cases c with
  | decRef i =>
    have := hl i (by simp [Call.operands])
    simp only [Call.after, plus]
    by_cases hk : k = i
    · subst hk; rw [if_pos rfl, if_pos rfl]; omega
    · rw [if_neg hk, if_neg hk]; omega
  | markSideEffect i =>
    have := hl i (by simp [Call.operands])
    simp only [Call.after, plus]
    by_cases hk : k = i
    · subst hk; rw [if_pos rfl, if_pos rfl]; omega
    · rw [if_neg hk, if_neg hk]; omega
  | _ => simp only [Call.after, plus]; omega

theorem Operand.more {a : Nat} (h : Operand s u a) : Operand s (plus u st) a :=
  ⟨plus_pos_left h.held, h.sized, h.clean, h.lit⟩

theorem valid_more {c : OpCall} (h : c.Valid s u) : c.Valid s (plus u st) := by
  cases c with
  | op1 op a0 => exact ⟨Operand.more h.1, h.2⟩
  | op2 op a0 a1 => exact ⟨Operand.more h.1, Operand.more h.2.1, h.2.2⟩
  | op3 op a0 a1 a2 => exact ⟨Operand.more h.1, Operand.more h.2.1, Operand.more h.2.2.1, h.2.2.2⟩

theorem Post.inv {t : VType} {n r : Nat} {lit : Prop} {V : Nat → BitVec 64 → Prop}
    (h : Post s U u t n lit V r s') :
    ∃ U', IInv s' U' (plus u [r]) ∧ Track u s U s' U' := by
  obtain ⟨U', a, b, _⟩ := h
  exact ⟨U', a.inv, b.track⟩

theorem op_track (h : St s U u) {c : OpCall} (hv : c.Valid s u) {r : Nat}
    (he : c.exec ev s = .ok r s') : ∃ U', IInv s' U' (plus u [r]) ∧ Track u s U s' U' := by
  cases c with
  | op1 op a0 => exact Post.inv (op1_post h hv r s' he)
  | op2 op a0 a1 => exact Post.inv (op2_post h hv r s' he)
  | op3 op a0 a1 a2 => exact Post.inv (op3_post h hv r s' he)

theorem ne_zero (h : IInv s U u) {i : Nat} (hi : 0 < u i) : i ≠ 0 :=
  (h.alive_of_ext (plus_pos_left hi)).1

theorem push_ok {i : Nat} (he : maskPush st i s = .ok st' s') :
    (Call.incRef i).exec ev s = .ok i s' ∧ st' = i :: st := by
  simp only [maskPush, bind] at he
  cases hx : incRef i s <;> rw [hx] at he <;> cases he
  exact ⟨by simp only [Call.exec, bind, hx]; rfl, rfl⟩

theorem pop_ok (he : maskPop st s = .ok st' s') :
    ∃ t, st = t :: st' ∧ (Call.decRef t).exec ev s = .ok 0 s' := by
  cases st with
  | nil => cases he
  | cons t l =>
    simp only [maskPop, bind] at he
    cases hx : decRef t s <;> rw [hx] at he <;> cases he
    exact ⟨t, rfl, by simp only [Call.exec, bind, hx]; rfl⟩

/-- Only an empty stack makes `maskPop` raise an exception. -/
theorem pop_raise (h : MInv s U u st) (he : maskPop st s = .raise s') : st = [] ∧ s' = s := by
  cases st with
  | nil => cases he; exact ⟨rfl, rfl⟩
  | cons t l =>
    simp only [maskPop, bind] at he
    have hi : IInv s U (plus (plus u l) [t]) := by rw [← plus_cons]; exact h.2
    have h' : Inv s U (plus (plus (plus u l) s.sideEffects) [t]) (fun _ => 0) [] := by
      rw [plus_comm]; exact hi
    have := decRef_spec (R := fun _ => False) (T := fun _ => True) h'
    unfold wp at this
    cases hx : decRef t s <;> rw [hx] at he this <;> cases he
    exact this.elim

theorem push_inv (h : MInv s U u st) (hev : EvOK ev) {i : Nat} (hi : 0 < plus u st i)
    (he : maskPush st i s = .ok st' s') :
    st' = i :: st ∧ ∃ U', MInv s' U' u st' ∧ Track (plus u st) s U s' U' := by
  obtain ⟨he1, rfl⟩ := push_ok (ev := ev) he
  refine ⟨rfl, ?_⟩
  obtain ⟨U', a1, a2, _⟩ := wp_ok (call_spec hev h.2 (c := .incRef i)
    (by intro k hk; simp only [Call.operands, List.mem_singleton] at hk; rw [hk]; exact hi)) he1
  rw [after_default _ _ (by simp) (by simp)] at a1 a2
  refine ⟨U', ⟨?_, ?_⟩, a2.mono ?_⟩
  · simp only [List.mem_cons, not_or]
    exact ⟨(ne_zero h.2 hi).symm, h.1⟩
  · rw [plus_cons]; exact a1
  · intro k hk
    have : 0 < plus (plus u st) [i] k := plus_pos_left hk
    omega

theorem pop_inv (h : MInv s U u st) (hev : EvOK ev) (he : maskPop st s = .ok st' s') :
    st' = st.tail ∧ st ≠ [] ∧ ∃ U', MInv s' U' u st' ∧ Track (plus u st') s U s' U' := by
  obtain ⟨t, rfl, he1⟩ := pop_ok (ev := ev) he
  refine ⟨rfl, by simp, ?_⟩
  have h0 : t ≠ 0 := fun e => h.1 (by simp [e])
  have hi : IInv s U (plus (plus u st') [t]) := by rw [← plus_cons]; exact h.2
  obtain ⟨U', a1, a2, _⟩ := wp_ok (call_spec hev hi (c := .decRef t)
    (by intro k hk; simp only [Call.operands, List.mem_singleton] at hk
        rw [hk, plus_self h0]; omega)) he1
  have e : minus (plus (plus u st') [t]) t = plus u st' := by
    funext k
    unfold minus
    by_cases hk : k = t
    · subst hk; rw [if_pos rfl, plus_self h0]; rfl
    · rw [if_neg hk, plus_ne hk]
  rw [after_dec, e] at a1 a2
  refine ⟨U', ⟨fun hm => h.1 (by simp [hm]), a1⟩, a2.mono ?_⟩
  intro k hk
  have : 0 < plus (plus u st') [t] k := plus_pos_left hk
  omega

theorem wok_scope (h : WOK s) (h3 : ∀ i, ∃ c, s'.vars i = { s.vars i with scope := c }) : WOK s' := by
  intro i hi
  obtain ⟨c, e⟩ := h3 i
  rw [e] at hi ⊢
  exact h i hi

/-- A new scope leaves everything else as it is. -/
theorem newScope_vars (h : IInv s U u) {n : Nat} (he : newScope s = .ok n s') :
    (∀ i, ∃ c, s'.vars i = { s.vars i with scope := c }) ∧ s'.symbolicScope = s.symbolicScope := by
  cases he
  unfold scopeNext
  dsimp only
  split
  · refine ⟨fun i => ?_, rfl⟩
    rw [compact_vars h]
    split
    · exact ⟨_, rfl⟩
    · exact ⟨(s.vars i).scope, rfl⟩
  · exact ⟨fun i => ⟨_, rfl⟩, rfl⟩

/-- Flags and scope numbers do not matter for the invariant. -/
theorem inv_flag (h : IInv s U u) (c : Nat) (b : Bool) :
    IInv { s with scope := c, symbolicScope := b } U u :=
  ⟨h.rep, h.ub, h.len, h.dead, h.deps, h.uids, h.rc, h.rcSe, h.pend, h.nodup, h.lvn, h.lvnKeys,
    h.bal⟩

theorem inv_flag' (h : IInv s U u) (b : Bool) : IInv { s with symbolicScope := b } U u :=
  inv_flag h s.scope b

/-- Entering an evaluation scope. -/
theorem enter_inv (h : MInv s U u st) (hw : WOK s) {b : Nat} :
    wlp (evalScopeEnter ev b st) s (fun a s' =>
    (s.symbolicScope = false ∧ a.1 = 0 ∧ a.2 = st ∧ s' = s) ∨
    (s.symbolicScope = true ∧ a.1 = s.scope ∧ s'.symbolicScope = false ∧ ∃ m, a.2 = m :: st ∧
      (s'.vars m).type = .bool ∧ (s'.vars m).size = 1 ∧ (∀ l, Val s' m l 1#64) ∧
      ∃ U', MInv s' U' u a.2 ∧ Track (plus u st) s U s' U')) := by
  unfold evalScopeEnter
  refine wlp_bind (wlp_getStore ?_)
  refine wlp_ite (fun hs => wlp_pure (.inl ⟨hs, rfl, rfl, rfl⟩)) (fun hs => ?_)
  refine wlp_bind ?_
  intro n s1 e1
  obtain ⟨n', s1', e1', i1, t1⟩ := newScope_spec (b := plus u st) h.2
  rw [e1] at e1'
  cases e1'
  obtain ⟨v1, f1⟩ := newScope_vars h.2 e1
  refine wlp_bind (wlp_modify ?_)
  have S2 : St { s1 with symbolicScope := false } U (plus u st) :=
    ⟨inv_flag' i1 false, wok_scope hw (fun i => v1 i)⟩
  have T2 : Track (plus u st) s1 U { s1 with symbolicScope := false } U :=
    track_scope rfl rfl (fun i => ⟨_, rfl⟩)
  have fl2 : ({ s1 with symbolicScope := false } : Store).symbolicScope = false := rfl
  generalize ({ s1 with symbolicScope := false } : Store) = s2 at *
  refine wlp_bind (wlp_mono (maskDefault_post S2 (by omega)) ?_)
  rintro m s3 ⟨⟨U3, p⟩, _⟩
  have p : PostAt _ _ _ _ _ _ _ m s3 U3 := p
  unfold maskPush
  refine wlp_bind (wlp_bind (wlp_mono (borrowed p.st (p.operand (by omega))) ?_))
  rintro _ s4 ⟨U4, q⟩
  have q : PostAt _ _ _ _ _ _ _ m s4 U4 := q
  refine wlp_pure ?_
  refine wlp_bind (wlp_mono (decRef_post q.st) ?_)
  rintro _ s5 ⟨U5, c1, c2, c3, c4⟩
  refine wlp_pure (.inr ?_)
  have um : 0 < plus (plus u st) [m] m := by rw [plus_self p.alive.1]; omega
  obtain ⟨x1, x2⟩ := same_of q.st c1 c2 um q.alive
  refine ⟨by simpa using hs, rfl, ?_, m, rfl, ?_, ?_, ?_, U5, ⟨?_, ?_⟩, ?_⟩
  · have a := congrArg (fun e => e.2.2.2.2.2.2.2.2) (p.frame.env)
    have b := congrArg (fun e => e.2.2.2.2.2.2.2.2) (q.frame.env)
    have c := congrArg (fun e => e.2.2.2.2.2.2.2.2) (c2.env)
    exact c.trans (b.trans (a.trans fl2))
  · rw [x2.type, q.type, p.type]
  · rw [c3.2, q.size, p.size]
  · exact fun l => x2.val l _ (q.val (p.val rfl))
  · simp only [List.mem_cons, not_or]
    exact ⟨p.alive.1.symm, h.1⟩
  · rw [plus_cons]; exact c1.inv
  · exact ((t1.trans T2).trans p.frame.track).trans
      ((q.frame.track.trans c2.track).mono (fun _ => plus_pos_left))

/-- Leaving an evaluation scope. -/
theorem leave_ok {tok : Nat} (he : evalScopeLeave st tok s = .ok st' s') :
    (tok = 0 ∧ st' = st ∧ s' = s) ∨ (tok ≠ 0 ∧ ∃ s1, maskPop st s = .ok st' s1 ∧
      s' = { s1 with scope := tok, symbolicScope := true }) := by
  unfold evalScopeLeave at he
  split at he
  · rename_i h0
    cases he
    exact .inl ⟨h0, rfl, rfl⟩
  · rename_i h0
    simp only [bind] at he
    cases hx : maskPop st s <;> rw [hx] at he <;> cases he
    exact .inr ⟨h0, _, rfl, rfl⟩

theorem leave_raise {tok : Nat} (he : evalScopeLeave st tok s = .raise s') :
    maskPop st s = .raise s' := by
  unfold evalScopeLeave at he
  split at he
  · cases he
  · simp only [bind] at he
    cases hx : maskPop st s <;> rw [hx] at he <;> cases he
    rfl

theorem min_pos {a b : Nat → Nat} {k : Nat} (h : 0 < min (a k) (b k)) : 0 < a k ∧ 0 < b k := by omega

/-- Every step preserves the invariant; variables that are held before and after stay. -/
theorem mstep_inv (hev : EvOK ev) {o : MOp} (h : MInv s U u st) (hs : MStep ev s u st o s' u' st') :
    ∃ U', MInv s' U' u' st' ∧
      Track (fun k => min (plus u st k) (plus u' st' k)) s U s' U' := by
  cases hs with
  | @call _ _ _ c r hl e =>
    obtain ⟨U', a1, a2, _⟩ := wp_ok (call_spec hev h.2
      (fun i hi => plus_pos_left (hl i hi))) e
    rw [after_plus hl] at a1 a2
    exact ⟨U', ⟨h.1, a1⟩, a2⟩
  | @callRaise _ _ _ c hl e =>
    have := call_spec hev h.2 (c := c) (fun i hi => plus_pos_left (hl i hi))
    unfold wp at this
    rw [e] at this
    obtain ⟨U', a1, a2⟩ := this
    exact ⟨U', ⟨h.1, a1⟩, a2.mono (fun k hk => (min_pos hk).1)⟩
  | op hw hv e =>
    obtain ⟨U', a1, a2⟩ := op_track ⟨h.2, (writesOK_iff h.2).1 hw⟩ (valid_more hv) e
    rw [plus_comm, ← gain_eq] at a1
    exact ⟨U', ⟨h.1, a1⟩, a2.mono (fun k hk => (min_pos hk).1)⟩
  | push hi e =>
    obtain ⟨_, U', a1, a2⟩ := push_inv h hev (plus_pos_left hi) e
    exact ⟨U', a1, a2.mono (fun k hk => (min_pos hk).1)⟩
  | pop e =>
    obtain ⟨_, _, U', a1, a2⟩ := pop_inv h hev e
    exact ⟨U', a1, a2.mono (fun k hk => (min_pos hk).2)⟩
  | popRaise e =>
    obtain ⟨_, rfl⟩ := pop_raise h e
    exact ⟨U, h, Track.refl⟩
  | @peek _ _ _ r e =>
    cases st with
    | nil =>
      cases e
      rw [gain_eq, plus_zero1]
      exact ⟨U, h, Track.refl⟩
    | cons t l =>
      have hp : 0 < plus u (t :: l) t := plus_apply_pos (fun e => h.1 (by simp [e])) (by simp)
      have e' : (Call.incRef t).exec ev s = .ok r s' := e
      have hr : r = t := by
        simp only [maskPeek, bind] at e
        cases hx : incRef t s <;> rw [hx] at e <;> cases e
        rfl
      obtain ⟨U', a1, a2, _⟩ := wp_ok (call_spec hev h.2 (c := .incRef t)
        (by intro k hk; simp only [Call.operands, List.mem_singleton] at hk; rw [hk]; exact hp)) e'
      rw [after_default _ _ (by simp) (by simp), plus_comm, ← gain_eq] at a1 a2
      exact ⟨U', ⟨h.1, a1⟩, a2⟩
  | apply hw hi hn hz ht e =>
    rw [holders_eq h.1] at ht
    obtain ⟨U', a1, a2⟩ := Post.inv (maskApply_post ⟨h.2, (writesOK_iff h.2).1 hw⟩ (Operand.more hi)
      ht hn (fun _ => by omega) _ _ e)
    rw [plus_comm, ← gain_eq] at a1
    exact ⟨U', ⟨h.1, a1⟩, a2.mono (fun k hk => (min_pos hk).1)⟩
  | enter hw e =>
    rcases enter_inv h ((writesOK_iff h.2).1 hw) _ _ e with ⟨_, _, rfl, rfl⟩ |
      ⟨_, _, _, m, _, _, _, _, U', a1, a2⟩
    · exact ⟨U, h, Track.refl⟩
    · exact ⟨U', a1, a2.mono (fun k hk => (min_pos hk).1)⟩
  | leave e =>
    rcases leave_ok e with ⟨_, rfl, rfl⟩ | ⟨_, s1, e1, rfl⟩
    · exact ⟨U, h, Track.refl⟩
    · obtain ⟨_, _, U', a1, a2⟩ := pop_inv h hev e1
      refine ⟨U', ⟨a1.1, inv_flag a1.2 _ _⟩, ?_⟩
      refine Track.trans (s' := s1) (U' := U') (a2.mono (fun k hk => (min_pos hk).2)) ?_
      exact track_scope rfl rfl (fun i => ⟨_, rfl⟩)
  | leaveRaise e =>
    obtain ⟨_, rfl⟩ := pop_raise h (leave_raise e)
    exact ⟨U, h, Track.refl⟩

theorem msteps_inv (hev : EvOK ev) {l : List MOp} (h : MInv s U u st)
    (hs : MSteps ev s u st l s' u' st') : ∃ U', MInv s' U' u' st' := by
  induction hs generalizing U with
  | nil => exact ⟨U, h⟩
  | cons h1 _ ih =>
    obtain ⟨U1, i1, _⟩ := mstep_inv hev h h1
    exact ih i1

theorem mreachable_inv (hev : EvOK ev) (h : MReachable ev s u st) : ∃ U, MInv s U u st := by
  obtain ⟨s0, u0, l, h0, hs⟩ := h
  obtain ⟨U, hi⟩ := oreachable_inv hev h0
  exact msteps_inv hev (U := U) ⟨by simp, by rw [plus_nil]; exact hi⟩ hs

end Verif.Gather
