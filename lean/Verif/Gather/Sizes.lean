import Verif.Gather.Part
/-!
# Sizes of variables that the caller does not hold
-/
namespace Verif.Gather
open Verif.Var Verif.Ops

variable {s s' : Store} {U U' : List Nat} {u u' ext base : Nat → Nat} {ev : M Unit}

/-- This holds for all variables in use. -/
def Sizes (Q : Nat → Prop) (s : Store) (U : List Nat) (s' : Store) : Prop := ∀ k, Alive s U k → SizeOK Q s s' k

theorem keep_sizes {Q : Nat → Prop} (h : Keep s U s') : Sizes Q s U s' := fun k hk => .inl (h k hk).1

theorem varLiteral_keep (h : St s U u) {b n : Nat} {t : VType} {x : BitVec 64} :
    wlp (varLiteral b t x n) s (fun r s' => (0 < n → r ≠ 0) ∧ Keep s U s') := by
  unfold varLiteral
  refine wlp_ite (fun e => wlp_pure ⟨fun h => by omega, fun _ _ => ⟨rfl, id⟩⟩) (fun _ => ?_)
  refine wlp_ite (fun _ => wlp_raise) (fun _ => ?_)
  have h0 : Inv s U (plus (plus u s.sideEffects) [0, 0, 0, 0]) (fun _ => 0) [] := by
    simp only [plus_zero, plus_nil]; exact h.inv
  refine wlp_mono (varNew_post rfl rfl rfl (fun e => nomatch e) h0 h.wok) ?_
  rintro r s' ⟨U', _, _, a3, _, _, _, a7⟩
  exact ⟨fun _ => a3.1, a7⟩

theorem resize_sizes (h : St s U u) {i n : Nat} {Q : Nat → Prop} (h0 : Operand s u i) (hle : (s.vars i).size ≤ n)
    (hq : Q (s.vars i).size) (hn : Q n) : wlp (varResize ev i n) s (fun _ s' => Sizes Q s U s') := by
  have al := h.alive h0.held
  unfold varResize
  refine wlp_ite (fun e => absurd e.1 al.1) (fun _ => ?_)
  refine wlp_ite (fun _ => wlp_raise) (fun _ => ?_)
  refine wlp_bind (wlp_getVar ?_)
  refine wlp_ite (fun _ => wlp_raise) (fun _ => ?_)
  refine wlp_ite (fun e => ?_) (fun _ => ?_)
  · refine wlp_bind (wlp_mono (incV_any (Q := Q) (P := fun _ => False) h al) ?_)
    rintro _ s1 ⟨_, _, a3, _⟩
    exact wlp_pure fun k _ => .inl (a3 k)
  refine wlp_ite (fun _ => wlp_raise) (fun _ => ?_)
  refine wlp_clean (by simpa using h0.clean) ?_
  refine wlp_bind (wlp_getVar ?_)
  refine wlp_ite (fun hc => ?_) (fun _ => ?_)
  · refine wlp_bind (wlp_mono (incV_any (Q := Q) (P := fun _ => False) h al) ?_)
    rintro _ s1 ⟨_, _, a3, _⟩
    refine wlp_bind (wlp_modify ?_)
    refine wlp_bind (wlp_modify ?_)
    refine wlp_bind (wlp_modify ?_)
    refine wlp_pure fun k _ => ?_
    have q : (s1.lvnDrop i).vars = s1.vars := (raw_lvnDrop (s := s1) i).2
    have q2 : ∀ s : Store, (s.lvnPut i).vars = s.vars := by
      intro s; unfold Store.lvnPut; split <;> rfl
    unfold SizeOK
    rw [q2]
    by_cases hk : k = i
    · subst hk
      rw [set_self]
      exact .inr ⟨hq, hle, hn⟩
    · rw [set_ne _ _ hk, q, a3]
      exact .inl rfl
  refine wlp_ite (fun hl => ?_) (fun hl => ?_)
  · exact wlp_mono (varLiteral_keep h) fun _ _ hk => keep_sizes hk.2
  · refine wlp_bind (wlp_mono (incV h.inv al h.wok) ?_)
    rintro _ s1 ⟨i1, w1, f1, z1, se1, al1⟩
    have e : plus (plus u s.sideEffects) [i, 0, 0, 0] = plus (plus u s.sideEffects) [i] := by
      rw [plus4]; simp only [plus_zero1]
    refine wlp_mono (varNew_post (ext := plus u s.sideEffects) (U := U) rfl rfl rfl
      (fun e => nomatch e) (by change Inv s1 U (plus _ [i, 0, 0, 0]) _ _; rw [e]; exact i1) w1) ?_
    rintro r s2 ⟨U', _, _, _, _, _, _, a7⟩
    exact fun k hk => .inl ((a7 k ((al1 k).2 hk)).1.trans (z1 k).1)

theorem node2_sizes (h : St s U u) {b : Nat} {k : Kind} {t : VType} {n : Nat} {Q : Nat → Prop} {sy : Bool}
    {a0 a1 : Nat} {p : BitVec 64} (h0 : Operand s u a0) (h1 : Operand s u a1) (hk' : k ≠ .evaluated) :
    wlp (newNode2 ev b k t n sy a0 a1 p) s (fun _ s' => Sizes Q s U s') := by
  unfold newNode2
  refine wlp_clean (by simp [h0.clean, h1.clean]) ?_
  have al0 := h.alive h0.held
  have al1 := h.alive h1.held
  refine wlp_bind (wlp_mono (incV h.inv al0 h.wok) ?_)
  rintro _ s1 ⟨i1, w1, f1, z1, se1, q1⟩
  refine wlp_bind (wlp_mono (incV i1 ((q1 _).2 al1) w1) ?_)
  rintro _ s2 ⟨i2, w2, f2, z2, se2, q2⟩
  have e : plus (plus u s.sideEffects) [a0, a1, 0, 0] =
      plus (plus (plus u s.sideEffects) [a0]) [a1] := by
    rw [plus4']; simp only [plus_zero1]
  refine wlp_mono (varNew_post (ext := plus u s.sideEffects) (U := U) rfl rfl rfl hk'
    (by change Inv s2 U (plus _ [a0, a1, 0, 0]) _ _; rw [e]; exact i2) w2) ?_
  rintro r s3 ⟨U', _, _, _, _, _, _, a7⟩
  exact fun k hk => .inl ((a7 k ((q2 k).2 ((q1 k).2 hk))).1.trans ((z2 k).1.trans (z1 k).1))

/-- `jitc_var_and()`. -/
theorem and_sizes (h : St s U u) {a m : Nat} (ha : Operand s u a) (hm : Operand s u m)
    (hs : (s.vars a).type ≠ .void) (ht : (s.vars m).type ≠ .void) {Q : Nat → Prop}
    (hqa : Q (s.vars a).size) (hqm : Q (s.vars m).size) :
    wlp (varAnd ev a m) s (fun _ s' => Sizes Q s U s') := by
  unfold varAnd
  refine wlp_bind (wlp_mono (check_post h (by simp) (by simpa using ⟨⟨ha, hs⟩, hm, ht⟩)) ?_)
  rintro info s' ⟨rfl, ho, hn⟩
  refine wlp_bind (wlp_getStore ?_)
  have ei := info2 ho
  have hqn : Q info.size := by
    rw [ei]
    rcases Nat.le_total (s'.vars a).size (s'.vars m).size with e | e
    · rw [Nat.max_eq_right e]; exact hqm
    · rw [Nat.max_eq_left e]; exact hqa
  have lit : ∀ {b t x}, wlp (varLiteral b t x info.size) s' (fun r s1 => r ≠ 0 ∧
      Sizes Q s' U s1) := fun {_ _ _} =>
    wlp_mono (varLiteral_keep h) fun _ _ hk => ⟨hk.1 hn, keep_sizes hk.2⟩
  have res : ∀ {i}, i = a ∨ i = m → wlp (varResize ev i info.size) s' (fun r s1 => r ≠ 0 ∧
      Sizes Q s' U s1) := by
    intro i hi
    have hle : (s'.vars i).size ≤ info.size := by rcases hi with rfl | rfl <;> omega
    have ho : Operand s' u i := by rcases hi with rfl | rfl <;> assumption
    have hq : Q (s'.vars i).size := by rcases hi with rfl | rfl <;> assumption
    refine wlp_mono (wlp_and (resize_post h ho hn hle) (resize_sizes h ho hle hq hqn)) ?_
    rintro r s1 ⟨p, q⟩
    exact ⟨p.ne, q⟩
  have fin : ∀ {r s1}, r ≠ 0 ∧ Sizes Q s' U s1 →
      wlp (finish2 ev info .and a m r) s1 (fun _ s2 => Sizes Q s' U s2) := by
    rintro r s1 ⟨p, q⟩
    unfold finish2
    rw [if_pos (.inl p)]
    exact wlp_pure q
  have fin0 : wlp (finish2 ev info .and a m 0) s'
      (fun _ s2 => Sizes Q s' U s2) := by
    unfold finish2
    refine wlp_ite (fun e => by omega) (fun _ => ?_)
    refine wlp_ite (fun _ => wlp_stop) (fun _ => ?_)
    exact node2_sizes h ha hm (fun e => nomatch e)
  dsimp only
  refine wlp_ite (fun _ => wlp_raise) (fun _ => ?_)
  refine wlp_ite (fun _ => ?_) (fun _ => wlp_bind (wlp_pure fin0))
  refine wlp_ite (fun _ => ?_) (fun _ => ?_)
  · refine wlp_bind (wlp_mono (Q := fun r s1 => r ≠ 0 ∧
      Sizes Q s' U s1) ?_ (fun _ _ e => fin e))
    generalize foldBits _ _ _ _ _ = f
    cases f with
    | val x => exact lit
    | ub => exact wlp_stop
    | fail => exact wlp_abort
    | unmodelled => exact wlp_stop
  refine wlp_ite (fun _ => wlp_bind (wlp_mono lit (fun _ _ e => fin e))) (fun _ => ?_)
  refine wlp_ite (fun _ => wlp_bind (wlp_mono (res (.inl rfl)) (fun _ _ e => fin e))) (fun _ => ?_)
  refine wlp_ite (fun _ => wlp_bind (wlp_mono (res (.inr rfl)) (fun _ _ e => fin e))) (fun _ => ?_)
  exact wlp_bind (wlp_pure fin0)

/-- Counters. -/
theorem counter_keep (h : St s U u) {b n : Nat} : wlp (varCounter b n false) s (fun _ s' => Keep s U s') := by
  unfold varCounter
  refine wlp_bind (wlp_getStore ?_)
  rw [if_neg (by simp)]
  refine wlp_ite (fun _ => wlp_raise) (fun _ => ?_)
  have h0 : Inv s U (plus (plus u s.sideEffects) [0, 0, 0, 0]) (fun _ => 0) [] := by
    simp only [plus_zero, plus_nil]; exact h.inv
  refine wlp_mono (varNew_post rfl rfl rfl (fun e => nomatch e) h0 h.wok) ?_
  intro r s' hp
  exact hp.choose_spec.2.2.2.2.2.2

theorem node1_sizes (h : St s U u) {b : Nat} {k : Kind} {t : VType} {n : Nat} {Q : Nat → Prop} {sy : Bool}
    {a0 : Nat} {p : BitVec 64} (h0 : Operand s u a0) (hk' : k ≠ .evaluated) :
    wlp (newNode1 ev b k t n sy a0 p) s (fun _ s' => Sizes Q s U s') := by
  unfold newNode1
  refine wlp_clean (by simpa using h0.clean) ?_
  have al0 := h.alive h0.held
  refine wlp_bind (wlp_mono (incV h.inv al0 h.wok) ?_)
  rintro _ s1 ⟨i1, w1, f1, z1, se1, q1⟩
  have e : plus (plus u s.sideEffects) [a0, 0, 0, 0] = plus (plus u s.sideEffects) [a0] := by
    rw [plus4']; simp only [plus_zero1]
  refine wlp_mono (varNew_post (ext := plus u s.sideEffects) (U := U) rfl rfl rfl hk'
    (by change Inv s1 U (plus _ [a0, 0, 0, 0]) _ _; rw [e]; exact i1) w1) ?_
  rintro r s3 ⟨U', _, _, _, _, _, _, a7⟩
  exact fun k hk => .inl ((a7 k ((q1 k).2 hk)).1.trans (z1 k).1)

/-- Default masks; `P` are variables that remain in use. -/
theorem maskDefault_sizes (h : St s U u) {b n : Nat} (hn : 0 < n) {P Q : Nat → Prop}
    (hP : ∀ k, P k → ∀ s1 U1 u1, St s1 U1 u1 → Frame u s U s1 U1 → Alive s1 U1 k) :
    wlp (maskDefault ev b n) s (fun _ s' => ∀ k, P k → SizeOK Q s s' k) := by
  unfold maskDefault
  refine wlp_ite (fun _ => wlp_raise) (fun _ => ?_)
  refine wlp_ite (fun _ => ?_) (fun _ => ?_)
  · refine wlp_bind (wlp_mono (wlp_and (counter_post h) (counter_keep h)) ?_)
    rintro c s1 ⟨⟨⟨U1, p⟩, _⟩, k1⟩
    have p : PostAt _ _ _ _ _ _ _ c s1 U1 := p
    refine wlp_bind (wlp_getVar ?_)
    refine wlp_bind (wlp_mono (node1_sizes (Q := Q) p.st (p.operand hn) (fun e => nomatch e)) ?_)
    intro r s2 q
    refine wlp_bind (wlp_mono raw_decRef ?_)
    intro _ s3 r3
    refine wlp_pure fun k hk => ?_
    have a0 := hP k hk s U u h .refl
    have a1 := hP k hk s1 U1 _ p.st p.frame
    exact (SizeOK.trans (.inl (k1 k a0).1) (q k a1)).trans (.inl (r3.2 k))
  · exact wlp_mono (varLiteral_keep h) fun _ _ hk k hP' => keep_sizes hk.2 k (hP k hP' s U u h .refl)

theorem raw_sizeOK {Q : Nat → Prop} {k : Nat} (h : Raw s s') : SizeOK Q s s' k := .inl (h.2 k)

/-- The second part of `maskApply`. -/
theorem maskFix_sizes (h : St s U u) {b n t : Nat} {Q : Nat → Prop} (hn : 0 < n) (hqn : Q n)
    (ht : t ≠ 0 → Operand s u t ∧ (s.vars t).type = .bool ∧ Q (s.vars t).size) :
    wlp (maskFix ev b n t) s (fun _ s' => ∀ k, 0 < u k → SizeOK Q s s' k) := by
  unfold maskFix
  refine wlp_ite (fun _ => ?_) (fun _ => wlp_pure fun k _ => .inl rfl)
  refine wlp_bind (wlp_mono (wlp_and (maskDefault_post h hn) (maskDefault_sizes (Q := Q)
    (P := fun k => 0 < u k) h hn fun k hk s1 U1 u1 _ f => (f.stay k hk (h.alive hk)).1)) ?_)
  rintro d s1 ⟨⟨⟨U1, p⟩, _⟩, z1⟩
  have p : PostAt _ _ _ _ _ _ _ d s1 U1 := p
  refine wlp_ite (fun h0 => ?_) (fun h0 => ?_)
  · refine wlp_bind (wlp_mono (inc_any (Q := Q) (P := fun _ => False) p.st (.inr p.alive)) ?_)
    rintro _ s2 ⟨_, _, a3, _⟩
    refine wlp_bind (wlp_mono raw_decRef fun _ s3 r3 => wlp_pure fun k hk => ?_)
    exact ((z1 k hk).trans (.inl (a3 k))).trans (raw_sizeOK r3)
  · obtain ⟨ot, tt, qt⟩ := ht h0
    refine wlp_bind (wlp_getVar ?_)
    have st := p.same h ot.held
    refine wlp_ite (fun _ => ?_) (fun _ => ?_)
    · refine wlp_bind (wlp_mono (and_sizes (Q := Q) p.st (p.keep h ot) (p.operand hn)
        (by rw [st.type, tt]; decide) (by rw [p.type]; decide) ((z1 t ot.held).mem qt)
        (by rw [p.size]; exact hqn)) ?_)
      intro r s2 z2
      refine wlp_bind (wlp_mono raw_decRef fun _ s3 r3 => wlp_bind (wlp_pure ?_))
      refine wlp_bind (wlp_mono raw_decRef fun _ s4 r4 => wlp_pure fun k hk => ?_)
      exact (((z1 k hk).trans (z2 k (p.st.alive (plus_pos_left hk)))).trans (raw_sizeOK r3)).trans
        (raw_sizeOK r4)
    · refine wlp_bind (wlp_pure ?_)
      refine wlp_bind (wlp_mono raw_decRef fun _ s4 r4 => wlp_pure fun k hk => ?_)
      exact (z1 k hk).trans (raw_sizeOK r4)

theorem maskTop_sizes (h : St s U u) {stack : List Nat} {n : Nat} (hst : StackOK s u stack) :
    wlp (maskTop stack n) s (fun _ s' => ∀ k, (s'.vars k).size = (s.vars k).size) := by
  unfold maskTop
  cases stack with
  | nil => exact wlp_pure fun _ => rfl
  | cons t l =>
    refine wlp_bind (wlp_getVar ?_)
    refine wlp_ite (fun hc => ?_) (fun hc => wlp_pure fun _ => rfl)
    refine wlp_bind (wlp_mono (inc_any (Q := fun _ => True) (P := fun _ => False) h
      (.inr (h.alive (hst t rfl).1.held))) ?_)
    rintro _ s2 ⟨_, _, a3, _⟩
    exact wlp_pure a3

/-- `maskApply`. -/
theorem maskApply_sizes (h : St s U u) {stack : List Nat} {i n : Nat} {Q : Nat → Prop} (hi : Operand s u i)
    (hst : StackOK s u stack) (hn : 0 < n) (hz : usable s stack n = 0 → (s.vars i).size ≤ n) (hqn : Q n)
    (hqi : Q (s.vars i).size) (hqt : usable s stack n ≠ 0 → Q (s.vars (usable s stack n)).size) :
    wlp (maskApply ev stack i n) s (fun _ s' => ∀ k, 0 < u k → SizeOK Q s s' k) := by
  unfold maskApply
  refine wlp_bind (wlp_getVar ?_)
  refine wlp_ite (fun _ => wlp_raise) (fun hty => ?_)
  have hty : (s.vars i).type = .bool := by
    by_contra hh; exact hty hh
  refine wlp_bind (wlp_mono (wlp_and (maskTop_post h hst) (maskTop_sizes (n := n) h hst)) ?_)
  rintro top s1 ⟨⟨e1, e2, e3⟩, z1⟩
  rw [← e1] at hz hqt
  by_cases h0 : top = 0
  · obtain rfl := e2 h0
    subst h0
    by_cases hb : isLlvm (s1.vars i).backend = true
    · refine wlp_bind (wlp_mono (wlp_and (maskFix_none h hn hb) (maskFix_sizes (Q := Q) h hn hqn
        fun e => absurd rfl e)) ?_)
      rintro m s2 ⟨⟨U2, p⟩, z2⟩
      have p : PostAt _ _ _ _ _ _ _ m s2 U2 := p
      rw [if_pos p.alive.1]
      refine wlp_bind (wlp_mono (and_sizes (Q := Q) p.st (p.operand hn) (p.keep h hi) (by rw [p.type]; decide)
        (by rw [(p.same h hi.held).type, hty]; decide) (by rw [p.size]; exact hqn)
        ((z2 i hi.held).mem hqi)) ?_)
      intro r s3 z3
      refine wlp_bind (wlp_mono raw_decRef fun _ s4 r4 => wlp_pure fun k hk => ?_)
      exact ((z2 k hk).trans (z3 k (p.st.alive (plus_pos_left hk)))).trans (raw_sizeOK r4)
    · unfold maskFix
      rw [if_neg hb]
      refine wlp_bind (wlp_pure ?_)
      rw [if_neg (fun e => e rfl)]
      refine wlp_bind (wlp_mono (wlp_and (borrowed h hi) (inc_any (Q := Q) (P := fun _ => False) h
        (.inr (h.alive hi.held)))) ?_)
      rintro _ s2 ⟨⟨U2, p⟩, _, _, a3, _⟩
      have p : PostAt _ _ _ _ _ _ _ i s2 U2 := p
      have zz := hz rfl
      refine wlp_bind (wlp_mono (resize_sizes (Q := Q) p.st (p.operand hi.sized) (by rw [p.size]; omega)
        (by rw [p.size]; exact hqi) hqn) ?_)
      intro r s3 z3
      refine wlp_bind (wlp_mono raw_decRef fun _ s4 r4 => wlp_pure fun k hk => ?_)
      exact SizeOK.trans (.inl (a3 k)) ((z3 k (p.st.alive (plus_pos_left hk))).trans (raw_sizeOK r4))
  · obtain ⟨U1, p⟩ := e3 h0
    have p : PostAt _ _ _ _ _ _ _ top s1 U1 := p
    have hm : stack.head? = some top := by rw [e1]; rw [e1] at h0; exact usable_mem h0
    have ot := (hst top hm).1
    refine wlp_bind (wlp_mono (wlp_and (maskFix_some p ot.sized hn) (maskFix_sizes (Q := Q) p.st hn hqn
      fun _ => ⟨p.operand ot.sized, p.type, by rw [p.size]; exact hqt h0⟩)) ?_)
    rintro m s2 ⟨⟨U2, q⟩, z2⟩
    have q : PostAt _ _ _ _ _ _ _ m s2 U2 := q
    have z12 : ∀ k, 0 < u k → SizeOK Q s s2 k := fun k hk =>
      SizeOK.trans (.inl (z1 k)) (z2 k (plus_pos_left hk))
    rw [if_pos q.alive.1]
    refine wlp_bind (wlp_mono (and_sizes (Q := Q) q.st (q.operand ot.sized) (q.keep h hi) (by rw [q.type]; decide)
      (by rw [(q.same h hi.held).type, hty]; decide) (by rw [q.size]; exact hqt h0)
      ((z12 i hi.held).mem hqi)) ?_)
    intro r s3 z3
    refine wlp_bind (wlp_mono raw_decRef fun _ s4 r4 => wlp_pure fun k hk => ?_)
    exact ((z12 k hk).trans (z3 k (q.st.alive (plus_pos_left hk)))).trans (raw_sizeOK r4)

end Verif.Gather
