import Verif.Gather.Base
/-!
# The mask stack
-/
namespace Verif.Gather
open Verif.Var Verif.Ops

variable {s s' : Store} {U U' : List Nat} {u ext base : Nat → Nat} {ev : M Unit}

theorem masked_comm {x y : BitVec 64} (hx : norm .bool x = x) (hy : norm .bool y = y) :
    masked x y = masked y x := by
  rcases norm_bool hx with rfl | rfl <;> rcases norm_bool hy with rfl | rfl <;> rfl

theorem masked_one (x : BitVec 64) : masked x 1#64 = x := rfl
theorem masked_zero (x : BitVec 64) : masked x 0#64 = 0#64 := rfl

/-- Default masks are set in every thread. -/
theorem maskDefault_post (h : St s U u) {b n : Nat} (hn : 0 < n) :
    wlp (maskDefault ev b n) s (fun r s' => Post s U u .bool n False (fun _ z => z = 1#64) r s' ∧
      Kept s u s') := by
  unfold maskDefault
  refine wlp_ite (fun _ => wlp_raise) (fun _ => ?_)
  refine wlp_ite (fun _ => ?_) (fun _ => ?_)
  · refine wlp_bind (wlp_mono (counter_post h) ?_)
    rintro c s1 ⟨⟨U1, p⟩, k1⟩
    have p : PostAt _ _ _ _ _ _ _ c s1 U1 := p
    refine wlp_bind (wlp_getVar ?_)
    refine wlp_bind (wlp_mono (node1_gen (ev := ev) (b := b) (k := .defaultMask) (t := .bool)
      (n := (s1.vars c).size) (sy := (s1.vars c).symbolic) (p := 0#64) p.st (p.operand hn)
      (fun e => nomatch e) (fun e => nomatch e) (V := fun _ z => z = 1#64) ?_) ?_)
    · rintro s2 r hf l z rfl
      have := Val.defaultMask (s := s2) (i := r) (l := l) hf.kind
      rw [hf.type] at this
      exact this
    · rintro r s2 ⟨q, k2⟩
      rw [p.size] at q
      refine wlp_bind (wlp_mono (wlp_and raw_decRef
        (q.finish p.frame p.held (fun P hP _ => by rw [p.size]; exact hP.1))) ?_)
      rintro _ s3 ⟨r3, q3⟩
      exact wlp_pure ⟨q3, (k1.trans k2 (fun _ => plus_pos_left)).trans (Kept.raw (u := u) r3) (fun _ => id)⟩
  · refine wlp_mono (literal_post h hn (fun _ => rfl)) ?_
    rintro r s' ⟨p, _, _, hk⟩
    exact ⟨p.mono False.elim (fun _ _ => id), keep_kept h hk⟩

/-- The mask at the top of the stack, if it is combined with masks of the given size (0: none). -/
def usable (s : Store) (stack : List Nat) (size : Nat) : Nat :=
  match stack with
  | [] => 0
  | t :: _ => if size = 1 ∨ (s.vars t).size = 1 ∨ (s.vars t).size = size then t else 0

/-- The mask at the top of the stack is valid. -/
def StackOK (s : Store) (u : Nat → Nat) (stack : List Nat) : Prop :=
  ∀ t, stack.head? = some t → Operand s u t ∧ (s.vars t).type = .bool

theorem usable_mem {stack : List Nat} {size : Nat} (h : usable s stack size ≠ 0) :
    stack.head? = some (usable s stack size) := by
  unfold usable at *
  cases stack with
  | nil => exact absurd rfl h
  | cons t l =>
    dsimp only at *
    split
    · rfl
    · rename_i hc
      rw [if_neg hc] at h
      exact absurd rfl h

theorem maskTop_post (h : St s U u) {stack : List Nat} {size : Nat} (hst : StackOK s u stack) :
    wlp (maskTop stack size) s (fun r s' => r = usable s stack size ∧ (r = 0 → s' = s) ∧
      (r ≠ 0 → Post s U u .bool (s.vars r).size ((s.vars r).kind = .literal)
        (fun l z => Val s r l z) r s')) := by
  unfold maskTop usable
  cases stack with
  | nil => exact wlp_pure ⟨rfl, fun _ => rfl, fun e => absurd rfl e⟩
  | cons t l =>
    obtain ⟨ho, ht⟩ := hst t rfl
    refine wlp_bind (wlp_getVar ?_)
    refine wlp_ite (fun hc => ?_) (fun hc => ?_)
    · refine wlp_bind (wlp_mono (borrowed h ho) ?_)
      intro _ s' p
      rw [ht] at p
      refine wlp_pure ?_
      exact ⟨(if_pos hc).symm, fun e => absurd e p.ne, fun _ => p⟩
    · exact wlp_pure ⟨(if_neg hc).symm, fun _ => rfl, fun e => absurd rfl e⟩

/-- Without a mask on the stack, the default mask is used. -/
theorem maskFix_none (h : St s U u) {b n : Nat} (hn : 0 < n) (hb : isLlvm b = true) :
    wlp (maskFix ev b n 0) s (Post s U u .bool n False (fun _ z => z = 1#64)) := by
  unfold maskFix
  rw [if_pos hb]
  refine wlp_bind (wlp_mono (maskDefault_post h hn) ?_)
  rintro d s1 ⟨⟨U1, p⟩, _⟩
  have p : PostAt _ _ _ _ _ _ _ d s1 U1 := p
  rw [if_pos rfl]
  refine wlp_bind (wlp_mono (borrowed p.st (p.operand hn)) ?_)
  intro _ s2 q
  rw [p.type, p.size] at q
  refine wlp_bind (wlp_mono (q.finish p.frame p.held (fun P hP _ => by rw [p.size]; exact hP.1)) ?_)
  intro _ s3 q
  exact wlp_pure (q.mono False.elim (fun l z hz => p.val hz))

/-- A mask from the stack is kept. -/
theorem maskFix_some {t n nt b : Nat} {lit : Prop} {s1 : Store} {U1 : List Nat}
    {V : Nat → BitVec 64 → Prop} (p : PostAt s U u .bool nt lit V t s1 U1) (hnt : 0 < nt) (hn : 0 < n) :
    wlp (maskFix ev b n t) s1 (Post s U u .bool nt False V) := by
  have pp : Post s U u .bool nt False V t s1 := p.post.mono False.elim (fun _ _ => id)
  unfold maskFix
  refine wlp_ite (fun _ => ?_) (fun _ => wlp_pure pp)
  refine wlp_bind (wlp_mono (maskDefault_post p.st hn) ?_)
  rintro d s2 ⟨⟨U2, q⟩, k2⟩
  have q : PostAt _ _ _ _ _ _ _ d s2 U2 := q
  rw [if_neg p.alive.1]
  refine wlp_bind (wlp_getVar ?_)
  have hut : 0 < plus u [t] t := by rw [plus_self p.alive.1]; omega
  have ot : Operand s2 (plus (plus u [t]) [d]) t := q.keep p.st (p.operand hnt)
  have st := q.same p.st (k := t) hut
  have zt : (s2.vars t).size = nt := by rw [k2 t hut, p.size]
  have f2 : Frame u s U s2 U2 := p.frame.trans (q.frame.mono (fun _ => plus_pos_left))
  have h2 : Held s u nt s2 := p.held.trans (.same fun k hk => ⟨k2 k (plus_pos_left hk),
    q.held.clean k (plus_pos_left hk)⟩)
  dsimp only
  refine wlp_ite (fun hc => ?_) (fun _ => ?_)
  · obtain ⟨_, rfl⟩ := hc
    refine wlp_bind (wlp_mono (andMask_post q.st ot (q.operand hn) (by rw [st.type, p.type]; exact .inr (.inr rfl))
      q.type) ?_)
    intro r s3 a
    rw [st.type, p.type, zt, q.size, Nat.max_eq_left hnt] at a
    rw [plus_comm] at a
    refine wlp_bind (wlp_mono (a.release (fun P hP _ => by rw [zt]; exact hP.1)) ?_)
    intro _ s4 a
    refine wlp_bind (wlp_pure ?_)
    refine wlp_bind (wlp_mono (a.finish f2 h2 (fun P hP _ => ?_)) ?_)
    · rw [q.size]; exact hP.3
    intro _ s5 a
    exact wlp_pure (a.mono False.elim (fun l z hz => ⟨z, 1#64, st.val l z (p.val hz), q.val rfl, rfl⟩))
  · refine wlp_bind (wlp_pure ?_)
    have al : Alive s2 U2 t := (same_of p.st q.st q.frame hut p.alive).1
    refine wlp_bind (wlp_mono (decRef_post q.st) ?_)
    rintro _ s3 ⟨U3, b1, b2, b3, b4⟩
    refine wlp_pure ?_
    obtain ⟨al3, st3⟩ := same_of q.st b1 b2 hut al
    refine ⟨U3, b1, f2.trans (b2.mono (fun _ => plus_pos_left)), al3, by rw [st3.type, st.type, p.type],
      by rw [b3.2, zt], b4 t ot.clean, ot.lit.body st3.body, False.elim,
      fun l z hz => st3.val l z (st.val l z (p.val hz)), h2.trans (.same fun k _ => ⟨b3.2 k, b4 k⟩)⟩

/-- Size of the result of `maskApply`. -/
def applySize (s : Store) (stack : List Nat) (i size : Nat) : Nat :=
  if usable s stack size = 0 then size else max (s.vars (usable s stack size)).size (s.vars i).size

/-- `maskApply` computes the conjunction with the mask at the top of the stack. -/
theorem maskApply_post (h : St s U u) {stack : List Nat} {i n : Nat} (hi : Operand s u i)
    (hst : StackOK s u stack) (hn : 0 < n) (hz : usable s stack n = 0 → (s.vars i).size ≤ n) :
    wlp (maskApply ev stack i n) s (Post s U u .bool (applySize s stack i n) False (fun l z =>
      ∃ y, Val s i l y ∧ (usable s stack n = 0 → z = y) ∧
        (usable s stack n ≠ 0 → ∃ w, Val s (usable s stack n) l w ∧ z = masked y w))) := by
  unfold maskApply
  refine wlp_bind (wlp_getVar ?_)
  refine wlp_ite (fun _ => wlp_raise) (fun ht => ?_)
  have ht : (s.vars i).type = .bool := by
    by_contra hh; exact ht hh
  refine wlp_bind (wlp_mono (maskTop_post h hst) ?_)
  rintro top s1 ⟨e1, e2, e3⟩
  unfold applySize
  rw [← e1] at hz ⊢
  by_cases h0 : top = 0
  · obtain rfl := e2 h0
    subst h0
    have hz := hz rfl
    rw [if_pos rfl]
    by_cases hb : isLlvm (s1.vars i).backend = true
    · refine wlp_bind (wlp_mono (maskFix_none h hn hb) ?_)
      rintro m s2 ⟨U2, p⟩
      have p : PostAt _ _ _ _ _ _ _ m s2 U2 := p
      rw [if_pos p.alive.1]
      have oi := p.keep h hi
      have si := p.same h hi.held
      refine tmp_tail (B := fun m => varAnd ev m i) p (le_refl _) (fun P hP => hP.1) ?_
      have zi : max (s2.vars m).size (s2.vars i).size = n := by
        have := p.held.size i hi.held
        rw [p.size]
        have := hi.sized
        omega
      have := andMask_post (ev := ev) p.st (p.operand hn) oi (by rw [p.type]; exact .inr (.inr rfl))
        (by rw [si.type, ht])
      rw [zi, p.type] at this
      refine wlp_mono this fun r s3 q => q.mono id ?_
      rintro l z ⟨y, hy, hz, _⟩
      refine ⟨1#64, y, p.val rfl, si.val l y hy, ?_⟩
      have hy' := hy.norm
      rw [ht] at hy'
      rw [masked_comm rfl hy', hz rfl]; rfl
    · unfold maskFix
      rw [if_neg hb]
      refine wlp_bind (wlp_pure ?_)
      rw [if_neg (fun e => e rfl)]
      have := hi.sized
      refine borrow_use h hi (by omega) ?_
      intro s2 U2 p
      have p : PostAt _ _ _ _ _ _ _ i s2 U2 := p
      have := resize_post (ev := ev) p.st (p.operand hi.sized) hn (by rw [p.size]; omega)
      rw [p.type, ht] at this
      refine wlp_mono this fun r s3 q => q.mono False.elim ?_
      rintro l z ⟨y, hy, hz, _⟩
      rw [hz rfl]
      exact p.val hy
  · rw [if_neg h0]
    obtain ⟨U1, p⟩ := e3 h0
    have p : PostAt _ _ _ _ _ _ _ top s1 U1 := p
    have hm : stack.head? = some top := by rw [e1]; rw [e1] at h0; exact usable_mem h0
    have ot := (hst top hm).1
    refine wlp_bind (wlp_mono (maskFix_some p ot.sized hn) ?_)
    rintro m s2 ⟨U2, q⟩
    have q : PostAt _ _ _ _ _ _ _ m s2 U2 := q
    rw [if_pos q.alive.1]
    have oi := q.keep h hi
    have si := q.same h hi.held
    have zi : max (s2.vars m).size (s2.vars i).size = max (s.vars top).size (s.vars i).size := by
      have := q.held.size i hi.held
      rw [q.size]
      omega
    refine tmp_tail (B := fun m => varAnd ev m i) q (by omega) (fun P hP => hP.2 top ot.held) ?_
    have := andMask_post (ev := ev) q.st (q.operand ot.sized) oi (by rw [q.type]; exact .inr (.inr rfl))
      (by rw [si.type, ht])
    rw [zi, q.type] at this
    refine wlp_mono this fun r s3 a => a.mono id ?_
    rintro l z ⟨y, hy, _, hz⟩
    obtain ⟨w, hw, hz⟩ := hz h0
    refine ⟨w, y, q.val hw, si.val l y hy, ?_⟩
    have hy' := hy.norm
    have hw' := hw.norm
    rw [ht] at hy'
    rw [(hst top hm).2] at hw'
    rw [hz, masked_comm hy' hw']

end Verif.Gather
