import Verif.Gather.Model
import Verif.Ops.Steps2
/-!
# Sequences of operations with temporaries
-/
namespace Verif.Gather
open Verif.Var Verif.Ops

variable {s s' : Store} {U U' : List Nat} {u ext base : Nat → Nat} {ev : M Unit}

/-- `Post` with the list of unused slots made explicit. -/
def PostAt (s : Store) (U : List Nat) (u : Nat → Nat) (t : VType) (n : Nat) (lit : Prop)
    (V : Nat → BitVec 64 → Prop) (r : Nat) (s' : Store) (U' : List Nat) : Prop :=
  St s' U' (plus u [r]) ∧ Frame u s U s' U' ∧ Alive s' U' r ∧ (s'.vars r).type = t ∧
    (s'.vars r).size = n ∧ (s'.vars r).isDirty = false ∧ LitOK (s'.vars r) ∧
    (lit → (s'.vars r).kind = .literal) ∧ (∀ l z, V l z → Val s' r l z) ∧ Held s u n s'

section
variable {t : VType} {n r : Nat} {lit : Prop} {V : Nat → BitVec 64 → Prop}

theorem PostAt.st (h : PostAt s U u t n lit V r s' U') : St s' U' (plus u [r]) := h.1
theorem PostAt.frame (h : PostAt s U u t n lit V r s' U') : Frame u s U s' U' := h.2.1
theorem PostAt.alive (h : PostAt s U u t n lit V r s' U') : Alive s' U' r := h.2.2.1
theorem PostAt.type (h : PostAt s U u t n lit V r s' U') : (s'.vars r).type = t := h.2.2.2.1
theorem PostAt.size (h : PostAt s U u t n lit V r s' U') : (s'.vars r).size = n := h.2.2.2.2.1
theorem PostAt.clean (h : PostAt s U u t n lit V r s' U') : (s'.vars r).isDirty = false :=
  h.2.2.2.2.2.1
theorem PostAt.litOK (h : PostAt s U u t n lit V r s' U') : LitOK (s'.vars r) := h.2.2.2.2.2.2.1
theorem PostAt.literal (h : PostAt s U u t n lit V r s' U') (hl : lit) : (s'.vars r).kind = .literal :=
  h.2.2.2.2.2.2.2.1 hl
theorem PostAt.val (h : PostAt s U u t n lit V r s' U') {l : Nat} {z : BitVec 64} (hv : V l z) :
    Val s' r l z := h.2.2.2.2.2.2.2.2.1 l z hv
theorem PostAt.held (h : PostAt s U u t n lit V r s' U') : Held s u n s' := h.2.2.2.2.2.2.2.2.2
theorem PostAt.post (h : PostAt s U u t n lit V r s' U') : Post s U u t n lit V r s' := ⟨U', h⟩

theorem PostAt.operand (h : PostAt s U u t n lit V r s' U') (hn : 0 < n) :
    Operand s' (plus u [r]) r :=
  ⟨by rw [plus_self h.alive.1]; omega, by rw [h.size]; exact hn, h.clean, h.litOK⟩

theorem PostAt.mono {lit' : Prop} {V' : Nat → BitVec 64 → Prop}
    (h : PostAt s U u t n lit V r s' U') (hl : lit' → lit) (hV : ∀ l z, V' l z → V l z) :
    PostAt s U u t n lit' V' r s' U' :=
  ⟨h.st, h.frame, h.alive, h.type, h.size, h.clean, h.litOK, fun e => h.literal (hl e),
    fun _ _ e => h.val (hV _ _ e), h.held⟩
end

/-- What steps keep about a variable held by the caller. -/
structure Same (s : Store) (s' : Store) (k : Nat) : Prop where
  body : (s'.vars k).body = (s.vars k).body
  val : ∀ l x, Val s k l x → Val s' k l x

theorem Same.type {k : Nat} (h : Same s s' k) : (s'.vars k).type = (s.vars k).type :=
  (body_fields h.body).2.1
theorem Same.kind {k : Nat} (h : Same s s' k) : (s'.vars k).kind = (s.vars k).kind :=
  (body_fields h.body).1
theorem Same.refl {k : Nat} : Same s s k := ⟨rfl, fun _ _ => id⟩
theorem Same.trans {s'' : Store} {k : Nat} (h : Same s s' k) (h' : Same s' s'' k) : Same s s'' k :=
  ⟨h'.body.trans h.body, fun l x hx => h'.val l x (h.val l x hx)⟩

/-- Steps keep a variable that is held throughout. -/
theorem same_of {ext' : Nat → Nat} (h : St s U u) (h' : St s' U' ext') (hf : Frame base s U s' U')
    {k : Nat} (hb : 0 < base k) (hk : Alive s U k) : Alive s' U' k ∧ Same s s' k := by
  obtain ⟨a1, a2, _, a4⟩ := held_keep h.inv h'.inv hf hb hk
  exact ⟨a1, a2, a4⟩

theorem PostAt.same {t : VType} {n r : Nat} {lit : Prop} {V : Nat → BitVec 64 → Prop} (h0 : St s U u)
    (h : PostAt s U u t n lit V r s' U') {k : Nat} (hk : 0 < u k) : Same s s' k :=
  (same_of h0 h.st h.frame hk (h0.alive hk)).2

/-- Operands remain operands. -/
theorem operand_of {u' : Nat → Nat} {a n : Nat} (ho : Operand s u a) (hs : Same s s' a)
    (hh : Held s u n s') (hu : 0 < u' a) : Operand s' u' a := by
  refine ⟨hu, ?_, hh.clean a ho.held ho.clean, ho.lit.body hs.body⟩
  have := hh.size a ho.held
  have := ho.sized
  omega

theorem PostAt.keep {t : VType} {n r a : Nat} {lit : Prop} {V : Nat → BitVec 64 → Prop} (h0 : St s U u)
    (h : PostAt s U u t n lit V r s' U') (ho : Operand s u a) : Operand s' (plus u [r]) a :=
  operand_of ho (h.same h0 ho.held) h.held (plus_pos_left ho.held)

/-- Use of a temporary that exists already. -/
theorem tmp_tail {B : Nat → M Nat} {tc t : VType} {nc n c : Nat} {litc lit : Prop} {s1 : Store}
    {U1 : List Nat} {Vc V : Nat → BitVec 64 → Prop} (p : PostAt s U u tc nc litc Vc c s1 U1)
    (hle : nc ≤ n) (hss : ∀ P, SizesIn P s u n → P nc)
    (hB : wlp (B c) s1 (Post s1 U1 (plus u [c]) t n lit V)) :
    wlp (do let r ← B c; decRef c; pure r) s1 (Post s U u t n lit V) := by
  refine wlp_bind (wlp_mono hB fun r s2 q => ?_)
  refine wlp_bind (wlp_mono (q.finish p.frame (p.held.mono hle (fun _ => id)
    (fun P hP => ⟨hss P hP, hP.2, hP.3⟩)) (fun P hP _ => by rw [p.size]; exact hss P hP)) ?_)
  intro _ s3 q
  exact wlp_pure q

/-- Use of a temporary. -/
theorem tmp_use {A : M Nat} {B : Nat → M Nat} {tc t : VType} {nc n : Nat} {litc lit : Prop}
    {Vc V : Nat → BitVec 64 → Prop} (hA : wlp A s (Post s U u tc nc litc Vc)) (hle : nc ≤ n)
    (hss : ∀ P, SizesIn P s u n → P nc)
    (hB : ∀ c s1 U1, PostAt s U u tc nc litc Vc c s1 U1 →
      wlp (B c) s1 (Post s1 U1 (plus u [c]) t n lit V)) :
    wlp (do let c ← A; let r ← B c; decRef c; pure r) s (Post s U u t n lit V) := by
  refine wlp_bind (wlp_mono hA ?_)
  rintro c s1 ⟨U1, p⟩
  exact tmp_tail p hle hss (hB c s1 U1 p)

/-- `borrow(i)`. -/
theorem borrowed (h : St s U u) {i : Nat} (h0 : Operand s u i) :
    wlp (incRef i) s (fun _ s' => Post s U u (s.vars i).type (s.vars i).size
      ((s.vars i).kind = .literal) (fun l z => Val s i l z) i s') := by
  intro a s1 e
  have q : (do incRef i; pure i : M Nat) s = .ok i s1 := by
    simp only [bind, e]; rfl
  exact inc_post' h h0 i s1 q

/-- `Ref tmp = borrow(i); r = f(i); return r;` -/
theorem borrow_use {B : M Nat} {t : VType} {n i : Nat} {lit : Prop} {V : Nat → BitVec 64 → Prop}
    (h : St s U u) (h0 : Operand s u i) (hle : (s.vars i).size ≤ n)
    (hB : ∀ s1 U1, PostAt s U u (s.vars i).type (s.vars i).size ((s.vars i).kind = .literal)
      (fun l z => Val s i l z) i s1 U1 → wlp B s1 (Post s1 U1 (plus u [i]) t n lit V)) :
    wlp (do incRef i; let r ← B; decRef i; pure r) s (Post s U u t n lit V) := by
  refine wlp_bind (wlp_mono (borrowed h h0) ?_)
  rintro _ s1 ⟨U1, p⟩
  exact tmp_tail (B := fun _ => B) p hle (fun P hP => hP.2 i h0.held) (hB s1 U1 p)

/-! ## Nodes with other semantics -/

/-- The sizes of the variables held by the caller are unchanged. -/
def Kept (s : Store) (u : Nat → Nat) (s' : Store) : Prop :=
  ∀ k, 0 < u k → (s'.vars k).size = (s.vars k).size

theorem Kept.trans {s'' : Store} {u' : Nat → Nat} (h : Kept s u s') (h' : Kept s' u' s'')
    (hu : ∀ k, 0 < u k → 0 < u' k) : Kept s u s'' :=
  fun k hk => (h' k (hu k hk)).trans (h k hk)

theorem Kept.raw (h : Raw s s') : Kept s u s' := fun k _ => h.2 k

theorem node_kept {s1 s2 : Store} (h : St s U u)
    (hz : ∀ k, (s1.vars k).size = (s.vars k).size ∧ (s1.vars k).isDirty = (s.vars k).isDirty)
    (hal : ∀ k, Alive s U k → Alive s1 U k) (hk : Keep s1 U s2) : Kept s u s2 :=
  fun k hu => (hk k (hal k (h.alive hu))).1.trans (hz k).1

theorem keep_kept (h : St s U u) (hk : Keep s U s') : Kept s u s' := fun k hu => (hk k (h.alive hu)).1

/-- What is known about the operands of a new node. -/
structure Fresh (s s2 : Store) (r : Nat) (k : Kind) (t : VType) (deps : List Nat) : Prop where
  kind : (s2.vars r).kind = k
  type : (s2.vars r).type = t
  read : (s2.vars r).writePtr = false
  d0 : (s2.vars r).d0 = deps[0]?.getD 0
  d1 : (s2.vars r).d1 = deps[1]?.getD 0
  d2 : (s2.vars r).d2 = deps[2]?.getD 0
  mem : s2.mem = s.mem
  same : ∀ d ∈ deps, d ≠ 0 ∧ Same s s2 d

theorem node1_gen (h : St s U u) {b : Nat} {k : Kind} {t : VType} {n : Nat} {sy : Bool} {a0 : Nat}
    {p : BitVec 64} (h0 : Operand s u a0) (hk : k ≠ .literal) (hk' : k ≠ .evaluated)
    {V : Nat → BitVec 64 → Prop}
    (hV : ∀ s2 r, Fresh s s2 r k t [a0] → ∀ l z, V l z → Val s2 r l z) :
    wlp (newNode1 ev b k t n sy a0 p) s (fun r s' => Post s U u t n False V r s' ∧ Kept s u s') := by
  unfold newNode1
  refine wlp_clean (by simpa using h0.clean) ?_
  have al := h.alive h0.held
  refine wlp_bind (wlp_mono (incV h.inv al h.wok) ?_)
  rintro _ s1 ⟨i1, w1, f1, z1, se1, al1⟩
  have e : plus (plus u s.sideEffects) [a0, 0, 0, 0] = plus (plus u s.sideEffects) [a0] := by
    rw [plus4]; simp only [plus_zero1]
  refine wlp_mono (varNew_post (ext := plus u s.sideEffects) (U := U) rfl rfl rfl hk'
    (by change Inv s1 U (plus _ [a0, 0, 0, 0]) _ _; rw [e]; exact i1) w1) ?_
  intro r s2 hp
  refine ⟨?_, node_kept h z1 (fun k => (al1 k).2) hp.choose_spec.2.2.2.2.2.2⟩
  refine node_end h (f1 _) z1 (fun k => (al1 k).2) ⟨rfl, rfl, rfl, rfl⟩ hk ?_ hp
  intro U2 i2 f2 k2
  refine hV s2 r ⟨congrArg Key.kind k2, congrArg Key.type k2, congrArg Key.writePtr k2,
    congrArg Key.d0 k2, congrArg Key.d1 k2, congrArg Key.d2 k2, Frame.mem f2, ?_⟩
  intro d hd
  rw [List.mem_singleton] at hd
  subst hd
  obtain ⟨b1, b2, _, b4⟩ := held_keep h.inv i2 f2 (plus_pos_left h0.held) al
  exact ⟨al.1, b2, b4⟩

theorem node3_gen (h : St s U u) {b : Nat} {k : Kind} {t : VType} {n : Nat} {sy : Bool}
    {a0 a1 a2 : Nat} {p : BitVec 64} (h0 : Operand s u a0) (h1 : Operand s u a1)
    (h2 : Operand s u a2) (hk : k ≠ .literal) (hk' : k ≠ .evaluated)
    {V : Nat → BitVec 64 → Prop}
    (hV : ∀ s2 r, Fresh s s2 r k t [a0, a1, a2] → ∀ l z, V l z → Val s2 r l z) :
    wlp (newNode3 ev b k t n sy a0 a1 a2 p) s (Post s U u t n False V) := by
  unfold newNode3
  refine wlp_clean (by simp [h0.clean, h1.clean, h2.clean]) ?_
  have al0 := h.alive h0.held
  have al1 := h.alive h1.held
  have al2 := h.alive h2.held
  refine wlp_bind (wlp_mono (incV h.inv al0 h.wok) ?_)
  rintro _ s1 ⟨i1, w1, f1, z1, se1, q1⟩
  refine wlp_bind (wlp_mono (incV i1 ((q1 _).2 al1) w1) ?_)
  rintro _ s2 ⟨i2, w2, f2, z2, se2, q2⟩
  refine wlp_bind (wlp_mono (incV i2 ((q2 _).2 ((q1 _).2 al2)) w2) ?_)
  rintro _ s3 ⟨i3, w3, f3, z3, se3, q3⟩
  have e : plus (plus u s.sideEffects) [a0, a1, a2, 0] =
      plus (plus (plus (plus u s.sideEffects) [a0]) [a1]) [a2] := by
    funext k
    unfold plus
    split
    · rfl
    · rename_i h0
      simp only [List.count_cons, List.count_nil]
      simp only [beq_iff_eq, if_neg (fun e => h0 (Eq.symm e) : ¬ 0 = k)]
      omega
  refine wlp_mono (varNew_post (ext := plus u s.sideEffects) (U := U) rfl rfl rfl hk'
    (by change Inv s3 U (plus _ [a0, a1, a2, 0]) _ _; rw [e]; exact i3) w3) ?_
  intro r s4 hp
  refine node_end h (((f1 _).trans (f2 _)).trans (f3 _))
    (fun k => ⟨(z3 k).1.trans ((z2 k).1.trans (z1 k).1), (z3 k).2.trans ((z2 k).2.trans (z1 k).2)⟩)
    (fun k e => (q3 k).2 ((q2 k).2 ((q1 k).2 e))) ⟨rfl, rfl, rfl, rfl⟩ hk ?_ hp
  intro U4 i4 f4 k4
  refine hV s4 r ⟨congrArg Key.kind k4, congrArg Key.type k4, congrArg Key.writePtr k4,
    congrArg Key.d0 k4, congrArg Key.d1 k4, congrArg Key.d2 k4, Frame.mem f4, ?_⟩
  intro d hd
  have hu : 0 < u d := by
    simp only [List.mem_cons, List.not_mem_nil, or_false] at hd
    rcases hd with rfl | rfl | rfl
    · exact h0.held
    · exact h1.held
    · exact h2.held
  obtain ⟨b1, b2, _, b4⟩ := held_keep h.inv i4 f4 (plus_pos_left hu) (h.alive hu)
  exact ⟨(h.alive hu).1, b2, b4⟩

/-- Counters. -/
theorem counter_post (h : St s U u) {b n : Nat} :
    wlp (varCounter b n false) s (fun r s' =>
      Post s U u .u32 n False (fun l z => z = norm .u32 (BitVec.ofNat 64 l)) r s' ∧ Kept s u s') := by
  unfold varCounter
  refine wlp_bind (wlp_getStore ?_)
  rw [if_neg (by simp)]
  refine wlp_ite (fun _ => wlp_raise) (fun _ => ?_)
  have h0 : Inv s U (plus (plus u s.sideEffects) [0, 0, 0, 0]) (fun _ => 0) [] := by
    simp only [plus_zero, plus_nil]; exact h.inv
  refine wlp_mono (varNew_post rfl rfl rfl (fun e => nomatch e) h0 h.wok) ?_
  intro r s' hp
  refine ⟨?_, keep_kept h hp.choose_spec.2.2.2.2.2.2⟩
  refine node_end (k := .counter) h Frame.refl (fun _ => ⟨rfl, rfl⟩) (fun _ => id) ⟨rfl, rfl, rfl, rfl⟩
    (fun e => nomatch e) ?_ hp
  rintro U2 i2 f2 k2 l z rfl
  have e2 : (s'.vars r).type = .u32 := congrArg Key.type k2
  have := Val.counter (s := s') (i := r) (l := l) (congrArg Key.kind k2)
  rwa [e2] at this

/-! ## Conjunctions -/

/-- The value of `x & m` for a mask `m`. -/
def masked (x m : BitVec 64) : BitVec 64 := if m.getLsbD 0 then x else 0#64

theorem sem_masked {t t1 : VType} {x m : BitVec 64} (hx : norm t x = x) (hs : Scalar t)
    (h1 : t1 = .bool) : sem2 .and t t t1 x m = some (masked x m) := by
  subst h1
  simp only [sem2]
  by_cases ht : t = .bool
  · subst ht
    rw [if_pos rfl, if_pos ⟨trivial, rfl, hs⟩]
    unfold masked
    rcases norm_bool hx with rfl | rfl
    · split <;> simp
    · have e : ∀ y : BitVec 1, ((1#64).setWidth 1 &&& y).setWidth 64 = if y.getLsbD 0 then 1#64 else 0#64 := by
        decide
      have := e (m.setWidth 1)
      rw [BitVec.getLsbD_setWidth] at this
      simp only [Nat.lt_one_iff, decide_true, Bool.true_and] at this
      exact congrArg some this
  · have hs' : t.isInt = true ∨ t.isFloat = true := by
      rcases hs with e | e | e
      · exact .inl e
      · exact .inr e
      · exact absurd e ht
    rw [if_neg ht, if_pos ⟨trivial, trivial, hs'⟩]
    unfold masked
    change some (if _ then norm t x else _) = _
    rw [hx]

/-- `jitc_var_and(a, m)` with a mask `m`. -/
theorem andMask_post (h : St s U u) {a m : Nat} (ha : Operand s u a) (hm : Operand s u m)
    (hs : Scalar (s.vars a).type) (ht : (s.vars m).type = .bool) :
    wlp (varAnd ev a m) s (Post s U u (s.vars a).type (max (s.vars a).size (s.vars m).size) False
      (fun l z => ∃ x y, Val s a l x ∧ Val s m l y ∧ z = masked x y)) := by
  refine wlp_mono (and_post h ⟨ha, hm, hs, .inr ht⟩) fun r s' p => p.mono False.elim ?_
  rintro l z ⟨x, y, hx, hy, rfl⟩
  exact ⟨x, y, hx, hy, sem_masked hx.norm hs ht⟩

end Verif.Gather
