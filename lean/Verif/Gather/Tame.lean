import Verif.Gather.GatherPost
import Verif.Gather.Sizes
/-!
# Sizes of the variables that arithmetic on counters and literals involves
-/
namespace Verif.Gather
open Verif.Var Verif.Ops

variable {s s' : Store} {U U' : List Nat} {u u' : Nat → Nat} {ev : M Unit} {n : Nat}

/-- The variables involved in computing `i` have the sizes 1 and `n`. -/
def Tame (s : Store) (i n : Nat) : Prop := ∀ k, Reads s i k → (s.vars k).size = 1 ∨ (s.vars k).size = n

theorem Reads.head {i k : Nat} (h : Reads s i k) : k = i ∨ ((s.vars i).kind ≠ .literal ∧
    ∃ d ∈ (s.vars i).refs, d ≠ 0 ∧ Reads s d k) := by
  induction h with
  | root => exact .inl rfl
  | @dep k d _ hl hd h0 ih =>
    refine .inr ?_
    rcases ih with rfl | ⟨a, e, b, c, r⟩
    · exact ⟨hl, d, hd, h0, .root⟩
    · exact ⟨a, e, b, c, .dep r hl hd h0⟩

theorem tame_frame (h : St s U u) (h' : St s' U' u') (hf : Frame u s U s' U') (hs : Kept s u s') {a : Nat}
    (ha : 0 < u a) (ht : Tame s a n) : Tame s' a n := by
  intro k hk
  obtain ⟨r, _, _, e⟩ := reads_back h h' hf ha (h.alive ha) hk
  rcases e with rfl | e
  · rw [hs _ ha]; exact ht _ .root
  · rw [e]; exact ht k r

theorem tame_lit {i : Nat} (hl : (s.vars i).kind = .literal) (hs : (s.vars i).size = 1 ∨ (s.vars i).size = n) :
    Tame s i n := by
  intro k hk
  rcases hk.head with rfl | ⟨e, _⟩
  · exact hs
  · exact absurd hl e

theorem tame_node {r : Nat} (hs : (s.vars r).size = n) (hd : ∀ d ∈ (s.vars r).refs, d ≠ 0 → Tame s d n) :
    Tame s r n := by
  intro k hk
  rcases hk.head with rfl | ⟨_, d, a, b, c⟩
  · exact .inr hs
  · exact hd d a b k c

/-- Steps do not create values of existing variables. -/
theorem val_back {base ext' extSe : Nat → Nat} {P : List Nat} (h' : Inv s' U' ext' extSe P)
    (hf : Frame base s U s' U') {i l : Nat} {x : BitVec 64} (hv : Val s' i l x) :
    Alive s' U' i → (s'.vars i).uid < s.variableCounter → Val s i l x := by
  have step : ∀ {i : Nat}, Alive s' U' i → (s'.vars i).uid < s.variableCounter →
      (s'.vars i).writePtr = false → ∀ d ∈ [(s'.vars i).d0, (s'.vars i).d1, (s'.vars i).d2],
      d ≠ 0 → Alive s' U' d ∧ (s'.vars d).uid < s.variableCounter ∧
        (s'.vars d).type = (s.vars d).type ∧ (s'.vars d).kind = (s.vars d).kind ∧
        (s'.vars d).literal = (s.vars d).literal := by
    intro i ha hu hw d hd h0
    obtain ⟨a1, a2⟩ := h'.deps i ha d (by
      have : (s'.vars i).refs = [(s'.vars i).d0, (s'.vars i).d1, (s'.vars i).d2, (s'.vars i).d3] := by
        simp [Var.refs, hw]
      rw [this]
      simp only [List.mem_cons, List.not_mem_nil, or_false, List.mem_append] at hd ⊢
      tauto) h0
    have hu' : (s'.vars d).uid < s.variableCounter := by omega
    obtain ⟨e1, e2, e3, _⟩ := body_fields (hf.keep d a1 hu').2.1
    exact ⟨a1, hu', e2, e1, e3⟩
  induction hv with
  | @literal i l hk =>
    intro ha hu
    obtain ⟨e1, e2, e3, _⟩ := body_fields (hf.keep i ha hu).2.1
    rw [e2, e3]
    exact .literal (by rw [← e1, hk])
  | @evaluated i l hk =>
    intro ha hu
    obtain ⟨_, b, c⟩ := hf.keep i ha hu
    obtain ⟨e1, e2, e3, _⟩ := body_fields b
    rw [e2, e3, c (by rw [← e1, hk]), Frame.mem hf]
    exact .evaluated (by rw [← e1, hk])
  | @counter i l hk =>
    intro ha hu
    obtain ⟨e1, e2, _⟩ := body_fields (hf.keep i ha hu).2.1
    rw [e2]
    exact .counter (by rw [← e1, hk])
  | @defaultMask i l hk =>
    intro ha hu
    obtain ⟨e1, e2, _⟩ := body_fields (hf.keep i ha hu).2.1
    rw [e2]
    exact .defaultMask (by rw [← e1, hk])
  | @gatherOff i l m hk hw h2 hvm hm ihm =>
    intro ha hu
    obtain ⟨e1, e2, _, e4, e5, e6, _, e8⟩ := body_fields (hf.keep i ha hu).2.1
    obtain ⟨r1, r2, r3, _⟩ := step ha hu hw (s'.vars i).d2 (by simp) h2
    rw [e6] at h2
    exact .gatherOff (by rw [← e1, hk]) (by rw [← e8, hw]) h2 (by rw [← e6]; exact ihm r1 r2) hm
  | @gatherOn i l x m hk hw h0 h1 h2 hp hvx hvm hm ihx ihm =>
    intro ha hu
    obtain ⟨e1, e2, _, e4, e5, e6, _, e8⟩ := body_fields (hf.keep i ha hu).2.1
    obtain ⟨p1, p2, p3, p4, p5⟩ := step ha hu hw (s'.vars i).d0 (by simp) h0
    obtain ⟨q1, q2, q3, _⟩ := step ha hu hw (s'.vars i).d1 (by simp) h1
    obtain ⟨r1, r2, r3, _⟩ := step ha hu hw (s'.vars i).d2 (by simp) h2
    rw [e2, Frame.mem hf, p5, e4]
    exact .gatherOn (by rw [← e1, hk]) (by rw [← e8, hw]) (by rw [← e4]; exact h0) (by rw [← e5]; exact h1)
      (by rw [← e6]; exact h2) (by rw [← e4, ← p4]; exact hp)
      (by rw [← e5]; exact ihx q1 q2) (by rw [← e6]; exact ihm r1 r2) hm
  | @node1 i l x z hw h0 hv0 hs ih =>
    intro ha hu
    obtain ⟨e1, e2, _, e4, e5, e6, _, e8⟩ := body_fields (hf.keep i ha hu).2.1
    obtain ⟨p1, p2, p3, _⟩ := step ha hu hw (s'.vars i).d0 (by simp) h0
    refine .node1 (by rw [← e8, hw]) (by rw [← e4]; exact h0) (by rw [← e4]; exact ih p1 p2) ?_
    rw [p3, e1, e2, e4] at hs; exact hs
  | @node2 i l x y z hw h0 h1 hv0 hv1 hs ih0 ih1 =>
    intro ha hu
    obtain ⟨e1, e2, _, e4, e5, e6, _, e8⟩ := body_fields (hf.keep i ha hu).2.1
    obtain ⟨p1, p2, p3, _⟩ := step ha hu hw (s'.vars i).d0 (by simp) h0
    obtain ⟨q1, q2, q3, _⟩ := step ha hu hw (s'.vars i).d1 (by simp) h1
    refine .node2 (by rw [← e8, hw]) (by rw [← e4]; exact h0) (by rw [← e5]; exact h1)
      (by rw [← e4]; exact ih0 p1 p2) (by rw [← e5]; exact ih1 q1 q2) ?_
    rw [p3, q3, e1, e2, e4, e5] at hs; exact hs
  | @node3 i l x y w z hw h0 h1 h2 hv0 hv1 hv2 hs ih0 ih1 ih2 =>
    intro ha hu
    obtain ⟨e1, e2, _, e4, e5, e6, _, e8⟩ := body_fields (hf.keep i ha hu).2.1
    obtain ⟨p1, p2, p3, _⟩ := step ha hu hw (s'.vars i).d0 (by simp) h0
    obtain ⟨q1, q2, q3, _⟩ := step ha hu hw (s'.vars i).d1 (by simp) h1
    obtain ⟨r1, r2, r3, _⟩ := step ha hu hw (s'.vars i).d2 (by simp) h2
    refine .node3 (by rw [← e8, hw]) (by rw [← e4]; exact h0) (by rw [← e5]; exact h1) (by rw [← e6]; exact h2)
      (by rw [← e4]; exact ih0 p1 p2) (by rw [← e5]; exact ih1 q1 q2) (by rw [← e6]; exact ih2 r1 r2) ?_
    rw [p3, q3, r3, e1, e2, e4, e5, e6] at hs; exact hs

theorem uniform_frame (h : St s U u) (h' : St s' U' u') (hf : Frame u s U s' U') {k : Nat}
    (hk : 0 < u k) (c : (s'.vars k).size = (s.vars k).size) (hv : Uniform s k) : Uniform s' k := by
  intro e l l' x hx
  obtain ⟨a, b⟩ := hf.stay k hk (h.alive hk)
  have := val_back h'.inv hf hx a (by rw [b]; exact h.inv.uids _ (h.alive hk))
  exact (same_of h h' hf hk (h.alive hk)).2.val _ _ (hv (c ▸ e) l l' x this)

/-- The result of an operation involves arrays of the sizes 1 and `n` only, and the operation does not change
the sizes of other variables. -/
def Tm (s : Store) (U : List Nat) (u : Nat → Nat) (n r : Nat) (s' : Store) : Prop :=
  ∃ U', St s' U' (plus u [r]) ∧ Frame u s U s' U' ∧ r ≠ 0 ∧ Kept s u s' ∧ Tame s' r n

theorem lit_tm (h : St s U u) {b m : Nat} {t : VType} {x : BitVec 64} (hm : 0 < m) (hmn : m = 1 ∨ m = n)
    (hx : t = .bool → norm .bool x = x) : wlp (varLiteral b t x m) s (Tm s U u n) := by
  refine wlp_mono (literal_post h hm hx) ?_
  rintro r s' ⟨⟨U', a1, a2, a3, a4, a5, a6, a7, a8, _⟩, _, _, k⟩
  exact ⟨U', a1, a2, a3.1, keep_kept h k, tame_lit (a8 trivial) (by omega)⟩

theorem resize_same (h : St s U u) {i : Nat} (h0 : Operand s u i) (hs : (s.vars i).size = n) :
    wlp (varResize ev i n) s (fun r s' => r = i ∧ Kept s u s') := by
  have al := h.alive h0.held
  unfold varResize
  refine wlp_ite (fun e => absurd e.1 al.1) (fun _ => ?_)
  refine wlp_ite (fun _ => wlp_raise) (fun _ => ?_)
  refine wlp_bind (wlp_getVar ?_)
  refine wlp_ite (fun _ => wlp_raise) (fun _ => ?_)
  refine wlp_ite (fun _ => ?_) (fun e => absurd hs e)
  refine wlp_bind (wlp_mono (incV h.inv al h.wok) ?_)
  rintro _ s1 ⟨_, _, _, z1, _, _⟩
  exact wlp_pure ⟨rfl, fun k _ => (z1 k).1⟩

theorem resize_tm (h : St s U u) {i : Nat} (h0 : Operand s u i) (hs : (s.vars i).size = n) (ht : Tame s i n) :
    wlp (varResize ev i n) s (Tm s U u n) := by
  have := h0.sized
  refine wlp_mono (wlp_and (resize_post h h0 (by omega) (by omega)) (resize_same h h0 hs)) ?_
  rintro r s' ⟨⟨U', a1, a2, a3, _⟩, rfl, k⟩
  exact ⟨U', a1, a2, a3.1, k, tame_frame h a1 a2 k h0.held ht⟩

theorem node2_raw (h : St s U u) {b : Nat} {k : Kind} {t : VType} {sy : Bool}
    {a0 a1 : Nat} {p : BitVec 64} (h0 : Operand s u a0) (h1 : Operand s u a1) (hk' : k ≠ .evaluated) :
    wlp (newNode2 ev b k t n sy a0 a1 p) s (fun r s' => Kept s u s' ∧ (s'.vars r).size = n ∧
      (s'.vars r).refs = [a0, a1, 0, 0]) := by
  unfold newNode2
  refine wlp_clean (by simp [h0.clean, h1.clean]) ?_
  have al0 := h.alive h0.held
  have al1 := h.alive h1.held
  refine wlp_bind (wlp_mono (incV h.inv al0 h.wok) ?_)
  rintro _ s1 ⟨i1, w1, f1, z1, se1, q1⟩
  refine wlp_bind (wlp_mono (incV i1 ((q1 _).2 al1) w1) ?_)
  rintro _ s2 ⟨i2, w2, f2, z2, se2, q2⟩
  have e : plus (plus u s.sideEffects) [a0, a1, 0, 0] =
      plus (plus (plus u s.sideEffects) [a0]) [a1] := by
    rw [plus4']; simp only [plus_zero1]
  refine wlp_mono (varNew_post (ext := plus u s.sideEffects) (U := U) rfl rfl rfl hk'
    (by change Inv s2 U (plus _ [a0, a1, 0, 0]) _ _; rw [e]; exact i2) w2) ?_
  rintro r s3 ⟨U', _, _, _, key, _, _, a7⟩
  refine ⟨fun k hk => (a7 k ((q2 k).2 ((q1 k).2 (h.alive hk)))).1.trans ((z2 k).1.trans (z1 k).1),
    congrArg Key.size key, ?_⟩
  have e0 : (s3.vars r).d0 = a0 := congrArg Key.d0 key
  have e1 : (s3.vars r).d1 = a1 := congrArg Key.d1 key
  have e2 : (s3.vars r).d2 = 0 := congrArg Key.d2 key
  have e3 : (s3.vars r).d3 = 0 := congrArg Key.d3 key
  have e4 : (s3.vars r).writePtr = false := congrArg Key.writePtr key
  simp [Var.refs, e0, e1, e2, e3, e4]

theorem node2_tm (h : St s U u) {b : Nat} {k : Kind} {t : VType} {sy : Bool}
    {a0 a1 : Nat} {p : BitVec 64} (h0 : Operand s u a0) (h1 : Operand s u a1) (hk : IsOp k)
    (t0 : Tame s a0 n) (t1 : Tame s a1 n) : wlp (newNode2 ev b k t n sy a0 a1 p) s (Tm s U u n) := by
  refine wlp_mono (wlp_and (node2_post h h0 h1 hk.1 hk.2) (node2_raw h h0 h1 hk.2)) ?_
  rintro r s' ⟨⟨U', a1', a2, a3, _⟩, k, z, rf⟩
  refine ⟨U', a1', a2, a3.1, k, tame_node z fun d hd hd0 => ?_⟩
  rw [rf] at hd
  simp only [List.mem_cons, List.not_mem_nil, or_false] at hd
  rcases hd with rfl | rfl | rfl | rfl
  · exact tame_frame h a1' a2 k h0.held t0
  · exact tame_frame h a1' a2 k h1.held t1
  · exact absurd rfl hd0
  · exact absurd rfl hd0

theorem finish2_tm (h : St s U u) {info : OpInfo} {k : Kind} (hk : IsOp k) {a0 a1 : Nat} (h0 : Operand s u a0)
    (h1 : Operand s u a1) (hn : info.size = n) (hpos : 0 < n) (t0 : Tame s a0 n) (t1 : Tame s a1 n) :
    wlp (finish2 ev info k a0 a1 0) s (Tm s U u n) := by
  unfold finish2
  refine wlp_ite (fun e => by omega) (fun _ => ?_)
  refine wlp_ite (fun _ => wlp_stop) (fun _ => ?_)
  rw [hn]
  exact node2_tm h h0 h1 hk t0 t1

theorem finish2_tm' {info : OpInfo} {k : Kind} {a0 a1 r : Nat} (p : Tm s U u n r s') :
    wlp (finish2 ev info k a0 a1 r) s' (Tm s U u n) := by
  unfold finish2
  rw [if_pos (.inl p.choose_spec.2.2.1)]
  exact wlp_pure p

theorem evalLiteral_tm (h : St s U u) {info : OpInfo} (hn : info.size = n) (hpos : 0 < n) (ht : info.type ≠ .bool)
    {f : FoldRes} : wlp (evalLiteral info f) s (Tm s U u n) := by
  cases f with
  | val v => exact lit_tm h (by omega) (by omega) (fun e => absurd e ht)
  | ub => exact wlp_stop
  | fail => exact wlp_abort
  | unmodelled => exact wlp_stop

/-- A temporary literal, an operation on it, and its release. -/
theorem tmp_tm (h : St s U u) {b a : Nat} {t : VType} {x : BitVec 64} (hpos : 0 < n)
    (ha : Operand s u a) (hta : (s.vars a).type = t) (hb : t ≠ .bool) (ta : Tame s a n) (sa : (s.vars a).size = n)
    {op : Nat → M Nat}
    (hop : ∀ {s1 : Store} {U1 : List Nat} {u1 : Nat → Nat} {c : Nat}, St s1 U1 u1 →
      Operand s1 u1 a → Operand s1 u1 c → (s1.vars a).type = t → (s1.vars c).type = t → Tame s1 a n → Tame s1 c n →
      (s1.vars a).size = n → (s1.vars c).size = n → wlp (op c) s1 (Tm s1 U1 u1 n)) :
    wlp (do let c ← varLiteral b t x n; let r ← op c; decRef c; pure r) s (Tm s U u n) := by
  refine wlp_bind (wlp_mono (literal_post h hpos (fun e => absurd e hb)) ?_)
  rintro c s1 ⟨p, _, _, hkeep⟩
  have oc := p.operand hpos
  obtain ⟨U1, a1, a2, a3, a4, a5, a6, a7, a8, a9, a10⟩ := p
  have al := h.alive ha.held
  obtain ⟨b1, b2⟩ := frame_body h.inv a2 ha.held al
  have kp := keep_kept h hkeep
  refine wlp_bind (wlp_mono (hop a1 (ha.keep h a2 hkeep (plus_pos_left ha.held)) oc
    (by rw [(body_fields b2).2.1, hta]) a4 (tame_frame h a1 a2 kp ha.held ta) (tame_lit (a8 trivial) (.inr a5))
    (by rw [kp a ha.held, sa]) a5) ?_)
  rintro r s2 ⟨U2, c1, c2, c3, c4, c5⟩
  rw [plus_comm] at c1
  refine wlp_bind (wlp_mono (decRef_post c1) ?_)
  rintro _ s3 ⟨U3, d1, d2, d3, d4⟩
  refine wlp_pure ⟨U3, d1, ?_, c3, ?_, ?_⟩
  · exact a2.trans ((c2.mono (fun i hi => plus_pos_left hi)).trans (d2.mono (fun i hi => plus_pos_left hi)))
  · exact fun k hk => (d3.2 k).trans ((c4 k (plus_pos_left hk)).trans (kp k hk))
  · have hr : 0 < plus u [r] r := by rw [plus_self c3]; omega
    intro k hk
    obtain ⟨q, _⟩ := reads_back c1 d1 d2 hr (c1.alive (plus_pos_left hr)) hk
    rw [d3.2]
    exact c5 k q

/-- The operands of a binary operation on an array of size `n` and a scalar or array. -/
structure Pair (s : Store) (u : Nat → Nat) (n a0 a1 : Nat) : Prop extends Ints s u a0 a1 where
  t0 : Tame s a0 n
  t1 : Tame s a1 n
  max : max (s.vars a0).size (s.vars a1).size = n

theorem Pair.pos {a0 a1 : Nat} (h : Pair s u n a0 a1) : 0 < n := by
  have := h.max
  have := h.h0.sized
  omega

theorem binary_tm (h : St s U u) {k : Kind} (hk : IsOp k)
    {f : VType → BitVec 64 → BitVec 64 → FoldRes}
    {simp : OpInfo → Var → Var → Store → Option (M Nat)} {a0 a1 : Nat} (hi : Pair s u n a0 a1)
    (hs : ∀ info : OpInfo, info.type = (s.vars a0).type → info.size = n →
      ¬ ((s.vars a0).kind = .literal ∧ (s.vars a1).kind = .literal) → ∀ m,
      simp info (s.vars a0) (s.vars a1) s = some m → wlp m s (Tm s U u n)) :
    wlp (binary ev k id f simp a0 a1) s (Tm s U u n) := by
  obtain ⟨n1, n2, _⟩ := isInt_ne hi.int
  unfold binary
  refine wlp_bind (wlp_mono (check_post h (by simp)
    (by simpa using ⟨⟨hi.h0, n1⟩, hi.h1, by rw [hi.same]; exact n1⟩)) ?_)
  rintro info s' ⟨rfl, ho, hn⟩
  have et := ho.type _ _ rfl
  have es := info2 ho
  rw [hi.max] at es
  refine wlp_bind (wlp_getStore ?_)
  dsimp only
  have fin := finish2_tm (ev := ev) h hk hi.h0 hi.h1 (info := { info with type := id info.type }) es hi.pos hi.t0 hi.t1
  by_cases hc : info.simplify = true
  · rw [if_pos hc]
    by_cases hl : info.literal = true
    · rw [if_pos hl]
      exact wlp_bind (wlp_mono (evalLiteral_tm h (info := { info with type := id info.type }) es hi.pos
        (by dsimp only [id]; rw [et]; exact n2)) fun _ _ p => finish2_tm' p)
    · rw [if_neg hl]
      have nl : ¬ ((s'.vars a0).kind = .literal ∧ (s'.vars a1).kind = .literal) := fun e =>
        hl (ho.literal.2 (by simpa using e))
      cases hm : simp { info with type := id info.type } (s'.vars a0) (s'.vars a1) s' with
      | some m => exact wlp_bind (wlp_mono (hs { info with type := id info.type } et es nl m hm) fun _ _ p => finish2_tm' p)
      | none => exact wlp_bind (wlp_pure fin)
  · rw [if_neg hc]
    exact wlp_bind (wlp_pure fin)

theorem shr_tm (h : St s U u) {a0 a1 : Nat} (hi : Pair s u n a0 a1) (sa : (s.vars a0).size = n) :
    wlp (varShr ev a0 a1) s (Tm s U u n) := by
  refine binary_tm h isOp hi ?_
  intro info et es nl m hm
  rcases opt_some hm with ⟨hc, rfl⟩ | ⟨_, hm⟩
  · rw [es]; exact resize_tm h hi.h0 sa hi.t0
  · cases hm

theorem shift_tm (h : St s U u) {info : OpInfo} {a : Nat} (ha : Operand s u a) (ht : (s.vars a).type.isInt = true)
    (et : info.type = (s.vars a).type) (es : info.size = n) (ta : Tame s a n) (sa : (s.vars a).size = n)
    {amount : BitVec 64} : wlp (varShift ev false info a amount) s (Tm s U u n) := by
  have := ha.sized
  unfold varShift
  rw [et, es]
  refine tmp_tm (op := fun c => varShr ev a c) h (by omega) ha rfl (isInt_ne ht).2.1 ta sa ?_
  intro s1 U1 u1 c h1 o1 o2 e1 e2 m1 m2 z1 z2
  exact shr_tm h1 ⟨⟨o1, o2, by rw [e1]; exact ht, by rw [e1, e2]⟩, m1, m2, by omega⟩ z1

theorem div_tm (h : St s U u) {a0 a1 : Nat} (hi : Pair s u n a0 a1) (sa : (s.vars a0).size = n) :
    wlp (varDiv ev a0 a1) s (Tm s U u n) := by
  have := hi.pos
  refine binary_tm h isOp hi ?_
  intro info et es nl m hm
  rcases opt_some hm with ⟨hc, rfl⟩ | ⟨_, hm⟩
  · rw [es]; exact resize_tm h hi.h0 sa hi.t0
  rcases opt_some hm with ⟨hc, rfl⟩ | ⟨_, hm⟩
  · exact shift_tm h hi.h0 hi.int et es hi.t0 sa
  rcases opt_some hm with ⟨hc, rfl⟩ | ⟨_, hm⟩
  · exact wlp_stop
  rcases opt_some hm with ⟨hc, rfl⟩ | ⟨_, hm⟩
  · exact lit_tm h (by omega) (by omega) (fun e => absurd (et.symm.trans e) (isInt_ne hi.int).2.1)
  · cases hm

theorem sub_tm (h : St s U u) {a0 a1 : Nat} (hi : Pair s u n a0 a1) (hl : (s.vars a0).kind = .literal) :
    wlp (varSub ev a0 a1) s (Tm s U u n) := by
  have := hi.pos
  refine binary_tm h isOp hi ?_
  intro info et es nl m hm
  rcases opt_some hm with ⟨hc, rfl⟩ | ⟨_, hm⟩
  · refine absurd ⟨hl, ?_⟩ nl
    unfold isAnyZero at hc
    simp only [Var.isLiteral, Bool.and_eq_true, beq_iff_eq] at hc
    exact hc.1
  rcases opt_some hm with ⟨hc, rfl⟩ | ⟨_, hm⟩
  · unfold makeZero
    exact lit_tm h (by omega) (by omega) (fun e => absurd (et.symm.trans e) (isInt_ne hi.int).2.1)
  · cases hm

theorem and_tm (h : St s U u) {a0 a1 : Nat} (hi : Pair s u n a0 a1) (s0 : (s.vars a0).size = n)
    (s1 : (s.vars a1).size = n) : wlp (varAnd ev a0 a1) s (Tm s U u n) := by
  obtain ⟨n1, n2, _⟩ := isInt_ne hi.int
  have hp := hi.pos
  unfold varAnd
  refine wlp_bind (wlp_mono (check_post h (by simp)
    (by simpa using ⟨⟨hi.h0, n1⟩, hi.h1, by rw [hi.same]; exact n1⟩)) ?_)
  rintro info s' ⟨rfl, ho, hn⟩
  have et := ho.type _ _ rfl
  have es := info2 ho
  rw [hi.max] at es
  refine wlp_bind (wlp_getStore ?_)
  dsimp only
  have fin := finish2_tm (ev := ev) (k := .and) h isOp hi.h0 hi.h1 es hi.pos hi.t0 hi.t1
  refine wlp_ite (fun _ => wlp_raise) (fun _ => ?_)
  refine wlp_ite (fun _ => ?_) (fun _ => wlp_bind (wlp_pure fin))
  refine wlp_ite (fun _ => wlp_bind (wlp_mono (evalLiteral_tm h es hp (by rw [et]; exact n2)) fun _ _ p => finish2_tm' p))
    (fun _ => ?_)
  refine wlp_ite (fun _ => wlp_bind (wlp_mono ?_ fun _ _ p => finish2_tm' p)) (fun _ => ?_)
  · unfold makeZero
    exact lit_tm h (by omega) (by omega) (fun e => absurd (et.symm.trans e) n2)
  refine wlp_ite (fun _ => wlp_bind (wlp_mono ?_ fun _ _ p => finish2_tm' p)) (fun _ => ?_)
  · rw [es]; exact resize_tm h hi.h0 s0 hi.t0
  refine wlp_ite (fun _ => wlp_bind (wlp_mono ?_ fun _ _ p => finish2_tm' p)) (fun _ => ?_)
  · rw [es]; exact resize_tm h hi.h1 s1 hi.t1
  exact wlp_bind (wlp_pure fin)

theorem mod_tm (h : St s U u) {a0 a1 : Nat} (hi : Pair s u n a0 a1) (s0 : (s.vars a0).size = n) :
    wlp (varMod ev a0 a1) s (Tm s U u n) := by
  obtain ⟨n1, n2, _⟩ := isInt_ne hi.int
  have hp := hi.pos
  unfold varMod
  refine wlp_bind (wlp_mono (check_post h (by simp)
    (by simpa using ⟨⟨hi.h0, n1⟩, hi.h1, by rw [hi.same]; exact n1⟩)) ?_)
  rintro info s' ⟨rfl, ho, hn⟩
  have et := ho.type _ _ rfl
  have es := info2 ho
  rw [hi.max] at es
  refine wlp_bind (wlp_getStore ?_)
  dsimp only
  refine wlp_ite (fun _ => wlp_bind (wlp_mono (evalLiteral_tm h es hp (by rw [et]; exact n2)) fun _ _ p => finish2_tm' p))
    (fun _ => ?_)
  refine wlp_ite (fun _ => wlp_stop) (fun _ => ?_)
  refine wlp_ite (fun _ => ?_) (fun _ => ?_)
  · rw [et, es]
    refine tmp_tm (op := fun c => varAnd ev a0 c) h hp hi.h0 rfl n2 hi.t0 s0 ?_
    intro s1 U1 u1 c h1 o1 o2 e1 e2 m1 m2 z1 z2
    exact and_tm h1 ⟨⟨o1, o2, by rw [e1]; exact hi.int, by rw [e1, e2]⟩, m1, m2, by omega⟩ z1 z2
  refine wlp_ite (fun _ => ?_) (fun _ => finish2_tm h isOp hi.h0 hi.h1 es hp hi.t0 hi.t1)
  exact wlp_bind (wlp_mono (lit_tm h (by omega) (by omega) (fun e => absurd (et.symm.trans e) n2))
    fun _ _ p => finish2_tm' p)

end Verif.Gather
