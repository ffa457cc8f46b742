import Verif.Gather.TileModel
import Verif.Gather.TileSpec
import Verif.Gather.Tame
import Verif.Gather.GatherProps
/-!
# Properties of tiling, repetition and reversal
-/
namespace Verif.Gather
open Verif.Var Verif.Ops

variable {s s' s2 : Store} {U U2 : List Nat} {u w : Nat → Nat} {ev : M Unit} {st : List Nat}
variable {evalVar : Nat → M Unit} {alloc : M (BitVec 64)} {cb : Nat → Bool} {fuel src n r : Nat}

/-- The counter. -/
theorem counterS_post (h : St s U u) {b : Nat} (hn : 0 < n) (hs : s.symbolicScope = false ∨ n ≠ 1) :
    wlp (varCounter b n true) s (fun r s' =>
      Post s U u .u32 n (n = 1) (fun l z => z = norm .u32 (BitVec.ofNat 64 (if n = 1 then 0 else l))) r s' ∧
      Keep s U s' ∧ Tame s' r n) := by
  unfold varCounter
  refine wlp_bind (wlp_getStore ?_)
  refine wlp_ite (fun e => ?_) (fun e => ?_)
  · obtain ⟨rfl, _⟩ := e
    refine wlp_mono (literal_post h (by omega) (fun e => nomatch e)) ?_
    rintro r s' ⟨p, _, _, k⟩
    have p' := p
    obtain ⟨U', a1, a2, a3, a4, a5, a6, a7, a8, _⟩ := p'
    exact ⟨p.mono (fun _ => trivial) (fun l z e => e), k, tame_lit (a8 trivial) (.inl a5)⟩
  have h1 : n ≠ 1 := by
    rcases hs with hs | hs
    · intro e1; exact e ⟨e1, by simp [hs]⟩
    · exact hs
  refine wlp_ite (fun _ => wlp_raise) (fun hb => ?_)
  have h0 : Inv s U (plus (plus u s.sideEffects) [0, 0, 0, 0]) (fun _ => 0) [] := by
    simp only [plus_zero, plus_nil]; exact h.inv
  refine wlp_mono (varNew_post rfl rfl rfl (fun e => nomatch e) h0 h.wok) ?_
  intro r s' hp
  obtain ⟨U', _, _, _, key, _, _, a7⟩ := hp
  have e0 : (s'.vars r).d0 = 0 := congrArg Key.d0 key
  have e1 : (s'.vars r).d1 = 0 := congrArg Key.d1 key
  have e2 : (s'.vars r).d2 = 0 := congrArg Key.d2 key
  have e3 : (s'.vars r).d3 = 0 := congrArg Key.d3 key
  refine ⟨?_, a7, tame_node (congrArg Key.size key) fun d hd hd0 => ?_⟩
  · refine Post.mono (lit := False) (V := fun l z => z = norm .u32 (BitVec.ofNat 64 l)) ?_ h1 ?_
    · refine node_end (k := .counter) h Frame.refl (fun _ => ⟨rfl, rfl⟩) (fun _ => id) ⟨rfl, rfl, rfl, rfl⟩
        (fun e => nomatch e) ?_ ⟨U', ‹_›, ‹_›, ‹_›, key, ‹_›, ‹_›, a7⟩
      rintro U2 i2 f2 k2 l z rfl
      have e2 : (s'.vars r).type = .u32 := congrArg Key.type k2
      have := Val.counter (s := s') (i := r) (l := l) (congrArg Key.kind k2)
      rwa [e2] at this
    · intro l z e
      rw [if_neg h1] at e; exact e
  · refine absurd ?_ hd0
    revert hd
    cases hw : (s'.vars r).writePtr <;> simp [Var.refs, hw, e0, e1, e2, e3]

/-- The preparation of the index: the operands `a` and `b` have been created. -/
structure Ready (s : Store) (U : List Nat) (w : Nat → Nat) (n a b : Nat) (s2 : Store) (U2 : List Nat) : Prop where
  st : St s2 U2 (plus (plus w [a]) [b])
  frame : Frame w s U s2 U2
  kept : Kept s w s2
  clean : ∀ k, 0 < w k → (s.vars k).isDirty = false → (s2.vars k).isDirty = false
  pair : Pair s2 (plus (plus w [a]) [b]) n a b
  type : (s2.vars a).type = .u32

theorem cInt_u32 {k : Nat} (hk : k < 2 ^ 32) : cInt .u32 (BitVec.ofNat 64 k) = k := by
  have : (BitVec.ofNat 64 k).setWidth 32 = BitVec.ofNat 32 k := by
    apply BitVec.eq_of_toNat_eq
    simp only [BitVec.toNat_setWidth, BitVec.toNat_ofNat]
    omega
  show (if VType.isSint .u32 = true then _ else ((BitVec.setWidth 32 (BitVec.ofNat 64 k)).toNat : Int)) = k
  rw [if_neg (by decide), this, BitVec.toNat_ofNat, Nat.mod_eq_of_lt hk]

theorem norm_u32 {k : Nat} (hk : k < 2 ^ 32) : norm .u32 (BitVec.ofNat 64 k) = BitVec.ofNat 64 k := by
  unfold norm
  apply BitVec.eq_of_toNat_eq
  show (((BitVec.ofNat 64 k).setWidth 32).setWidth 64).toNat = _
  simp only [BitVec.toNat_setWidth, BitVec.toNat_ofNat]
  omega

theorem gatherVia_post (hE : EvalOK evalVar) (hA : AllocOK alloc) (h : MInv s U u st) (hw : WritesOK s)
    (m : MapArgs s u st src) {a b bk : Nat} (R : Ready s U (plus u st) n a b s2 U2) (hn : n < 2 ^ 32)
    {f : Nat → Nat} {VO : Nat → BitVec 64 → Prop} {lit : Prop} {op : Nat → Nat → M Nat}
    (hf : ∀ l < n, f l < (s.vars src).size)
    (hop : wlp (op a b) s2 (fun o s3 => Post s2 U2 (plus (plus (plus u st) [a]) [b]) .u32 n lit VO o s3 ∧
      Tm s2 U2 (plus (plus (plus u st) [a]) [b]) n o s3))
    (hV : ∀ l < n, ∃ x, VO l x ∧ cInt .u32 x = f l) (hV1 : n = 1 → ∃ x, ∀ l, VO l x) :
    wlp (gatherVia ev evalVar alloc cb st fuel src bk a b op) s2 (fun r s' => Maps s u st src n f s' r) := by
  have hs : St s U (plus u st) := ⟨h.2, (writesOK_iff h.2).1 hw⟩
  have hpos := R.pair.pos
  have ws : 0 < plus u st src := plus_pos_left m.osrc.held
  have wt : ∀ t, st.head? = some t → 0 < plus u st t := by
    intro t ht
    have := (m.otop t ht).1.held
    rwa [holders_eq h.1] at this
  unfold gatherVia
  refine wlp_bind (wlp_mono hop ?_)
  rintro o s3 ⟨⟨U3, p⟩, _, _, _, _, k3, t3⟩
  have po : PostAt s2 U2 _ .u32 n lit VO o s3 U3 := p
  refine wlp_bind (wlp_mono (literal_post po.st (by omega) (fun _ => by decide)) ?_)
  rintro t s4 ⟨⟨U4, q⟩, _, _, kp4⟩
  have pt : PostAt s3 U3 _ .bool 1 True _ t s4 U4 := q
  have k4 := keep_kept po.st kp4
  -- everything that the caller holds, and the temporaries
  have up2 : ∀ k, 0 < plus u st k → 0 < plus (plus (plus u st) [a]) [b] k := fun k hk =>
    plus_pos_left (plus_pos_left hk)
  have up3 : ∀ k, 0 < plus u st k → 0 < plus (plus (plus (plus u st) [a]) [b]) [o] k := fun k hk =>
    plus_pos_left (up2 k hk)
  have fr : Frame (plus u st) s U s4 U4 :=
    R.frame.trans ((po.frame.mono up2).trans (pt.frame.mono up3))
  have kept : Kept s (plus u st) s4 := fun k hk =>
    (k4 k (up3 k hk)).trans ((k3 k (up2 k hk)).trans (R.kept k hk))
  have cl : ∀ k, 0 < plus u st k → (s.vars k).isDirty = false → (s4.vars k).isDirty = false := fun k hk e =>
    pt.held.clean k (up3 k hk) (po.held.clean k (up2 k hk) (R.clean k hk e))
  have sm : ∀ k, 0 < plus u st k → Same s s4 k := fun k hk => (same_of hs pt.st fr hk (hs.alive hk)).2
  have op4 : ∀ {k v}, Operand s v k → 0 < plus u st k →
      Operand s4 (plus (plus (plus (plus (plus u st) [a]) [b]) [o]) [t]) k := fun {k v} ho hk =>
    ⟨plus_pos_left (up3 k hk), by rw [kept k hk]; exact ho.sized, cl k hk ho.clean, ho.lit.body (sm k hk).body⟩
  have un : ∀ k, 0 < plus u st k → Uniform s k → Uniform s4 k := fun k hk hu =>
    uniform_frame hs pt.st fr hk (kept k hk) hu
  have uo : 0 < plus (plus (plus (plus u st) [a]) [b]) [o] o := by rw [plus_self po.alive.1]; omega
  have so := pt.same po.st uo
  have vo : ∀ {l x}, VO l x → Val s4 o l x := fun {l x} hx => so.val l x (po.val hx)
  have zo : (s4.vars o).size = n := by rw [k4 o uo, po.size]
  have tameo : Tame s4 o n := tame_frame po.st pt.st pt.frame k4 uo t3
  have vt : ∀ l, Val s4 t l 1#64 := fun l => by
    have := pt.val (l := l) (z := norm .bool 1#64) rfl
    exact this
  have A : GatherArgs s4 (plus (plus (plus (plus (plus u st) [a]) [b]) [o]) [t]) st src o t := by
    refine ⟨op4 m.osrc ws, by rw [(sm _ ws).type]; exact m.stype, typed_next hs ws m.typed pt.st fr, un _ ws m.usrc,
      shaped_frame hs pt.st fr ws (kept _ ws) m.hsrc, ?_, by rw [kept _ ws]; exact m.ssize, ?_, ?_, ?_, ?_, ?_, ?_,
      pt.operand (by omega), pt.type, ?_, ?_, by rw [pt.size]; decide, ?_⟩
    · intro e
      rw [(sm _ ws).kind] at e
      rw [fr.side]; exact m.quiet e
    · exact operand_of (po.operand hpos) so pt.held (plus_pos_left uo)
    · rw [so.type, po.type]; decide
    · intro _; rw [so.type, po.type]
    · intro e l l' x hx
      obtain ⟨y, hy⟩ := hV1 (by omega)
      rw [hx.unique (vo (hy l))]
      exact vo (hy l')
    · intro k hk
      rw [zo]; exact tameo k hk
    · rw [zo]; exact hn
    · intro _ l l' x hx
      rw [hx.unique (vt l)]; exact vt l'
    · intro k hk
      rcases hk.head with rfl | ⟨e, _⟩
      · exact .inr rfl
      · exact absurd (pt.literal trivial) e
    · intro k hk
      obtain ⟨o1, o2, o3, o4⟩ := m.otop k hk
      have hk' := wt k hk
      obtain ⟨b1, b2, b3, b4⟩ := op4 o1 hk'
      exact ⟨⟨by unfold holders; omega, b2, b3, b4⟩, by rw [(sm _ hk').type]; exact o2, un _ hk' o3,
        shaped_frame hs pt.st fr hk' (kept _ hk') o4⟩
  have gs : gatherSize s4 o t = n := by unfold gatherSize; rw [zo, pt.size]; omega
  have gm : gatherMax s4 st o t = mapMax s st n := by
    unfold gatherMax mapMax
    rw [gs]
    cases hst : st with
    | nil => rfl
    | cons k l =>
      have := kept k (wt k (by rw [hst]; rfl))
      dsimp only
      rw [this]
  have ge : n ≠ 1 → mapMax s st n = n := by
    intro e
    unfold mapMax
    cases st with
    | nil => simp
    | cons t l => simp only [if_neg e]; omega
  have hle : n ≤ mapMax s st n := by unfold mapMax; omega
  refine wlp_bind (wlp_mono (varGather_post hE hA pt.st A (fun _ => id) (fun k hk => plus_pos_left (up3 k (wt k hk)))) ?_)
  rintro r s5 ⟨U5, mm, hm, G⟩
  rw [gs, gm] at hm G
  have hQ := gsize_top2 (n := n) (N := mapMax s st n) ge
  have ob : Obs (GSize n (mapMax s st n)) (plus u st) s s4 :=
    Evo.obs (P := fun _ => False) hs pt.st ⟨fr, fun k hk => .inl (kept k (hk.resolve_right id)), cl⟩
  have G1 : RAt (GSize n (mapMax s st n)) s (plus u st) _ (s4.vars src).type mm _ r s5 U5 :=
    ⟨G.st, ob.trans hQ (G.obs.mono fun k hk => plus_pos_left (up3 k hk)), G.ne, G.type, G.size, G.clean, G.lit, G.val⟩
  refine wlp_bind (wlp_mono (G1.drop hQ up3) ?_)
  rintro _ s6 ⟨U6, G2⟩
  refine wlp_bind (wlp_mono (G2.drop hQ up2) ?_)
  rintro _ s7 ⟨U7, G3⟩
  refine wlp_bind (wlp_mono (G3.drop hQ fun k hk => plus_pos_left hk) ?_)
  rintro _ s8 ⟨U8, G4⟩
  refine wlp_bind (wlp_mono (G4.drop hQ fun k hk => hk) ?_)
  rintro _ s9 ⟨U9, X⟩
  refine wlp_pure ?_
  have ho := holders_eq (u := u) h.1
  refine ⟨?_, by rw [X.type, (sm _ ws).type], ?_, hf, ?_, ?_, ?_, ?_⟩
  · exact (live_iff X.st.inv r).2 (X.st.alive (by rw [plus_self X.ne]; omega))
  · rw [X.size]
    by_cases e : n = 1
    · exact hm.imp id fun e' => ⟨e, e'⟩
    · rw [ge e] at hm; omega
  · intro l hl ht z hz x
    obtain ⟨y, hy, hy'⟩ := hV l hl
    have : Val s9 r l z := by
      refine X.val l z ⟨hl, y, vo hy, .inl ⟨vt l, ?_, f l, ?_, ?_, (sm _ ws).val _ _ hz⟩⟩
      · rintro k ⟨e1, e2⟩
        have hk := wt k e1
        rw [kept k hk] at e2
        exact (sm k hk).val _ _ (ht k ⟨e1, e2⟩)
      · rw [so.type, po.type]; exact hy'
      · rw [kept _ ws]; exact hf l hl
    exact ⟨fun hx => hx.unique this, fun e => e ▸ this⟩
  · exact fun v => ⟨fun o => o.held, fun hv => ⟨hv, by rw [X.size]; omega, X.clean, X.lit⟩⟩
  · intro k hk
    rw [ho] at hk
    exact (live_iff X.st.inv k).2 (X.st.alive (plus_pos_left hk))
  · rw [ho]
    refine ⟨X.obs.type, fun k hk => ?_, X.obs.clean, X.obs.lit, X.obs.val⟩
    rcases X.obs.size k hk with e | ⟨q1, q2, q3⟩
    · exact .inl e
    · unfold GSize at q1 q3
      omega

/-- The operands are ready. -/
theorem ready_of {a b na nb : Nat} {s1 s2 : Store} {U1 U2 : List Nat} {la lb : Prop} {Va Vb : Nat → BitVec 64 → Prop}
    (h : St s U w) (pa : PostAt s U w .u32 na la Va a s1 U1) (ka : Keep s U s1) (ta : Tame s1 a n)
    (pb : PostAt s1 U1 (plus w [a]) .u32 nb lb Vb b s2 U2) (kb : Keep s1 U1 s2) (tb : Tame s2 b n)
    (ha : 0 < na) (hb : 0 < nb) (hn : max na nb = n) :
    Ready s U w n a b s2 U2 ∧ (∀ l x, Va l x → Val s2 a l x) ∧ (∀ l x, Vb l x → Val s2 b l x) ∧
      (s2.vars a).size = na ∧ (la → (s2.vars a).kind = .literal) := by
  have ua : 0 < plus w [a] a := by rw [plus_self pa.alive.1]; omega
  have sa := pb.same pa.st ua
  have k1 := keep_kept h ka
  have k2 := keep_kept pa.st kb
  have za : (s2.vars a).size = na := by rw [k2 a ua, pa.size]
  refine ⟨⟨pb.st, pa.frame.trans (pb.frame.mono fun _ => plus_pos_left), fun k hk => (k2 k (plus_pos_left hk)).trans (k1 k hk),
    fun k hk e => pb.held.clean k (plus_pos_left hk) (pa.held.clean k hk e), ⟨⟨?_, pb.operand hb, ?_, ?_⟩, ?_, tb, ?_⟩,
    by rw [sa.type, pa.type]⟩, fun l x hx => sa.val l x (pa.val hx), fun l x => pb.val, za, fun e => by rw [sa.kind, pa.literal e]⟩
  · exact operand_of (pa.operand ha) sa pb.held (plus_pos_left ua)
  · rw [sa.type, pa.type]; decide
  · rw [sa.type, pa.type, pb.type]
  · exact tame_frame pa.st pb.st pb.frame k2 ua ta
  · rw [za, pb.size, hn]

/-- The index is computed by one operation from the operands. -/
theorem map_post (hE : EvalOK evalVar) (hA : AllocOK alloc) (h : MInv s U u st) (hw : WritesOK s)
    (m : MapArgs s u st src) {a b bk : Nat} (R : Ready s U (plus u st) n a b s2 U2) (hn : n < 2 ^ 32)
    {f ia ib : Nat → Nat} {k : Kind} {op : Nat → Nat → M Nat}
    (va : ∀ l, Val s2 a l (norm .u32 (BitVec.ofNat 64 (ia l)))) (vb : ∀ l, Val s2 b l (norm .u32 (BitVec.ofNat 64 (ib l))))
    (hf : ∀ l < n, f l < (s.vars src).size)
    (hop : wlp (op a b) s2 (Post2 s2 U2 (plus (plus (plus u st) [a]) [b]) k (s2.vars a).type a b))
    (htm : wlp (op a b) s2 (Tm s2 U2 (plus (plus (plus u st) [a]) [b]) n))
    (hsem : ∀ l < n, ∃ z, sem2 k .u32 .u32 .u32 (norm .u32 (BitVec.ofNat 64 (ia l))) (norm .u32 (BitVec.ofNat 64 (ib l))) =
      some z ∧ cInt .u32 z = f l)
    (h1 : n = 1 → ∀ l, ia l = ia 0 ∧ ib l = ib 0) :
    wlp (gatherVia ev evalVar alloc cb st fuel src bk a b op) s2 (fun r s' => Maps s u st src n f s' r) := by
  have ta := R.type
  have tb : (s2.vars b).type = .u32 := by rw [R.pair.same, ta]
  have vo : ∀ {l z}, sem2 k .u32 .u32 .u32 (norm .u32 (BitVec.ofNat 64 (ia l))) (norm .u32 (BitVec.ofNat 64 (ib l))) = some z →
      V2 s2 k .u32 a b l z := fun {l z} hz => ⟨_, _, va l, vb l, by rw [ta, tb]; exact hz⟩
  refine gatherVia_post (lit := s2.constProp = true ∧ (s2.vars a).kind = .literal ∧ (s2.vars b).kind = .literal) hE hA h hw m R hn (VO := V2 s2 k .u32 a b) hf (wlp_mono (wlp_and hop htm) ?_) ?_ ?_
  · rintro o s3 ⟨p, q⟩
    unfold Post2 at p
    rw [R.pair.max, ta] at p
    exact ⟨p, q⟩
  · intro l hl
    obtain ⟨z, hz, e⟩ := hsem l hl
    exact ⟨z, vo hz, e⟩
  · intro e
    have hpos := R.pair.pos
    obtain ⟨z, hz, _⟩ := hsem 0 hpos
    refine ⟨z, fun l => vo ?_⟩
    rw [(h1 e l).1, (h1 e l).2]; exact hz

/-- The counter and a literal have been created. -/
theorem counter_lit (h : St s U w) {b c k : Nat} {Q : Nat → Store → Prop} (hn : 0 < n)
    (hs : s.symbolicScope = false ∨ n ≠ 1) {K : Nat → Nat → M Nat}
    (hK : ∀ c m s2 U2, Ready s U w n c m s2 U2 → (s2.vars c).size = n →
      (∀ l, Val s2 c l (norm .u32 (BitVec.ofNat 64 (if n = 1 then 0 else l)))) →
      (∀ l, Val s2 m l (norm .u32 (BitVec.ofNat 64 k))) → wlp (K c m) s2 Q) :
    wlp (do let c ← varCounter b n true; let m ← varLiteral b .u32 (BitVec.ofNat 64 k) 1; K c m) s Q := by
  refine wlp_bind (wlp_mono (counterS_post h hn hs) ?_)
  rintro c s1 ⟨⟨U1, p⟩, k1, t1⟩
  have pa : PostAt s U w .u32 n (n = 1) _ c s1 U1 := p
  refine wlp_bind (wlp_mono (literal_post pa.st (by omega) (fun e => nomatch e)) ?_)
  rintro m s2 ⟨⟨U2, q⟩, _, _, k2⟩
  have pb : PostAt s1 U1 (plus w [c]) .u32 1 True _ m s2 U2 := q
  obtain ⟨R, v1, v2, z, _⟩ := ready_of (n := n) h pa k1 t1 pb k2 (tame_lit (pb.literal trivial) (.inl pb.size)) hn
    (by omega) (by omega)
  exact hK c m s2 U2 R z (fun l => v1 l _ rfl) (fun l => v2 l _ rfl)

theorem u32_mod {l k : Nat} (hl : l < 2 ^ 32) (hk : k < 2 ^ 32) (h0 : 0 < k) :
    ∃ z, sem2 .mod .u32 .u32 .u32 (norm .u32 (BitVec.ofNat 64 l)) (norm .u32 (BitVec.ofNat 64 k)) = some z ∧
      cInt .u32 z = (l % k : Nat) := by
  rw [norm_u32 hl, norm_u32 hk]
  obtain ⟨z, h1, h2⟩ := sem_mod (t := .u32) (x := BitVec.ofNat 64 l) (y := BitVec.ofNat 64 k) (by decide)
    (by rw [cInt_u32 hk]; omega) (fun e => absurd e.1 (by decide))
  refine ⟨z, h1, ?_⟩
  rw [h2, cInt_u32 hl, cInt_u32 hk]
  rfl

theorem u32_div {l k : Nat} (hl : l < 2 ^ 32) (hk : k < 2 ^ 32) (h0 : 0 < k) :
    ∃ z, sem2 .div .u32 .u32 .u32 (norm .u32 (BitVec.ofNat 64 l)) (norm .u32 (BitVec.ofNat 64 k)) = some z ∧
      cInt .u32 z = (l / k : Nat) := by
  rw [norm_u32 hl, norm_u32 hk]
  obtain ⟨z, h1, h2⟩ := sem_div (t := .u32) (x := BitVec.ofNat 64 l) (y := BitVec.ofNat 64 k) (by decide)
    (by rw [cInt_u32 hk]; omega) (fun e => absurd e.1 (by decide))
  refine ⟨z, h1, ?_⟩
  rw [h2, cInt_u32 hl, cInt_u32 hk]
  rfl

theorem u32_sub {l k : Nat} (hk : k < 2 ^ 32) (h0 : l ≤ k) :
    ∃ z, sem2 .sub .u32 .u32 .u32 (norm .u32 (BitVec.ofNat 64 k)) (norm .u32 (BitVec.ofNat 64 l)) = some z ∧
      cInt .u32 z = (k - l : Nat) := by
  rw [norm_u32 (k := l) (by omega), norm_u32 hk]
  simp only [sem2]
  refine ⟨_, rfl, ?_⟩
  rw [cInt_setWidth, if_neg (by decide)]
  show ((BitVec.setWidth 32 (BitVec.ofNat 64 k) - BitVec.setWidth 32 (BitVec.ofNat 64 l)).toNat : Int) = _
  rw [BitVec.toNat_sub]
  simp only [BitVec.toNat_setWidth, BitVec.toNat_ofNat]
  omega

/-- **C46 (tile).** `jit_var_tile(x, k)` returns an array with `n * k` entries, entry `i` is `x[i mod n]`. -/
theorem C46_tile (hev : EvOK ev) (hE : EvalOK evalVar) (hA : AllocOK alloc)
    (h : GReachable ev evalVar alloc cb s u st) (hw : WritesOK s) (a : MapArgs s u st src) {k : Nat} (hk : 0 < k)
    (hs : s.symbolicScope = false ∨ (s.vars src).size * k ≠ 1)
    (he : varTile ev evalVar alloc cb st fuel src k s = .ok r s') :
    Maps s u st src ((s.vars src).size * k) (fun i => i % (s.vars src).size) s' r := by
  obtain ⟨U, hi⟩ := greachable_inv hev hE hA h
  have st' : St s U (plus u st) := ⟨hi.2, (writesOK_iff hi.2).1 hw⟩
  have h0 := a.osrc.sized
  have hz := a.ssize
  refine (?_ : wlp _ s (fun r s' => Maps s u st src _ _ s' r)) r s' he
  clear he
  unfold varTile
  refine wlp_ite (fun e => absurd e (st'.alive (plus_pos_left a.osrc.held)).1) (fun _ => ?_)
  refine wlp_bind (wlp_getVar ?_)
  refine wlp_ite (fun _ => wlp_raise) (fun hb => ?_)
  refine counter_lit (c := 0) st' (Nat.mul_pos h0 hk) hs ?_
  intro c m s2 U2 R z v1 v2
  have hn : (s.vars src).size * k < 2 ^ 32 := by omega
  refine map_post hE hA hi hw a R hn v1 v2 (fun l _ => Nat.mod_lt _ h0) (mod_post R.st R.pair.toInts) (mod_tm R.st R.pair z) ?_ ?_
  · intro l hl
    have : (if (s.vars src).size * k = 1 then 0 else l) = l := by split_ifs <;> omega
    rw [this]
    exact u32_mod (by omega) hz h0
  · intro e l
    simp [e]

/-- **C46 (repeat).** `jit_var_repeat(x, k, max)` returns an array with `n * k` entries, or the maximum if
it is given and smaller; entry `i` is `x[i div k]`. -/
theorem C46_repeat (hev : EvOK ev) (hE : EvalOK evalVar) (hA : AllocOK alloc)
    (h : GReachable ev evalVar alloc cb s u st) (hw : WritesOK s) (a : MapArgs s u st src) {k mx n : Nat} (hk : 0 < k)
    (hk' : k < 2 ^ 32) (hn : n = if mx = 0 then (s.vars src).size * k else min mx ((s.vars src).size * k))
    (hs : s.symbolicScope = false ∨ n ≠ 1)
    (he : varRepeat ev evalVar alloc cb st fuel src k mx s = .ok r s') :
    Maps s u st src n (fun i => i / k) s' r := by
  obtain ⟨U, hi⟩ := greachable_inv hev hE hA h
  have st' : St s U (plus u st) := ⟨hi.2, (writesOK_iff hi.2).1 hw⟩
  have h0 := a.osrc.sized
  have hp := Nat.mul_pos h0 hk
  have e : repeatSize (s.vars src).size k mx = n := by
    rw [hn]
    unfold repeatSize
    split_ifs <;> omega
  have hpos : 0 < n := by rw [hn]; split_ifs <;> omega
  have hle : n ≤ (s.vars src).size * k := by rw [hn]; split_ifs <;> omega
  refine (?_ : wlp _ s (fun r s' => Maps s u st src _ _ s' r)) r s' he
  clear he
  unfold varRepeat
  refine wlp_ite (fun e => absurd e (st'.alive (plus_pos_left a.osrc.held)).1) (fun _ => ?_)
  refine wlp_bind (wlp_getVar ?_)
  rw [e]
  refine wlp_ite (fun _ => wlp_raise) (fun hb => ?_)
  refine counter_lit (c := 0) st' hpos hs ?_
  intro c m s2 U2 R z v1 v2
  refine map_post hE hA hi hw a R (by omega) v1 v2 (fun l hl => ?_) (div_post R.st R.pair.toInts) (div_tm R.st R.pair z) ?_ ?_
  · exact (Nat.div_lt_iff_lt_mul hk).2 (by omega)
  · intro l hl
    have : (if n = 1 then 0 else l) = l := by split_ifs <;> omega
    rw [this]
    exact u32_div (by omega) hk' hk
  · intro e l
    simp [e]

/-- **C46 (reverse).** `jit_var_reverse(x)` returns an array with the same number `n` of entries, entry
`i` is `x[n - 1 - i]`. -/
theorem C46_reverse (hev : EvOK ev) (hE : EvalOK evalVar) (hA : AllocOK alloc)
    (h : GReachable ev evalVar alloc cb s u st) (hw : WritesOK s) (a : MapArgs s u st src)
    (hs : s.symbolicScope = false ∨ (s.vars src).size ≠ 1)
    (he : varReverse ev evalVar alloc cb st fuel src s = .ok r s') :
    Maps s u st src (s.vars src).size (fun i => (s.vars src).size - 1 - i) s' r := by
  obtain ⟨U, hi⟩ := greachable_inv hev hE hA h
  have st' : St s U (plus u st) := ⟨hi.2, (writesOK_iff hi.2).1 hw⟩
  have h0 := a.osrc.sized
  have hz := a.ssize
  refine (?_ : wlp _ s (fun r s' => Maps s u st src _ _ s' r)) r s' he
  clear he
  unfold varReverse
  refine wlp_ite (fun e => absurd e (st'.alive (plus_pos_left a.osrc.held)).1) (fun _ => ?_)
  refine wlp_bind (wlp_getVar ?_)
  refine wlp_bind (wlp_mono (literal_post st' (by omega) (fun e => nomatch e)) ?_)
  rintro m s1 ⟨⟨U1, q⟩, _, _, k1⟩
  have pa : PostAt s U (plus u st) .u32 1 True _ m s1 U1 := q
  have sy : s1.symbolicScope = s.symbolicScope := congrArg (fun e => e.2.2.2.2.2.2.2.2) pa.frame.env
  refine wlp_bind (wlp_mono (counterS_post pa.st h0 (by rw [sy]; exact hs)) ?_)
  rintro c s2 ⟨⟨U2, p⟩, k2, t2⟩
  have pb : PostAt s1 U1 (plus (plus u st) [m]) .u32 (s.vars src).size _ _ c s2 U2 := p
  obtain ⟨R, v1, v2, z, lt⟩ := ready_of (n := (s.vars src).size) st' pa k1 (tame_lit (pa.literal trivial) (.inl pa.size)) pb k2 t2
    (by omega) h0 (by omega)
  refine map_post (ia := fun _ => (s.vars src).size - 1) hE hA hi hw a R hz (fun l => v1 l _ rfl) (fun l => v2 l _ rfl)
    (fun l hl => by omega) (sub_post R.st R.pair.toInts) (sub_tm R.st R.pair (lt trivial)) ?_ ?_
  · intro l hl
    have : (if (s.vars src).size = 1 then 0 else l) = l := by split_ifs <;> omega
    rw [this]
    exact u32_sub (by omega) (by omega)
  · intro e l
    simp [e]

/-- The check of operands rejects an array without entries. -/
theorem check_raises {a b : Nat} (ha : a ≠ 0) (hb : b ≠ 0) (za : (s.vars a).size = 0) (zb : (s.vars b).size = 1) :
    wlp (varCheck [a, b]) s (fun _ _ => False) := by
  unfold varCheck
  refine wlp_bind (wlp_mono (Q := fun i s' => s' = s ∧ i.size = 1) ?_ ?_)
  · unfold checkLoop
    rw [if_neg ha]
    refine wlp_bind (wlp_getVar ?_)
    refine wlp_ite (fun _ => wlp_raise) (fun _ => ?_)
    unfold checkLoop
    rw [if_neg hb]
    refine wlp_bind (wlp_getVar ?_)
    refine wlp_ite (fun _ => wlp_raise) (fun _ => ?_)
    unfold checkLoop
    exact wlp_pure ⟨rfl, by dsimp only; rw [za, zb]; rfl⟩
  · rintro i s' ⟨rfl, hi⟩
    refine wlp_bind (wlp_getStore ?_)
    rw [if_pos (by omega), if_pos (by simp [ha, za, hi])]
    exact wlp_raise

theorem empty_counter (h : St s U u) {b k : Nat} {K : Nat → Nat → M Nat}
    (hK : ∀ c m s2, c ≠ 0 → m ≠ 0 → (s2.vars c).size = 0 → (s2.vars m).size = 1 → wlp (K c m) s2 (fun _ _ => False)) :
    wlp (do let c ← varCounter b 0 true; let m ← varLiteral b .u32 (BitVec.ofNat 64 k) 1; K c m) s (fun _ _ => False) := by
  have hc : wlp (varCounter b 0 true) s (fun r s' => Post s U u .u32 0 False (fun _ _ => False) r s') := by
    unfold varCounter
    refine wlp_bind (wlp_getStore ?_)
    refine wlp_ite (fun e => absurd e.1 (by decide)) (fun _ => ?_)
    refine wlp_ite (fun _ => wlp_raise) (fun hb => ?_)
    have h0 : Inv s U (plus (plus u s.sideEffects) [0, 0, 0, 0]) (fun _ => 0) [] := by
      simp only [plus_zero, plus_nil]; exact h.inv
    refine wlp_mono (varNew_post rfl rfl rfl (fun e => nomatch e) h0 h.wok) ?_
    intro r s' hp
    exact node_end (k := .counter) h Frame.refl (fun _ => ⟨rfl, rfl⟩) (fun _ => id) ⟨rfl, rfl, rfl, rfl⟩
        (fun e => nomatch e) (fun _ _ _ _ _ _ e => e.elim) hp
  refine wlp_bind (wlp_mono hc ?_)
  rintro c s1 ⟨U1, p⟩
  have pa : PostAt s U u .u32 0 False _ c s1 U1 := p
  refine wlp_bind (wlp_mono (literal_post pa.st (by omega) (fun e => nomatch e)) ?_)
  rintro m s2 ⟨⟨U2, q⟩, _, _, k2⟩
  have pb : PostAt s1 U1 (plus u [c]) .u32 1 True _ m s2 U2 := q
  have ua : 0 < plus u [c] c := by rw [plus_self pa.alive.1]; omega
  exact hK c m s2 pa.alive.1 pb.alive.1 (by rw [keep_kept pa.st k2 c ua, pa.size]) pb.size

/-- **C46 (count zero).** Tiling or repeating an array zero times does not return an empty array:
an exception is raised (operands of sizes 0 and 1). -/
theorem C46_zero_times (hev : EvOK ev) (hE : EvalOK evalVar) (hA : AllocOK alloc)
    (h : GReachable ev evalVar alloc cb s u st) (hw : WritesOK s) (a : Operand s u src) {mx : Nat} :
    (∀ r s', varTile ev evalVar alloc cb st fuel src 0 s ≠ .ok r s') ∧
    ∀ r s', varRepeat ev evalVar alloc cb st fuel src 0 mx s ≠ .ok r s' := by
  obtain ⟨U, hi⟩ := greachable_inv hev hE hA h
  have st' : St s U (plus u st) := ⟨hi.2, (writesOK_iff hi.2).1 hw⟩
  have n0 := (st'.alive (plus_pos_left a.held)).1
  constructor
  · intro r s' he
    refine (?_ : wlp _ s (fun _ _ => False)) r s' he
    clear he
    unfold varTile
    refine wlp_ite (fun e => absurd e n0) (fun _ => ?_)
    refine wlp_bind (wlp_getVar ?_)
    refine wlp_ite (fun _ => wlp_raise) (fun _ => ?_)
    rw [Nat.mul_zero]
    refine empty_counter st' fun c m s2 hc hm zc zm => ?_
    unfold gatherVia varMod
    refine wlp_bind (wlp_bind (wlp_mono (check_raises hc hm zc zm) fun _ _ => False.elim))
  · intro r s' he
    refine (?_ : wlp _ s (fun _ _ => False)) r s' he
    clear he
    unfold varRepeat
    refine wlp_ite (fun e => absurd e n0) (fun _ => ?_)
    refine wlp_bind (wlp_getVar ?_)
    refine wlp_ite (fun _ => wlp_raise) (fun _ => ?_)
    have : repeatSize (s.vars src).size 0 mx = 0 := by unfold repeatSize; rw [Nat.mul_zero]; split_ifs <;> omega
    rw [this]
    refine empty_counter st' fun c m s2 hc hm zc zm => ?_
    unfold gatherVia varDiv binary
    refine wlp_bind (wlp_bind (wlp_mono (check_raises hc hm zc zm) fun _ _ => False.elim))

end Verif.Gather
