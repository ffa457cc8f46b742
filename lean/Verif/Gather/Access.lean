import Verif.Gather.Elide
/-!
# Gathers from arrays in memory
-/
namespace Verif.Gather
open Verif.Var Verif.Ops

variable {s s' s'' : Store} {U U' : List Nat} {u u' ext base w : Nat → Nat} {ev : M Unit}
variable {src : Nat}

/-- Read-only pointers. -/
theorem pointer_post (h : St s U u) {b dep : Nat} {p : BitVec 64} (hd : 0 < u dep) :
    wlp (varPointer b p dep false false false) s (fun r s' =>
      Post s U u .pointer 1 True (fun _ z => z = p) r s' ∧ (s'.vars r).literal = p ∧
      ∀ k, 0 < u k → (s'.vars k).size = (s.vars k).size) := by
  unfold varPointer
  have al := h.alive hd
  refine wlp_ite (fun e => nomatch e) (fun _ => ?_)
  refine wlp_bind (wlp_incRef al.1 (wlp_mono (incV h.inv al h.wok) ?_))
  rintro _ s1 ⟨i1, w1, f1, z1, se1, al1⟩
  refine wlp_bind (wlp_getStore ?_)
  refine wlp_bind (wlp_modify ?_)
  have e : plus (plus u s.sideEffects) [0, 0, 0, dep] = plus (plus u s.sideEffects) [dep] := by
    simp only [plus_zero]
  refine wlp_bind (wlp_mono (varNew_post (ext := plus u s.sideEffects) (U := U) (v := pointerVar b p dep false false)
    rfl rfl rfl (fun e => nomatch e)
    (by change Inv _ U (plus _ [0, 0, 0, dep]) _ _; rw [e]; exact i1.setScope 1) w1) ?_)
  rintro r s2 ⟨U2, a1, a2, a3, a4, a5, a6, a7⟩
  refine wlp_bind (wlp_modify (wlp_pure ?_))
  have k1 : (s2.vars r).kind = .literal := congrArg Key.kind a4
  have k2 : (s2.vars r).type = .pointer := congrArg Key.type a4
  have k3 : (s2.vars r).literal = p := congrArg Key.literal a4
  have F : Frame (plus u s.sideEffects) s U { s2 with scope := s1.scope } U2 := (f1 _).trans (Frame.setScope a2)
  have sz : ∀ k, 0 < u k → (s2.vars k).size = (s.vars k).size ∧
      ((s.vars k).isDirty = false → (s2.vars k).isDirty = false) := by
    intro k hk
    obtain ⟨b1, b2⟩ := a7 k ((al1 k).2 (h.alive hk))
    exact ⟨b1.trans (z1 k).1, fun e => b2 (by show (s1.vars k).isDirty = false; rw [(z1 k).2]; exact e)⟩
  have np : ∀ x : BitVec 64, norm .pointer x = x := by
    intro x
    unfold norm
    have : VType.pointer.bits = 64 := rfl
    rw [this]
    simp
  refine ⟨⟨U2, ⟨IInv.of_frame (a1.setScope _) F, a5⟩, F.user, a3, k2, congrArg Key.size a4, a6, ?_, fun _ => k1, ?_,
    .same sz⟩, k3, fun k hk => (sz k hk).1⟩
  · intro _
    show norm (s2.vars r).type (s2.vars r).literal = (s2.vars r).literal
    rw [k2, np]
  · rintro l z rfl
    have := Val.literal (s := { s2 with scope := s1.scope }) (i := r) (l := l) k1
    dsimp only at this
    rwa [k2, k3, np] at this

theorem node3_sizes (h : St s U u) {b : Nat} {k : Kind} {t : VType} {n : Nat} {Q : Nat → Prop} {sy : Bool}
    {a0 a1 a2 : Nat} {p : BitVec 64} (h0 : Operand s u a0) (h1 : Operand s u a1) (h2 : Operand s u a2)
    (hk' : k ≠ .evaluated) : wlp (newNode3 ev b k t n sy a0 a1 a2 p) s (fun _ s' => Sizes Q s U s') := by
  unfold newNode3
  refine wlp_clean (by simp [h0.clean, h1.clean, h2.clean]) ?_
  have al0 := h.alive h0.held
  have al1 := h.alive h1.held
  have al2 := h.alive h2.held
  refine wlp_bind (wlp_mono (incV h.inv al0 h.wok) ?_)
  rintro _ s1 ⟨i1, w1, f1, z1, se1, q1⟩
  refine wlp_bind (wlp_mono (incV i1 ((q1 _).2 al1) w1) ?_)
  rintro _ s2 ⟨i2, w2, f2, z2, se2, q2⟩
  refine wlp_bind (wlp_mono (incV i2 ((q2 _).2 ((q1 _).2 al2)) w2) ?_)
  rintro _ s3 ⟨i3, w3, f3, z3, se3, q3⟩
  have e : plus (plus u s.sideEffects) [a0, a1, a2, 0] =
      plus (plus (plus (plus u s.sideEffects) [a0]) [a1]) [a2] := by
    rw [plus4']; simp only [plus_zero1]
  refine wlp_mono (varNew_post (ext := plus u s.sideEffects) (U := U) rfl rfl rfl hk'
    (by change Inv s3 U (plus _ [a0, a1, a2, 0]) _ _; rw [e]; exact i3) w3) ?_
  rintro r s4 ⟨U', _, _, _, _, _, _, a7⟩
  exact fun k hk => .inl ((a7 k ((q3 k).2 ((q2 k).2 ((q1 k).2 hk)))).1.trans
    ((z3 k).1.trans ((z2 k).1.trans (z1 k).1)))

/-- The creation of a gather node.  The source is in memory. -/
theorem gatherNode_post {stack : List Nat} {idx mask n N : Nat} {sinfo info : OpInfo} (h : St s U u)
    (osrc : Operand s u src) (hke : (s.vars src).kind = .evaluated) (hs1 : (s.vars src).size ≠ 1)
    (hs : (s.vars src).size < 2 ^ 32)
    (hst : sinfo.type = (s.vars src).type) (oidx : Operand s u idx)
    (itype : (s.vars idx).type.isInt = true) (qi : GSize n N (s.vars idx).size) (omask : Operand s u mask)
    (mtype : (s.vars mask).type = .bool) (qm : GSize n N (s.vars mask).size) (hstk : StackOK s u stack)
    (qt : usable s stack n ≠ 0 → GSize n N (s.vars (usable s stack n)).size) (hn : info.size = n) (hpos : 0 < n)
    (hN0 : usable s stack n = 0 → N = n) (hN : max n (applySize s stack mask n) = N) :
    wlp (gatherNode ev stack sinfo info src idx mask) s (fun r s' => ∃ U',
      GAt (GSize n N) s U u u (s.vars src).type N (GV s stack src idx mask n) r s' U') := by
  have gn : GSize n N n := .inr (.inl rfl)
  have gN : GSize n N N := .inr (.inr rfl)
  have hmz : usable s stack n = 0 → (s.vars mask).size ≤ n := by
    intro e; have := hN0 e; unfold GSize at qm; omega
  have hap : GSize n N (applySize s stack mask n) := by
    have := omask.sized
    unfold GSize at *
    by_cases h0 : usable s stack n = 0
    · have := hN0 h0
      unfold applySize at *
      rw [if_pos h0] at *
      omega
    · have := qt h0
      unfold applySize at *
      rw [if_neg h0] at *
      omega
  have hap0 : 0 < applySize s stack mask n := by
    have := omask.sized
    unfold applySize; split <;> omega
  unfold gatherNode
  rw [hn]
  refine wlp_bind (wlp_mono (wlp_and (maskApply_post h omask hstk hpos hmz)
    (maskApply_sizes (Q := GSize n N) h omask hstk hpos hmz gn qm qt)) ?_)
  rintro m2 s1 ⟨⟨U1, p⟩, z1⟩
  have p : PostAt _ _ _ _ _ _ _ m2 s1 U1 := p
  refine wlp_bind (wlp_getVar ?_)
  refine wlp_bind (wlp_mono (pointer_post p.st (plus_pos_left osrc.held)) ?_)
  rintro p2 s2 ⟨⟨U2, q⟩, lq, zq⟩
  have q : PostAt _ _ _ _ _ _ _ p2 s2 U2 := q
  have oi2 := q.keep p.st (p.keep h oidx)
  have smi : Same s s2 idx := (p.same h oidx.held).trans (q.same p.st (plus_pos_left oidx.held))
  have it2 : (s2.vars idx).type.isInt = true := by rw [smi.type]; exact itype
  have nv : (s2.vars idx).type ≠ .void := (isInt_ne it2).1
  have e2 : Evo (GSize n N) (fun _ => False) u s U s2 U2 :=
    (p.evo (fun k hk => z1 k (hk.resolve_right id))).trans
      ((q.evo (fun k hk => .inl (zq k (hk.resolve_right id)))).mono fun _ => plus_pos_left)
  unfold gatherIndex
  refine wlp_bind (wlp_bind (wlp_getVar (wlp_bind (wlp_getVar ?_))))
  rw [if_neg (by rw [it2]; decide)]
  generalize ht : (if (s2.vars src).size > 2147483647 ∧ isLlvm (s2.vars src).backend = true then VType.u64 else .u32) = t
  have ht' : t = .u32 ∨ t = .u64 := by rw [← ht]; split <;> simp
  have hti : t.isInt = true := by rcases ht' with rfl | rfl <;> rfl
  refine wlp_mono (wlp_and (cast_post q.st (target := t) (re := false) oi2 nv (.inr ⟨rfl, .inl it2, .inl hti⟩))
    (cast_sizes (Q := fun _ => False) q.st oi2 nv)) ?_
  rintro i2 s3 ⟨⟨U3, c⟩, z3⟩
  have c : PostAt _ _ _ _ _ _ _ i2 s3 U3 := c
  have e3 : Evo (GSize n N) (fun _ => False) u s U s3 U3 :=
    e2.trans ((c.evo (fun k hk => (z3 k (q.st.alive (hk.resolve_right id))).imp id fun e => e.1.elim)).mono fun _ hk =>
      plus_pos_left (plus_pos_left hk))
  refine wlp_bind (wlp_getVar ?_)
  have om1 : Operand s1 (plus u [m2]) m2 := p.operand hap0
  have om3 := c.keep q.st (q.keep p.st om1)
  have smm : Same s1 s3 m2 := (q.same p.st om1.held).trans (c.same q.st (plus_pos_left om1.held))
  have op2 : Operand s2 (plus (plus u [m2]) [p2]) p2 := q.operand Nat.one_pos
  have op3 := c.keep q.st op2
  have smp := c.same q.st op2.held
  have oi3 : Operand s3 (plus (plus (plus u [m2]) [p2]) [i2]) i2 := c.operand oi2.sized
  have zm : (s3.vars m2).size = applySize s stack mask n := by
    have a := (z3 m2 (q.st.alive (plus_pos_left om1.held))).resolve_right fun e => e.1
    rw [a, zq m2 om1.held, p.size]
  rw [zm, hN, hst]
  have mem3 : s3.mem = s.mem := by
    have := congrArg (·.1) e3.frame.env
    exact this
  have lp3 : (s3.vars p2).literal = (s1.vars src).literal := by
    rw [(body_fields smp.body).2.2.1, lq]
  have ls : (s1.vars src).literal = (s.vars src).literal := (body_fields (p.same h osrc.held).body).2.2.1
  refine wlp_bind (wlp_mono (wlp_and (node3_gen (V := GV s stack src idx mask n) c.st op3 oi3 om3
    (k := .gather) (by decide) (by decide) ?_)
    (node3_sizes (Q := GSize n N) c.st op3 oi3 om3 (by decide))) ?_)
  · rintro s4 r ⟨hk, htp, hrd, h0, h1, h2, hmem, hsame⟩ l z ⟨hl, x, hx, hz⟩
    have h0 : (s4.vars r).d0 = p2 := h0
    have h1 : (s4.vars r).d1 = i2 := h1
    have h2 : (s4.vars r).d2 = m2 := h2
    obtain ⟨n0, m0⟩ := hsame p2 (by simp)
    obtain ⟨n1, m1⟩ := hsame i2 (by simp)
    obtain ⟨n2, m2'⟩ := hsame m2 (by simp)
    obtain ⟨X, eX, hX⟩ := idx_cast it2 ht' x
    have vX : Val s4 (s4.vars r).d1 l X := by
      rw [h1]; exact m1.val _ _ (c.val ⟨x, smi.val _ _ hx.1.1, eX⟩)
    have vm : ∀ y, (∃ y', Val s mask l y' ∧ (usable s stack n = 0 → y = y') ∧ (usable s stack n ≠ 0 →
        ∃ w, Val s (usable s stack n) l w ∧ y = masked y' w)) → Val s4 (s4.vars r).d2 l y := by
      intro y hy
      rw [h2]; exact m2'.val _ _ (smm.val _ _ (p.val hy))
    rcases hz with ⟨hm1, htop, b, eb, hb, hv⟩ | ⟨hm0, htop, rfl⟩
    · have := vm 1#64 ⟨1#64, hm1.1.1, fun _ => rfl, fun e => ⟨1#64, (htop e).1.1, rfl⟩⟩
      have V := Val.gatherOn hk hrd (by rw [h0]; exact n0) (by rw [h1]; exact n1) (by rw [h2]; exact n2)
        (by rw [h0, m0.kind, smp.kind]; exact q.literal trivial) vX this rfl
      have hvz := hv.1.1.unique (Val.evaluated hke)
      rw [if_neg hs1] at hvz
      rw [h0, (body_fields m0.body).2.2.1, lp3, ls, hX b (by rw [smi.type]; exact eb) (by omega), htp, hmem, mem3,
        ← hvz] at V
      exact V
    · obtain ⟨y, hy⟩ : ∃ y, usable s stack n ≠ 0 → Val s (usable s stack n) l y := by
        by_cases h0 : usable s stack n = 0
        · exact ⟨0#64, fun e => absurd h0 e⟩
        · obtain ⟨y, hy⟩ := htop h0; exact ⟨y, fun _ => hy.1.1⟩
      have := vm 0#64 ⟨0#64, hm0.1.1, fun _ => rfl, fun e => ⟨y, hy e, (masked_bool y rfl).symm⟩⟩
      exact Val.gatherOff hk hrd (by rw [h2]; exact n2) this rfl
  rintro r s4 ⟨⟨U4, f⟩, z4⟩
  have f : PostAt _ _ _ _ _ _ _ r s4 U4 := f
  have G : GAt (GSize n N) s U u (plus (plus (plus u [m2]) [p2]) [i2]) (s.vars src).type N
      (GV s stack src idx mask n) r s4 U4 :=
    ⟨f.st, e3.trans ((f.evo (fun k hk => z4 k (c.st.alive (hk.resolve_right id)))).mono fun k hk =>
        plus_pos_left (plus_pos_left (plus_pos_left hk))), f.alive.1, f.type, f.size, f.clean, f.litOK,
      fun _ _ => f.val⟩
  refine wlp_bind (wlp_mono (G.drop fun k hk => plus_pos_left (plus_pos_left hk)) ?_)
  rintro _ s5 ⟨U5, G⟩
  refine wlp_bind (wlp_mono (G.drop fun k hk => plus_pos_left hk) ?_)
  rintro _ s6 ⟨U6, G⟩
  refine wlp_bind (wlp_mono (G.drop fun k hk => hk) ?_)
  rintro _ s7 ⟨U7, G⟩
  exact wlp_pure ⟨U7, G⟩

/-- Arrays in memory. -/
theorem memMap_post (h : St s U u) {b n : Nat} {t : VType} {p : BitVec 64} {fr : Bool} (hn : 0 < n) :
    wlp (varMemMap b t p n fr) s (fun r s' => Post s U u t n False
      (fun l z => z = norm t (s.mem p (if n = 1 then 0 else l))) r s' ∧ Keep s U s') := by
  unfold varMemMap
  refine wlp_ite (fun e => absurd e (by omega)) (fun _ => ?_)
  refine wlp_ite (fun _ => wlp_raise) (fun _ => ?_)
  refine wlp_mono (wlp_of_wp (varNew_leaf_spec rfl rfl ⟨rfl, rfl, rfl, rfl⟩ h.inv (R := fun _ => True))) ?_
  rintro r s' ⟨U', a1, a2, a3, a4, a5⟩
  have k1 : (s'.vars r).kind = .evaluated := congrArg Key.kind a4
  have k2 : (s'.vars r).type = t := congrArg Key.type a4
  have k3 : (s'.vars r).literal = p := congrArg Key.literal a4
  have k4 : (s'.vars r).size = n := congrArg Key.size a4
  rcases a5 with ⟨e, _⟩ | ⟨_, hr, _, c1, c2, hne⟩
  · simp [useLvn] at e
  have hc : (s'.vars r).refCountSe = 0 := by rw [hr]; rfl
  have live : ∀ k, Alive s U k → k ≠ r := by
    rintro k hk rfl
    have := h.inv.counts_pos hk
    omega
  have hk : Keep s U s' := fun k hk => by rw [hne k (live k hk)]; exact ⟨rfl, id⟩
  refine ⟨⟨U', ⟨IInv.of_frame a1 a2, ?_⟩, a2.user, a3, k2, k4, by simp [Var.isDirty, hc], ?_, False.elim, ?_,
    hk.held h⟩, hk⟩
  · intro i hi
    by_cases e : i = r
    · subst e; omega
    · rw [hne i e] at hi ⊢
      exact h.wok i hi
  · intro e; rw [k1] at e; cases e
  · rintro l z rfl
    have := Val.evaluated (s := s') (i := r) (l := l) k1
    rwa [k2, k3, k4, Frame.mem a2] at this

theorem Inv.poke {P : List Nat} {extSe : Nat → Nat} (h : Inv s U ext extSe P) (p x : BitVec 64) :
    Inv (s.poke p x) U ext extSe P :=
  ⟨h.rep, h.ub, h.len, h.dead, h.deps, h.uids, h.rc, h.rcSe, h.pend, h.nodup, h.lvn, h.lvnKeys, h.bal⟩

/-- A new variable `r` of the given type, size and values, in addition to the references `w`. -/
structure RAt (Q : Nat → Prop) (s : Store) (base w : Nat → Nat) (t : VType) (n : Nat)
    (V : Nat → BitVec 64 → Prop) (r : Nat) (s' : Store) (U' : List Nat) : Prop where
  st : St s' U' (plus w [r])
  obs : Obs Q base s s'
  ne : r ≠ 0
  type : (s'.vars r).type = t
  size : (s'.vars r).size = n
  clean : (s'.vars r).isDirty = false
  lit : LitOK (s'.vars r)
  val : ∀ l z, V l z → Val s' r l z

theorem GAt.rat {Q : Nat → Prop} {t : VType} {n r : Nat} {V : Nat → BitVec 64 → Prop} (h : St s U base)
    (g : GAt Q s U base w t n V r s' U') : RAt Q s base w t n V r s' U' :=
  ⟨g.st, Evo.obs h g.st g.evo, g.ne, g.type, g.size, g.clean, g.lit, g.val⟩

theorem RAt.before {Q : Nat → Prop} (hQ : Top2 Q) {t : VType} {n r : Nat} {V V' : Nat → BitVec 64 → Prop}
    (o : Obs Q base s s') (g : RAt Q s' base w t n V r s'' U') (hV : ∀ l z, V' l z → V l z) :
    RAt Q s base w t n V' r s'' U' :=
  ⟨g.st, o.trans hQ g.obs, g.ne, g.type, g.size, g.clean, g.lit, fun l z e => g.val l z (hV l z e)⟩

theorem RAt.drop {Q : Nat → Prop} (hQ : Top2 Q) {t : VType} {n r d : Nat} {V : Nat → BitVec 64 → Prop}
    (g : RAt Q s base (plus w [d]) t n V r s' U') (hb : ∀ k, 0 < base k → 0 < w k) :
    wlp (decRef d) s' (fun _ s1 => ∃ U1, RAt Q s base w t n V r s1 U1) := by
  have st : St s' U' (plus (plus w [r]) [d]) := by rw [plus_comm]; exact g.st
  refine wlp_mono (decRef_post st) ?_
  rintro _ s1 ⟨U1, b1, b2, b3, b4⟩
  have hr : 0 < plus w [r] r := by rw [plus_self g.ne]; omega
  have al : Alive s' U' r := st.alive (plus_pos_left hr)
  obtain ⟨_, sm⟩ := same_of st b1 b2 hr al
  have o1 : Obs Q (plus w [r]) s' s1 :=
    ⟨fun k hk => (same_of st b1 b2 hk (st.alive (plus_pos_left hk))).2.type, fun k _ => .inl (b3.2 k),
      fun k _ => b4 k, fun k hk e => e.body (same_of st b1 b2 hk (st.alive (plus_pos_left hk))).2.body,
      fun k hk l x c _ hv => entry_frame st b1 b2 hk (st.alive (plus_pos_left hk)) c hv⟩
  exact ⟨U1, b1, g.obs.trans hQ (o1.mono fun k hk => plus_pos_left (hb k hk)), g.ne,
    by rw [sm.type, g.type], by rw [b3.2, g.size], b4 r g.clean, g.lit.body sm.body,
    fun l z h => sm.val l z (g.val l z h)⟩

theorem norm_bool_lit {v : Var} (h : LitOK v) (hk : v.kind = .literal) (ht : v.type = .bool) (h0 : v.literal ≠ 0#64) :
    norm v.type v.literal = 1#64 := by
  have := h hk
  rw [this]
  rw [ht] at this
  exact (norm_bool this).resolve_left h0

theorem pos_lit {t : VType} {y : BitVec 64} {b : Nat} (hy : norm t y = y) (e : cInt t y = b) : y.toNat = b := by
  have h : (y.setWidth t.bits).toNat = b := by
    unfold cInt at e
    have hlt := (y.setWidth t.bits).isLt
    by_cases hs : t.isSint = true
    · rw [if_pos hs, BitVec.toInt_eq_toNat_cond] at e
      split at e
      · exact_mod_cast e
      · have : ((y.setWidth t.bits).toNat : Int) < ((2 ^ t.bits : Nat) : Int) := by exact_mod_cast hlt
        omega
    · rw [if_neg hs] at e
      exact_mod_cast e
  rw [← hy]
  unfold norm
  rw [BitVec.toNat_setWidth, h]
  have h1 := (y.setWidth t.bits).isLt
  have h2 : 2 ^ t.bits ≤ 2 ^ 64 := Nat.pow_le_pow_right (by omega) (bits_le t)
  exact Nat.mod_eq_of_lt (by omega)

theorem reads_poke {p x : BitVec 64} {k j : Nat} (h : Reads (s.poke p x) k j) : Reads s k j := by
  induction h with
  | root => exact .root
  | dep _ h1 h2 h3 ih => exact .dep ih h1 h2 h3

theorem entry_poke {p x v : BitVec 64} {k l : Nat} (hv : Val s k l v → Val (s.poke p x) k l v)
    (h : Entry s k l v) : Entry (s.poke p x) k l v :=
  ⟨hv h.1, fun j hj => h.2 j (reads_poke hj)⟩

/-- Reading one entry. -/
theorem gatherScalar_post {alloc : M (BitVec 64)} {stack : List Nat} {idx mask : Nat} {sinfo : OpInfo}
    (hA : AllocOK alloc) (h : St s U u) {Q : Nat → Prop} (hQ : Top2 Q)
    (hke : (s.vars src).kind = .evaluated) (hs1 : (s.vars src).size ≠ 1)
    (hst : sinfo.type = (s.vars src).type) (oi : Operand s u idx) (hil : (s.vars idx).kind = .literal)
    (om : Operand s u mask) (hml : (s.vars mask).kind = .literal)
    (hm : (s.vars mask).type = .bool) (hm0 : (s.vars mask).literal ≠ 0#64) :
    wlp (gatherScalar alloc sinfo src idx) s (fun r s' => ∃ U',
      RAt Q s u u (s.vars src).type 1 (GV s stack src idx mask 1) r s' U') := by
  unfold gatherScalar
  refine wlp_bind (wlp_getVar (wlp_bind (wlp_getVar ?_)))
  refine wlp_ite (fun _ => wlp_raise) (fun _ => ?_)
  refine wlp_bind ?_
  intro p s1 e1
  obtain ⟨rfl, hv⟩ := hA s U u h.inv p s1 e1
  refine wlp_bind (wlp_modify ?_)
  generalize hx : s1.mem (s1.vars src).literal (s1.vars idx).literal.toNat = x
  have h' : St (s1.poke p x) U u := ⟨Inv.poke h.inv p x, h.wok⟩
  have o1 : Obs Q u s1 (s1.poke p x) := ⟨fun _ _ => rfl, fun _ _ => .inl rfl, fun _ _ => id, fun _ _ => id,
    fun k hk l v _ _ hh => entry_poke (hv k hk l x v) hh⟩
  refine wlp_mono (memMap_post h' Nat.one_pos) ?_
  rintro r s2 ⟨⟨U2, q⟩, hk⟩
  have q : PostAt _ _ _ _ _ _ _ r s2 U2 := q
  have G := (q.gat (Q := Q) (fun k hu => .inl (hk k (h'.alive hu)).1)).rat h'
  rw [hst] at G
  refine ⟨U2, G.before hQ o1 ?_⟩
  rintro l z ⟨hl, y, hy, hz⟩
  have hmv := norm_bool_lit om.lit hml hm hm0
  rcases hz with ⟨_, _, b, eb, hb, hval⟩ | ⟨hm0', _, rfl⟩
  · have hvz := hval.1.1.unique (Val.evaluated hke)
    rw [if_neg hs1] at hvz
    have ey := hy.1.1.unique (Val.literal hil)
    rw [oi.lit hil] at ey
    have hyn := hy.1.1.norm
    have eb' : (s1.vars idx).literal.toNat = b := by
      rw [← ey]; exact pos_lit hyn eb
    show z = norm (s1.vars src).type (if p = p ∧ (if 1 = 1 then 0 else l) = 0 then x else _)
    rw [if_pos ⟨rfl, rfl⟩, hvz, ← hx, eb']
  · have := hm0'.1.1.unique (Val.literal hml)
    rw [hmv] at this
    cases this

end Verif.Gather
