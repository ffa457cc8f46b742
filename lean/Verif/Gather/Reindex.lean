import Verif.Gather.Good
import Verif.Gather.Sizes
/-!
# Specification of `jitc_var_reindex()`
-/
namespace Verif.Gather
open Verif.Var Verif.Ops

variable {s s' : Store} {U U' : List Nat} {u u' ext base : Nat → Nat} {ev : M Unit}
variable {s0 : Store} {U0 : List Nat} {u0 : Nat → Nat} {src ni mk size : Nat} {P Q : Nat → Prop}

/-- The new operand `j` of node `i`. -/
def DepOK (s0 : Store) (ni mk : Nat) (Q : Nat → Prop) (i : Nat) (s : Store) (dep : Nat → Nat) (j : Nat) : Prop :=
  ((s0.vars i).dep j = 0 ∧ dep j = 0) ∨
  ((s0.vars i).dep j ≠ 0 ∧ Good s0 ni mk Q s (dep j) ((s0.vars i).dep j) ∧
    (¬ ((s0.vars i).kind = .gather ∧ j = 2) → GoodL s0 ni mk Q s (dep j) ((s0.vars i).dep j)))

abbrev depList (dep : Nat → Nat) : List Nat := [dep 0, dep 1, dep 2, dep 3]

theorem dep_memList (dep : Nat → Nat) {j : Nat} (hj : j < 4) : dep j ∈ depList dep := by
  have : j = 0 ∨ j = 1 ∨ j = 2 ∨ j = 3 := by omega
  rcases this with rfl | rfl | rfl | rfl <;> simp [depList]

theorem DepOK.next {i j : Nat} {dep : Nat → Nat} (hj : j < 4) (d : DepOK s0 ni mk Q i s dep j)
    (h : St s U u) (h' : St s' U' u') (e : Evo Q P base s U s' U')
    (hu : dep j ≠ 0 → 0 < u (dep j)) (hb : dep j ≠ 0 → 0 < base (dep j)) :
    DepOK s0 ni mk Q i s' dep j := by
  rcases d with d | ⟨d1, d2, d3⟩
  · exact .inl d
  · have hu := hu d2.ne
    have hb := hb d2.ne
    exact .inr ⟨d1, d2.next h h' e hb (h.alive hu), fun hn => (d3 hn).next h h' e hb (h.alive hu)⟩

/-- The facts about node `i` of the expression in the current state. -/
theorem part_now (c : Ctx s0 U0 u0 src ni mk Q size) (h : St s U u) (e : Evo Q (Part s0 src) u0 s0 U0 s U) {i : Nat}
    (hp : Part s0 src i) : Alive s U i ∧ Same s0 s i :=
  ⟨(part_same c.st c.held c.typed h e.frame hp).2.1, (part_same c.st c.held c.typed h e.frame hp).2.2.2⟩

/-- The result of `reindexEnd` before the references are released. -/
def EndPost (s0 : Store) (src ni mk : Nat) (Q : Nat → Prop) (i : Nat) (w : Nat → Nat) (s : Store) (U : List Nat) (r : Nat) (s' : Store) :
    Prop :=
  ∃ U', St s' U' (plus w [r]) ∧ Evo Q (Part s0 src) w s U s' U' ∧ GoodL s0 ni mk Q s' r i

/-- The index replaces counters. -/
theorem counter_good (c : Ctx s0 U0 u0 src ni mk Q size) (h : St s U u) (e : Evo Q (Part s0 src) u0 s0 U0 s U) {i : Nat}
    (hp : Part s0 src i) (hk : (s0.vars i).kind = .counter) : GoodL s0 ni mk Q s ni i := by
  have al := c.st.alive c.idx.held
  obtain ⟨_, sm⟩ := same_of c.st h e.frame c.idx.held al
  have z := e.size ni (.inl c.idx.held)
  refine ⟨⟨al.1, by rw [sm.type, c.idxt, c.typed.counter i hp hk],
    Nat.lt_of_lt_of_le c.idx.sized z.grow, z.mem c.idxs,
    e.clean _ c.idx.held c.idx.clean, c.idx.lit.body sm.body, ?_, ?_⟩, fun hl => ?_⟩
  · intro l X v _ hX hv
    have e1 := hv.unique (Val.counter (s := s0) (i := i) (l := X.toNat) hk)
    rw [BitVec.ofNat_toNat, BitVec.setWidth_eq, c.typed.counter i hp hk] at e1
    have e2 := hX.norm
    rw [c.idxt] at e2
    rw [e1, e2]
    exact sm.val _ _ hX
  · intro _ l X y hX _
    exact ⟨X, sm.val _ _ hX⟩
  · rw [hk] at hl; cases hl

/-- Literals do not depend on the index. -/
theorem literal_good {i r : Nat} (hk : (s0.vars i).kind = .literal) (hk' : (s.vars r).kind = .literal)
    (ht : (s.vars r).type = (s0.vars i).type) (hl : (s.vars r).literal = (s0.vars i).literal) :
    (∀ l X v, Val s0 mk l 1#64 → Val s0 ni l X → Val s0 i X.toNat v → Val s r l v) ∧
    (Total s0 i → ∀ l X y, Val s0 ni l X → Val s0 mk l y → ∃ v, Val s r l v) := by
  have q : ∀ l, Val s r l (norm (s0.vars i).type (s0.vars i).literal) := by
    intro l
    rw [← ht, ← hl]
    exact .literal hk'
  refine ⟨fun l X v _ _ hv => ?_, fun _ l _ _ _ _ => ⟨_, q l⟩⟩
  rw [hv.unique (Val.literal hk)]
  exact q l

/-- Operands of the node and of its replacement. -/
theorem deps_good {i r : Nat} {dep : Nat → Nat} (hd : ∀ j, j < 4 → DepOK s0 ni mk Q i s dep j)
    (he : ∀ j, j < 4 → (s.vars r).dep j = dep j) :
    (∀ j, j < 3 → (s0.vars i).dep j ≠ 0 → (s.vars r).dep j ≠ 0 ∧
      Good s0 ni mk Q s ((s.vars r).dep j) ((s0.vars i).dep j)) ∧
    ((s0.vars i).kind = .gather → (s0.vars i).d0 ≠ 0 →
      GoodL s0 ni mk Q s (s.vars r).d0 (s0.vars i).d0) := by
  constructor
  · intro j hj h0
    rw [he j (by omega)]
    rcases hd j (by omega) with ⟨a, _⟩ | ⟨_, b, _⟩
    · exact absurd a h0
    · exact ⟨b.ne, b⟩
  · intro _ h0
    have e0 : (s.vars r).d0 = dep 0 := he 0 (by omega)
    rw [e0]
    rcases hd 0 (by omega) with ⟨a, _⟩ | ⟨_, _, b⟩
    · exact absurd a h0
    · exact b (fun h => absurd h.2 (by omega))

/-- The end of `jitc_var_reindex()`. -/
theorem reindexEnd_post (c : Ctx s0 U0 u0 src ni mk Q size) {i : Nat} {w : Nat → Nat} {dep : Nat → Nat}
    {rb : Bool} (hsub : ∀ k, 0 < u0 k → 0 < w k) (h : St s U (plus w (depList dep)))
    (e : Evo Q (Part s0 src) u0 s0 U0 s U) (hp : Part s0 src i) (n2 : (s0.vars i).kind ≠ .evaluated)
    (n4 : (s0.vars i).kind ≠ .defaultMask)
    (hd : (s0.vars i).kind ≠ .literal → ∀ j, j < 4 → DepOK s0 ni mk Q i s dep j)
    (hl : (s0.vars i).kind = .literal → ∀ j, dep j = 0)
    (hrb : rb = false → (0 < (s.vars i).size ∧ Q (s.vars i).size) ∧
      ((s0.vars i).kind ≠ .literal → ∀ j, j < 4 → dep j = (s0.vars i).dep j)) :
    wlp (reindexEnd ni i size dep rb) s (fun r s' => ∃ U', St s' U' (plus (plus w [r]) [r]) ∧
      Evo Q (Part s0 src) w s U s' U' ∧ GoodL s0 ni mk Q s' r i) := by
  obtain ⟨ali, smi⟩ := part_now c h e hp
  have hdep : ∀ j, j < 4 → dep j ≠ 0 → 0 < plus w (depList dep) (dep j) :=
    fun j hj h0 => plus_apply_pos h0 (dep_memList dep hj)
  -- the common end
  have fin : ∀ r s1, EndPost s0 src ni mk Q i (plus w (depList dep)) s U r s1 →
      wlp (do incRef r; dropDeps dep; pure r) s1 (fun r s' => ∃ U', St s' U' (plus (plus w [r]) [r]) ∧
        Evo Q (Part s0 src) w s U s' U' ∧ GoodL s0 ni mk Q s' r i) := by
    rintro r s1 ⟨U1, a1, a2, a3⟩
    have hr : 0 < plus (plus w (depList dep)) [r] r := by rw [plus_self a3.good.ne]; omega
    have alr := a1.alive hr
    refine wlp_bind (wlp_mono (inc_any (Q := Q) (P := Part s0 src) a1 (.inr alr)) ?_)
    rintro _ s2 ⟨b1, b2, b3, b4⟩
    have b1' : St s2 U1 (plus (plus (plus w [r]) [r]) [dep 0, dep 1, dep 2, dep 3]) := by
      rw [plus_comm (u := plus w [r]), plus_comm (u := w)]; exact b1
    refine wlp_bind (wlp_mono (dropDeps_post (Q := Q) (P := Part s0 src) b1') ?_)
    rintro _ s3 ⟨U3, d1, d2⟩
    have hr3 : 0 < plus (plus w [r]) [r] r := by rw [plus_self a3.good.ne]; omega
    refine wlp_pure ⟨U3, d1, ?_, ?_⟩
    · exact ((a2.mono fun k hk => plus_pos_left hk).trans (b2 w)).trans
        (d2.mono fun k hk => plus_pos_left (plus_pos_left hk))
    · have g2 := a3.next a1 b1 (b2 (fun _ => 1)) Nat.one_pos alr
      exact g2.next b1 d1 d2 hr3 ((b4 r).2 alr)
  have e3 : Evo Q (Part s0 src) u0 s0 U0 s U := e
  unfold reindexEnd
  refine wlp_bind (wlp_getVar ?_)
  rw [smi.kind]
  dsimp only
  refine wlp_ite (fun hk => ?_) (fun hk => wlp_ite (fun hb => ?_) (fun hb => ?_))
  · -- counter
    have hni : Alive s U ni := (same_of c.st h e.frame c.idx.held (c.st.alive c.idx.held)).1
    refine wlp_bind (wlp_mono (inc_any (Q := Q) (P := Part s0 src) h (.inr hni)) ?_)
    rintro _ s1 ⟨a1, a2, a3, a4⟩
    refine wlp_bind (wlp_pure ?_)
    exact fin ni s1 ⟨U, a1, a2 _, counter_good c a1 (e.trans (a2 _)) hp hk⟩
  · -- new node
    refine wlp_bind (wlp_mono (takeDeps_post (Q := Q) (P := Part s0 src) (dep := dep) h ?_) ?_)
    · intro j hj
      by_cases h0 : dep j = 0
      · exact .inl h0
      · exact .inr (h.alive (hdep j hj h0))
    rintro _ s1 ⟨a1, a2, a3, a4⟩
    have nev : (s0.vars i).kind ≠ .evaluated := n2
    have i1 : Inv s1 U (plus (plus (plus w (depList dep)) s1.sideEffects) [dep 0, dep 1, dep 2, dep 3])
        (fun _ => 0) [] := by
      rw [plus_comm]; exact a1.inv
    refine wlp_bind (wlp_mono (varNew_post (ext := plus (plus w (depList dep)) s1.sideEffects) (U := U)
      rfl rfl rfl nev i1 a1.wok) ?_)
    rintro r s2 ⟨U2, b1, b2, b3, b4, b5, b6, b7⟩
    have st2 : St s2 U2 (plus (plus w (depList dep)) [r]) := ⟨IInv.of_frame b1 b2, b5⟩
    have ev2 : Evo Q (Part s0 src) (plus w (depList dep)) s1 U s2 U2 :=
      ⟨b2.user, fun k hk => .inl (b7 k (by
        rcases hk with hk | hk
        · exact (a4 k).2 (h.alive hk)
        · exact (part_now c a1 (e.trans (a2 _)) hk).1)).1, fun k hk => (b7 k ((a4 k).2 (h.alive hk))).2⟩
    have ev : Evo Q (Part s0 src) (plus w (depList dep)) s U s2 U2 := (a2 _).trans ev2
    have k1 : (s2.vars r).kind = (s0.vars i).kind := congrArg Key.kind b4
    have k2 : (s2.vars r).type = (s0.vars i).type := by rw [← smi.type]; exact congrArg Key.type b4
    have k3 : (s2.vars r).literal = (s0.vars i).literal := by
      rw [← (body_fields smi.body).2.2.1]; exact congrArg Key.literal b4
    have k4 : (s2.vars r).size = size := congrArg Key.size b4
    have k5 : (s2.vars r).writePtr = false := congrArg Key.writePtr b4
    have k6 : ∀ j, j < 4 → (s2.vars r).dep j = dep j := by
      intro j hj
      have : j = 0 ∨ j = 1 ∨ j = 2 ∨ j = 3 := by omega
      rcases this with rfl | rfl | rfl | rfl
      · exact congrArg Key.d0 b4
      · exact congrArg Key.d1 b4
      · exact congrArg Key.d2 b4
      · exact congrArg Key.d3 b4
    have mem2 : s2.mem = s0.mem := by rw [Frame.mem ev.frame, Frame.mem e.frame]
    have lit : LitOK (s2.vars r) := by
      have := c.typed.lit i hp
      unfold LitOK at *
      rw [k1, k2, k3]; exact this
    refine fin r s2 ⟨U2, st2, ev, ?_⟩
    have vals : (∀ l X v, Val s0 mk l 1#64 → Val s0 ni l X → Val s0 i X.toNat v → Val s2 r l v) ∧
        (Total s0 i → ∀ l X y, Val s0 ni l X → Val s0 mk l y → ∃ v, Val s2 r l v) := by
      by_cases hlit : (s0.vars i).kind = .literal
      · exact literal_good hlit (by rw [k1, hlit]) k2 k3
      · obtain ⟨g1, g2⟩ := deps_good (ni := ni) (mk := mk) (Q := Q) (s := s2) (r := r) (fun j hj =>
          (hd hlit j hj).next hj h st2 ev (hdep j hj) (hdep j hj)) k6
        exact node_good k1 k2 (fun _ => k5) mem2 hlit n2 hk n4 g1 g2
    exact ⟨⟨b3.1, k2, by rw [k4]; exact c.pos, by rw [k4]; exact c.sz, b6, lit, vals.1, vals.2⟩,
      fun hlit => ⟨by rw [k1, hlit], k3⟩⟩
  · -- unchanged
    obtain ⟨z1, z2⟩ := hrb (by simpa using hb)
    refine wlp_bind (wlp_mono (incV_any (Q := Q) (P := Part s0 src) h ali) ?_)
    rintro _ s1 ⟨a1, a2, a3, a4⟩
    refine wlp_bind (wlp_pure ?_)
    have ev1 := e.trans (a2 u0)
    obtain ⟨_, sm1⟩ := part_now c a1 ev1 hp
    refine fin i s1 ⟨U, a1, a2 _, ?_⟩
    have mem1 : s1.mem = s0.mem := Frame.mem ev1.frame
    have vals : (∀ l X v, Val s0 mk l 1#64 → Val s0 ni l X → Val s0 i X.toNat v → Val s1 i l v) ∧
        (Total s0 i → ∀ l X y, Val s0 ni l X → Val s0 mk l y → ∃ v, Val s1 i l v) := by
      by_cases hlit : (s0.vars i).kind = .literal
      · exact literal_good hlit (by rw [sm1.kind, hlit]) sm1.type (body_fields sm1.body).2.2.1
      · obtain ⟨g1, g2⟩ := deps_good (ni := ni) (mk := mk) (Q := Q) (s := s1) (r := i) (fun j hj =>
          (hd hlit j hj).next hj h a1 (a2 (plus w (depList dep))) (hdep j hj) (hdep j hj))
          (fun j hj => by rw [body_dep sm1.body j, z2 hlit j hj])
        exact node_good sm1.kind sm1.type (fun hw => by
          rw [(body_fields sm1.body).2.2.2.2.2.2.2, hw]) mem1 hlit n2 hk n4 g1 g2
    have zs : 0 < (s1.vars i).size ∧ Q (s1.vars i).size := by rw [a3]; exact z1
    exact ⟨⟨ali.1, sm1.type, zs.1, zs.2, a1.wok.clean (by rw [sm1.kind]; exact n2),
      (c.typed.lit i hp).body sm1.body, vals.1, vals.2⟩,
      fun hlit => ⟨by rw [sm1.kind, hlit], (body_fields sm1.body).2.2.1⟩⟩

/-- Result of `jitc_var_reindex()`. -/
def Done (s0 : Store) (src ni mk : Nat) (Q : Nat → Prop) (w : Nat → Nat) (s : Store) (U : List Nat) (i : Nat)
    (a : Nat × Memo) (s' : Store) : Prop :=
  ∃ U', St s' U' (plus (plus w (a.2.map Prod.snd)) [a.1]) ∧ Evo Q (Part s0 src) w s U s' U' ∧
    (∀ p ∈ a.2, Part s0 src p.1 ∧ GoodL s0 ni mk Q s' p.2 p.1) ∧
    (a.1 ≠ 0 → GoodL s0 ni mk Q s' a.1 i)

/-- Specification of the recursive call. -/
def RecOK (s0 : Store) (U0 : List Nat) (u0 : Nat → Nat) (src ni mk : Nat) (Q : Nat → Prop)
    (recur : Nat → Memo → M (Nat × Memo)) : Prop :=
  ∀ i map s U w, Run s0 U0 u0 src ni mk Q s U w map → Part s0 src i →
    wlp (recur i map) s (Done s0 src ni mk Q w s U i)

theorem depList_set {w : Nat → Nat} {dep : Nat → Nat} {k d : Nat} (hk : k < 4) (h0 : dep k = 0) :
    plus w (depList (fun j => if j = k then d else dep j)) = plus (plus w (depList dep)) [d] := by
  have : k = 0 ∨ k = 1 ∨ k = 2 ∨ k = 3 := by omega
  rcases this with rfl | rfl | rfl | rfl <;>
  · simp only [depList, h0]
    funext m
    unfold plus
    by_cases hm : m = 0
    · simp [hm]
    · simp only [if_neg hm, List.count_cons, List.count_nil, reduceIte, OfNat.ofNat_ne_zero, OfNat.zero_ne_ofNat,
        one_ne_zero, zero_ne_one, OfNat.ofNat_ne_one, OfNat.one_ne_ofNat, Nat.reduceEqDiff,
        beq_iff_eq, if_neg (fun e => hm (Eq.symm e) : ¬ 0 = m)]
      omega

/-- The conjunction of the mask of a nested gather with the mask. -/
theorem maskDep_post (c : Ctx s0 U0 u0 src ni mk Q size) {a k : Nat} {X : Nat → Nat}
    (hsub : ∀ k, 0 < u0 k → 0 < X k) (h : St s U (plus X [a])) (e : Evo Q (Part s0 src) u0 s0 U0 s U)
    (g : Good s0 ni mk Q s a k) (ht : (s0.vars k).type = .bool) :
    wlp (do let r ← varAnd ev a mk; decRef a; pure r) s (fun d s' => ∃ U', St s' U' (plus X [d]) ∧
      Evo Q (Part s0 src) X s U s' U' ∧ Good s0 ni mk Q s' d k) := by
  have ha : 0 < plus X [a] a := by rw [plus_self g.ne]; omega
  have hm : 0 < plus X [a] mk := plus_pos_left (hsub _ c.msk.held)
  obtain ⟨_, sm⟩ := same_of c.st h e.frame c.msk.held (c.st.alive c.msk.held)
  have z1 := e.size mk (.inl c.msk.held)
  have om : Operand s (plus X [a]) mk :=
    ⟨hm, Nat.lt_of_lt_of_le c.msk.sized z1.grow, e.clean _ c.msk.held c.msk.clean, c.msk.lit.body sm.body⟩
  have ta : (s.vars a).type = .bool := by rw [g.type, ht]
  have tm : (s.vars mk).type = .bool := by rw [sm.type, c.mskt]
  refine wlp_bind (wlp_mono (wlp_and (andMask_post h (g.operand ha) om (by rw [ta]; exact .inr (.inr rfl))
    tm) (and_sizes h (g.operand ha) om (by rw [ta]; decide) (by rw [tm]; decide)
    g.sz (z1.mem c.msks))) ?_)
  rintro r s1 ⟨⟨U1, p⟩, sz⟩
  have p : PostAt _ _ _ _ _ _ _ r s1 U1 := p
  have hle : Q (max (s.vars a).size (s.vars mk).size) := by
    rcases Nat.le_total (s.vars a).size (s.vars mk).size with e | e
    · rw [Nat.max_eq_right e]; exact z1.mem c.msks
    · rw [Nat.max_eq_left e]; exact g.sz
  have hpos : 0 < max (s.vars a).size (s.vars mk).size := by have := g.pos; omega
  have ev1 := p.evo (P := Part s0 src) fun k hk => sz k (hk.elim (fun hu => h.alive hu) fun hk => (part_now c h e hk).1)
  have st1 : St s1 U1 (plus (plus X [r]) [a]) := by rw [plus_comm]; exact p.st
  have g1 : Good s0 ni mk Q s1 r k := by
    refine ⟨p.alive.1, by rw [p.type, g.type], by rw [p.size]; exact hpos, by rw [p.size]; exact hle, p.clean,
      p.litOK, ?_, ?_⟩
    · intro l X v a1 a2 a3
      exact p.val ⟨v, 1#64, g.val l X v a1 a2 a3, sm.val _ _ a1, rfl⟩
    · intro hT l X y a1 a2
      obtain ⟨v, hv⟩ := g.tot hT l X y a1 a2
      exact ⟨_, p.val ⟨v, y, hv, sm.val _ _ a2, rfl⟩⟩
  refine wlp_bind (wlp_mono (decRef_post st1) ?_)
  rintro _ s2 ⟨U2, b1, b2, b3, b4⟩
  have ev2 : Evo Q (Part s0 src) (plus X [r]) s1 U1 s2 U2 := .raw b2 b3 b4
  refine wlp_pure ⟨U2, b1, (ev1.mono fun _ => plus_pos_left).trans (ev2.mono fun _ => plus_pos_left), ?_⟩
  exact g1.next st1 b1 ev2 (by rw [plus_self p.alive.1]; omega) p.alive

/-- The loop over the operands. -/
theorem depLoop_post (c : Ctx s0 U0 u0 src ni mk Q size) {recur : Nat → Memo → M (Nat × Memo)}
    (hrec : RecOK s0 U0 u0 src ni mk Q recur) {i : Nat} (hi : Part s0 src i)
    (hlit : (s0.vars i).kind ≠ .literal) {w : Nat → Nat} (hsub : ∀ k, 0 < u0 k → 0 < w k) :
    ∀ (ks : List Nat) (dep : Nat → Nat) (rb : Bool) (map : Memo) (s : Store) (U : List Nat),
      (∀ k ∈ ks, k < 4 ∧ dep k = 0) → ks.Nodup →
      Run s0 U0 u0 src ni mk Q s U (plus w (depList dep)) map →
      (∀ j, j < 4 → j ∉ ks → DepOK s0 ni mk Q i s dep j ∧ (rb = false → dep j = (s0.vars i).dep j)) →
      wlp (depLoop ev recur i mk ks dep rb map) s (fun a s' => ∃ U', Evo Q (Part s0 src) w s U s' U' ∧
        (∀ p ∈ a.2, Part s0 src p.1 ∧ GoodL s0 ni mk Q s' p.2 p.1) ∧
        (a.1 = none → St s' U' (plus w (a.2.map Prod.snd))) ∧
        (∀ d, a.1 = some d → St s' U' (plus (plus w (a.2.map Prod.snd)) (depList d.1)) ∧
          (∀ j, j < 4 → DepOK s0 ni mk Q i s' d.1 j) ∧
          (d.2 = false → rb = false ∧ ∀ j, j < 4 → d.1 j = (s0.vars i).dep j))) := by
  intro ks
  induction ks with
  | nil =>
    intro dep rb map s U _ _ R hd
    refine wlp_pure ⟨U, .refl, R.memo, ⟨(by intro e; cases e), ?_⟩⟩
    intro d e
    obtain rfl := Option.some.inj e
    refine ⟨by rw [plus_comm]; exact R.st, fun j hj => (hd j hj (by simp)).1, fun e =>
      ⟨e, fun j hj => (hd j hj (by simp)).2 e⟩⟩
  | cons k ks ih =>
    intro dep rb map s U hks hnd R hd
    obtain ⟨hk4, hk0⟩ := hks k (List.mem_cons_self ..)
    obtain ⟨hnk, hnd'⟩ := List.nodup_cons.1 hnd
    obtain ⟨_, smi⟩ := part_now c R.st R.evo hi
    unfold depLoop
    refine wlp_bind (wlp_getVar ?_)
    rw [body_dep smi.body k, smi.kind]
    have hks' : ∀ j ∈ ks, j < 4 ∧ dep j = 0 := fun j hj => hks j (List.mem_cons_of_mem _ hj)
    refine wlp_ite (fun h0 => ?_) (fun h0 => ?_)
    · refine ih dep rb map s U hks' hnd' R ?_
      intro j hj hjk
      by_cases e : j = k
      · subst e
        exact ⟨.inl ⟨h0, hk0⟩, fun _ => by rw [h0, hk0]⟩
      · exact hd j hj (by simp [e, hjk])
    · have hpk : Part s0 src ((s0.vars i).dep k) := .dep hi hlit hk4 h0
      refine wlp_bind (wlp_mono (hrec _ map s U _ R hpk) ?_)
      rintro a s1 ⟨U1, a1, a2, a3, a4⟩
      -- the new operand
      have hX : ∀ j, 0 < u0 j → 0 < plus (plus w (depList dep)) (a.2.map Prod.snd) j :=
        fun j hj => plus_pos_left (plus_pos_left (hsub j hj))
      have ev01 : Evo Q (Part s0 src) u0 s0 U0 s1 U1 := R.evo.trans (a2.mono fun j hj => plus_pos_left (hsub j hj))
      have new : ∀ (cond : Prop) [Decidable cond], (cond ↔ (a.1 ≠ 0 ∧ (s0.vars i).kind = .gather ∧ k = 2)) →
          wlp (if cond then (do let r ← varAnd ev a.1 mk; decRef a.1; pure r) else pure a.1) s1 (fun d s2 =>
            ∃ U2, St s2 U2 (plus (plus (plus w (depList dep)) (a.2.map Prod.snd)) [d]) ∧
              Evo Q (Part s0 src) (plus (plus w (depList dep)) (a.2.map Prod.snd)) s1 U1 s2 U2 ∧
              (d = 0 ∨ (Good s0 ni mk Q s2 d ((s0.vars i).dep k) ∧
                (¬ ((s0.vars i).kind = .gather ∧ k = 2) → GoodL s0 ni mk Q s2 d ((s0.vars i).dep k))))) := by
        intro cond _ hc
        refine wlp_ite (fun h => ?_) (fun h => ?_)
        · obtain ⟨n0, hg, hk2⟩ := hc.1 h
          subst hk2
          refine wlp_mono (maskDep_post c hX a1 ev01 (a4 n0).good (c.typed.gather i hi hg h0)) ?_
          rintro d s2 ⟨U2, b1, b2, b3⟩
          exact ⟨U2, b1, b2, .inr ⟨b3, fun hn => absurd ⟨hg, rfl⟩ hn⟩⟩
        · refine wlp_pure ⟨U1, a1, .refl, ?_⟩
          by_cases n0 : a.1 = 0
          · exact .inl n0
          · exact .inr ⟨(a4 n0).good, fun _ => a4 n0⟩
      refine wlp_bind (wlp_mono (new _ Iff.rfl) ?_)
      rintro d s2 ⟨U2, b1, b2, b3⟩
      have R1 : Run s0 U0 u0 src ni mk Q s1 U1 (plus w (depList dep)) a.2 → True := fun _ => trivial
      have held : ∀ p ∈ a.2, 0 < plus (plus w (depList dep)) (a.2.map Prod.snd) p.2 := fun p hp =>
        plus_apply_pos (a3 p hp).2.good.ne (List.mem_map_of_mem hp)
      have memo2 : ∀ p ∈ a.2, Part s0 src p.1 ∧ GoodL s0 ni mk Q s2 p.2 p.1 := fun p hp =>
        ⟨(a3 p hp).1, (a3 p hp).2.next a1 b1 b2 (held p hp) (a1.alive (plus_pos_left (held p hp)))⟩
      have ev2 : Evo Q (Part s0 src) (plus w (depList dep)) s U s2 U2 := a2.trans (b2.mono fun _ => plus_pos_left)
      refine wlp_ite (fun hd0 => ?_) (fun hd0 => ?_)
      · subst hd0
        rw [plus_zero1, plus_comm] at b1
        refine wlp_bind (wlp_mono (dropDeps_post (Q := Q) (P := Part s0 src) (u := plus w (a.2.map Prod.snd)) b1) ?_)
        rintro _ s3 ⟨U3, c1, c2⟩
        refine wlp_pure ⟨U3, ?_, ?_, fun _ => c1, fun d e => nomatch e⟩
        · exact (ev2.mono fun _ => plus_pos_left).trans (c2.mono fun _ => plus_pos_left)
        · intro p hp
          have hb : 0 < plus w (a.2.map Prod.snd) p.2 :=
            plus_apply_pos (a3 p hp).2.good.ne (List.mem_map_of_mem hp)
          exact ⟨(memo2 p hp).1, (memo2 p hp).2.next b1 c1 c2 hb (b1.alive (plus_pos_left hb))⟩
      · have b3 := b3.resolve_left hd0
        have R' : Run s0 U0 u0 src ni mk Q s2 U2 (plus w (depList (fun j => if j = k then d else dep j))) a.2 := by
          refine ⟨?_, ev01.trans (b2.mono hX), fun j hj => plus_pos_left (hsub j hj), memo2⟩
          rw [depList_set hk4 hk0, plus_comm]; exact b1
        refine wlp_mono (ih (fun j => if j = k then d else dep j) (rb || d != (s0.vars i).dep k) a.2 s2 U2 ?_ hnd'
          R' ?_) ?_
        · intro j hj
          have : j ≠ k := fun e => hnk (e ▸ hj)
          exact ⟨(hks' j hj).1, by rw [if_neg this]; exact (hks' j hj).2⟩
        · intro j hj hjk
          by_cases e : j = k
          · subst e
            refine ⟨.inr ⟨h0, by dsimp only; rw [if_pos rfl]; exact b3.1, by dsimp only; rw [if_pos rfl]; exact b3.2⟩, ?_⟩
            intro hb
            rw [if_pos rfl]
            simp only [Bool.or_eq_false_iff, bne_eq_false_iff_eq] at hb
            exact hb.2
          · obtain ⟨q1, q2⟩ := hd j hj (by simp [e, hjk])
            have hm : ∀ (w : Nat → Nat), dep j ≠ 0 → 0 < plus w (depList dep) (dep j) :=
              fun w h0 => plus_apply_pos h0 (dep_memList dep hj)
            have q3 := q1.next hj R.st b1 ev2 (fun h0 => plus_pos_left (hm _ h0)) (hm _)
            refine ⟨?_, fun hb => ?_⟩
            · unfold DepOK at q3 ⊢
              dsimp only
              rw [if_neg e]; exact q3
            · rw [if_neg e]
              simp only [Bool.or_eq_false_iff, bne_eq_false_iff_eq] at hb
              exact q2 hb.1
        · rintro r s3 ⟨U3, c1, c2, c3, c4⟩
          refine ⟨U3, (ev2.mono fun _ => plus_pos_left).trans c1, c2, c3, ?_⟩
          intro d' hd'
          obtain ⟨d1, d2, d3⟩ := c4 d' hd'
          refine ⟨d1, d2, fun e => ?_⟩
          obtain ⟨e1, e2⟩ := d3 e
          simp only [Bool.or_eq_false_iff, bne_eq_false_iff_eq] at e1
          exact ⟨e1.1, e2⟩

/-- Default masks do not depend on the index. -/
theorem dmask_good {i r : Nat} (hk : (s0.vars i).kind = .defaultMask) (ht : (s0.vars i).type = .bool)
    (hr : ∀ l, Val s r l 1#64) :
    (∀ l X v, Val s0 mk l 1#64 → Val s0 ni l X → Val s0 i X.toNat v → Val s r l v) ∧
    (Total s0 i → ∀ l X y, Val s0 ni l X → Val s0 mk l y → ∃ v, Val s r l v) := by
  refine ⟨fun l X v _ _ hv => ?_, fun _ l _ _ _ _ => ⟨_, hr l⟩⟩
  rw [hv.unique (Val.defaultMask hk), ht]
  exact hr l

theorem lookup_mem {map : Memo} {i r : Nat} (h : map.lookup i = some r) : (i, r) ∈ map := by
  induction map with
  | nil => cases h
  | cons p l ih =>
    obtain ⟨a, b⟩ := p
    rw [List.lookup_cons] at h
    split at h
    · rename_i e
      have e : i = a := by simpa using e
      obtain rfl := Option.some.inj h
      rw [e]; exact List.mem_cons_self ..
    · exact List.mem_cons_of_mem _ (ih h)

/-- `jitc_var_reindex()`. -/
theorem reindex_post (c : Ctx s0 U0 u0 src ni mk Q size) {cb : Nat → Bool} (fuel : Nat) :
    RecOK s0 U0 u0 src ni mk Q (reindex ev cb ni mk size fuel) := by
  induction fuel with
  | zero => intro i map s U w _ _; exact wlp_abort
  | succ n ih =>
    intro i map s U w R hp
    have giveUp : wlp (pure (0, map) : M (Nat × Memo)) s (Done s0 src ni mk Q w s U i) :=
      wlp_pure ⟨U, by rw [plus_zero1]; exact R.st, .refl, R.memo, fun e => absurd rfl e⟩
    unfold reindex
    cases hlk : map.lookup i with
    | some r =>
      dsimp only
      have hm : (i, r) ∈ map := lookup_mem hlk
      have hr := R.held hm
      refine wlp_bind (wlp_mono (inc_any (Q := Q) (P := Part s0 src) R.st (.inr (R.st.alive hr))) ?_)
      rintro _ s1 ⟨a1, a2, a3, a4⟩
      refine wlp_pure ⟨U, a1, a2 _, R.memoNext a1 (a2 _), fun _ => ?_⟩
      exact (R.memo _ hm).2.next R.st a1 (a2 _) hr (R.st.alive hr)
    | none =>
      dsimp only
      refine wlp_bind (wlp_getVar ?_)
      obtain ⟨ali, smi⟩ := part_now c R.st R.evo hp
      refine wlp_ite (fun _ => giveUp) (fun _ => ?_)
      refine wlp_ite (fun _ => giveUp) (fun hev => ?_)
      refine wlp_ite (fun _ => giveUp) (fun _ => ?_)
      have n2 : (s0.vars i).kind ≠ .evaluated := by
        intro e
        apply hev
        left
        rw [← smi.kind] at e
        simp [Var.isEvaluated, e]
      rw [smi.kind]
      refine wlp_ite (fun hk => ?_) (fun hk => ?_)
      · have ht := c.typed.dmask i hp hk
        refine wlp_ite (fun hb => ?_) (fun hb => ?_)
        · refine wlp_bind (wlp_mono (wlp_and (maskDefault_post R.st c.pos) (maskDefault_sizes (Q := Q)
            (P := fun k => 0 < plus w (map.map Prod.snd) k ∨ Part s0 src k) R.st c.pos fun k hk s1 U1 u1 h1 f1 => hk.elim (fun hu => (f1.stay k hu (R.st.alive hu)).1)
              fun hk => (part_same c.st c.held c.typed h1
              (R.evo.frame.trans (f1.mono fun k hk => plus_pos_left (R.sub k hk))) hk).2.1)) ?_)
          rintro r s1 ⟨⟨⟨U1, p⟩, _⟩, sz⟩
          have p : PostAt _ _ _ _ _ _ _ r s1 U1 := p
          have e1 := p.evo (P := Part s0 src) sz
          have v := dmask_good (mk := mk) (ni := ni) hk ht (fun l => p.val (l := l) rfl)
          refine wlp_pure ⟨U1, p.st, e1.mono fun _ => plus_pos_left, R.memoNext p.st e1, fun _ => ?_⟩
          exact ⟨⟨p.alive.1, by rw [p.type, ht], by rw [p.size]; exact c.pos, by rw [p.size]; exact c.sz,
            p.clean, p.litOK, v.1, v.2⟩, fun e => by rw [hk] at e; cases e⟩
        · refine wlp_bind (wlp_mono (incV_any (Q := Q) (P := Part s0 src) R.st ali) ?_)
          rintro _ s1 ⟨a1, a2, a3, a4⟩
          refine wlp_bind (wlp_mono (inc_any (Q := Q) (P := Part s0 src) a1 (.inr ((a4 i).2 ali))) ?_)
          rintro _ s2 ⟨b1, b2, b3, b4⟩
          have e2 : ∀ b, Evo Q (Part s0 src) b s U s2 U := fun b => (a2 b).trans (b2 b)
          obtain ⟨_, sm2⟩ := part_now c b1 (R.evo.trans (e2 _)) hp
          have v := dmask_good (mk := mk) (ni := ni) (s := s2) (r := i) hk ht (fun l => by
            have := Val.defaultMask (s := s2) (i := i) (l := l) (by rw [sm2.kind, hk])
            rwa [sm2.type, ht] at this)
          have z : (s2.vars i).size = size ∨ (s2.vars i).size = 1 := by
            rw [b3, a3]
            simp only [decide_eq_true_eq] at hb
            tauto
          have := c.pos
          have zq : Q (s2.vars i).size := z.elim (fun e => by rw [e]; exact c.sz) fun e => by rw [e]; exact c.one
          have gi : GoodL s0 ni mk Q s2 i i := ⟨⟨ali.1, sm2.type, by omega, zq,
            b1.wok.clean (by rw [sm2.kind]; exact n2), (c.typed.lit i hp).body sm2.body, v.1, v.2⟩,
            fun e => by rw [hk] at e; cases e⟩
          refine wlp_pure ⟨U, ?_, e2 _, ?_, fun _ => gi⟩
          · rw [List.map_cons, plus_cons w]; exact b1
          · intro p hp'
            rcases List.mem_cons.1 hp' with rfl | hp'
            · exact ⟨hp, gi⟩
            · exact R.memoNext b1 (e2 _) p hp'
      · have after : ∀ (a : Option ((Nat → Nat) × Bool) × Memo) s1 U1, Evo Q (Part s0 src) w s U s1 U1 →
            (∀ p ∈ a.2, Part s0 src p.1 ∧ GoodL s0 ni mk Q s1 p.2 p.1) →
            (a.1 = none → St s1 U1 (plus w (a.2.map Prod.snd))) →
            (∀ d, a.1 = some d → St s1 U1 (plus (plus w (a.2.map Prod.snd)) (depList d.1)) ∧
              ((s0.vars i).kind ≠ .literal → ∀ j, j < 4 → DepOK s0 ni mk Q i s1 d.1 j) ∧
              ((s0.vars i).kind = .literal → ∀ j, d.1 j = 0) ∧
              (d.2 = false → ((s.vars i).size = size ∨ (s.vars i).size = 1) ∧
                ((s0.vars i).kind ≠ .literal → ∀ j, j < 4 → d.1 j = (s0.vars i).dep j))) →
            wlp (match a.1 with
              | none => pure (0, a.2)
              | some d => do
                let r ← reindexEnd ni i size d.1 d.2
                pure (r, (i, r) :: a.2)) s1 (Done s0 src ni mk Q w s U i) := by
          rintro ⟨o, map'⟩ s1 U1 e1 hm h1 h2
          cases o with
          | none => exact wlp_pure ⟨U1, by rw [plus_zero1]; exact h1 rfl, e1, hm, fun e => absurd rfl e⟩
          | some d =>
            obtain ⟨q1, q2, q3, q4⟩ := h2 d rfl
            have sub : ∀ k, 0 < u0 k → 0 < plus w (map'.map Prod.snd) k := fun k hk => plus_pos_left (R.sub k hk)
            have e01 := R.evo.trans (e1.mono R.sub)
            refine wlp_bind (wlp_mono (reindexEnd_post c sub q1 e01 hp n2 hk q2 q3 fun hb => ⟨?_, (q4 hb).2⟩) ?_)
            · have z := (q4 hb).1
              have z1 := e1.size i (.inr hp)
              have := c.pos
              have := z1.grow
              exact ⟨by omega, z1.mem (z.elim (fun e => by rw [e]; exact c.sz) fun e => by rw [e]; exact c.one)⟩
            · rintro r s2 ⟨U2, b1, b2, b3⟩
              refine wlp_pure ⟨U2, ?_, e1.trans (b2.mono fun _ => plus_pos_left), ?_, fun _ => b3⟩
              · rw [List.map_cons, plus_cons w]; exact b1
              · intro p hp'
                rcases List.mem_cons.1 hp' with rfl | hp'
                · exact ⟨hp, b3⟩
                · have hb : 0 < plus w (map'.map Prod.snd) p.2 :=
                    plus_apply_pos (hm p hp').2.good.ne (List.mem_map_of_mem hp')
                  exact ⟨(hm p hp').1, (hm p hp').2.next q1 b1 b2 hb (q1.alive (plus_pos_left hb))⟩
        refine wlp_ite (fun hl => ?_) (fun hl => ?_)
        · have hl : (s0.vars i).kind = .literal := by
            rw [← smi.kind]; simpa [Var.isLiteral] using hl
          refine wlp_bind (wlp_pure ?_)
          refine after (some ((fun _ => 0), _), map) s U .refl R.memo (fun e => by cases e) ?_
          intro d hd
          obtain rfl := Option.some.inj hd
          refine ⟨?_, fun e => absurd hl e, fun _ _ => rfl, fun hb => ⟨?_, fun e => absurd hl e⟩⟩
          · have : plus (plus w (map.map Prod.snd)) (depList fun _ => 0) = plus w (map.map Prod.snd) := by
              simp only [depList, plus_zero, plus_nil]
            rw [this]; exact R.st
          · simp only [decide_eq_false_iff_not] at hb
            tauto
        · have hl : (s0.vars i).kind ≠ .literal := by
            rw [← smi.kind]; simpa [Var.isLiteral] using hl
          have e0 : plus w (depList fun _ => 0) = w := by
            simp only [depList, plus_zero, plus_nil]
          refine wlp_bind (wlp_mono (depLoop_post c ih hp hl R.sub [0, 1, 2, 3] (fun _ => 0) _ map s U
            (by simp) (by decide) (by rw [e0]; exact R) ?_) ?_)
          · intro j hj hn
            exfalso
            apply hn
            have : j = 0 ∨ j = 1 ∨ j = 2 ∨ j = 3 := by omega
            rcases this with rfl | rfl | rfl | rfl <;> simp
          · rintro a s1 ⟨U1, a1, a2, a3, a4⟩
            refine after a s1 U1 a1 a2 a3 ?_
            intro d hd
            obtain ⟨b1, b2, b3⟩ := a4 d hd
            refine ⟨b1, fun _ => b2, fun e => absurd e hl, fun hb => ⟨?_, fun _ => (b3 hb).2⟩⟩
            have := (b3 hb).1
            simp only [decide_eq_false_iff_not] at this
            tauto

end Verif.Gather
