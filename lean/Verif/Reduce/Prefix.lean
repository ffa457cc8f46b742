import Verif.Reduce.Block
/-!
# Prefix sums of literals
-/
namespace Verif.Reduce
open Verif.Var Verif.Ops Verif.Gather
open Verif.Llvm (ROp IsReduction slice scanList num)

variable {s s1 s2 : Store} {U U1 U2 : List Nat} {u w w' : Nat → Nat} {ev : M Unit} {N n r a b src k c : Nat}
variable {t : VType} {V : Nat → BitVec 64 → Prop} {g g' : Nat → Nat}

/-- A state with a counter `c`: entry `l` is `g l`. -/
structure Ctr (s : Store) (U : List Nat) (u : Nat → Nat) (N src : Nat) (t : VType) (g : Nat → Nat) (c : Nat)
    (s1 : Store) : Prop where
  tmp : ∃ U1, Tmp s U u (plus u [c]) s1 U1
  fact : Fact s1 (plus u [c]) N c t True (fun l z => l < N ∧ z = (BitVec.ofNat t.bits (g l)).setWidth 64)
  src : Fact s1 (plus u [c]) N src (s.vars src).type True (fun l z => Val s src l z)

theorem Ctr.start (h0 : St s U u) (ho : Operand s u src) (p : Post s U u t (s.vars src).size lit V c s1)
    (hV : ∀ l < (s.vars src).size, V l ((BitVec.ofNat t.bits (g l)).setWidth 64)) :
    Ctr s U u (s.vars src).size src t g c s1 := by
  have f : Fact s u (s.vars src).size src (s.vars src).type True (fun l z => Val s src l z) :=
    ⟨ho, rfl, le_refl _, fun _ => rfl, fun _ _ => id⟩
  obtain ⟨U1, a1, a2⟩ := Post.done h0 p ho.sized
  refine ⟨⟨U1, a1⟩, a2.mono (fun e => e) ?_, f.next (Tmp.start h0) p (le_refl _)⟩
  rintro l z ⟨hl, rfl⟩
  exact hV l hl

/-- Replace the counter `c` by `r`. -/
theorem Ctr.replace {t' : VType} {lit : Prop} (hc : Ctr s U u N src t g c s1) (hu : 0 < u src) {B : M Nat}
    (hB : ∀ U1, St s1 U1 (plus u [c]) → wlp B s1 (fun r s2 => Post s1 U1 (plus u [c]) t' N lit V r s2))
    (hV : ∀ l < N, V l ((BitVec.ofNat t'.bits (g' l)).setWidth 64)) :
    wlp (do let r ← B; decRef c; pure r) s1 (fun r s2 => Ctr s U u N src t' g' r s2) := by
  obtain ⟨U1, h1⟩ := hc.tmp
  have hN : 0 < N := by have := hc.src.op.sized; rw [hc.src.full trivial] at this; exact this
  refine wlp_bind (wlp_mono (hB U1 h1.st) ?_)
  intro r s2 p
  obtain ⟨U2, h2⟩ := h1.step p
  have f2 := Fact.new p hN (le_refl N)
  have g2 := hc.src.next h1 p (le_refl N)
  have r0 : r ≠ 0 := (h2.st.alive f2.op.held).1
  refine wlp_bind (wlp_mono (h2.drop (N := N) (w' := plus u [r]) (plus_comm _ _) (fun k => plus_pos_left)) ?_)
  rintro _ s3 ⟨⟨U3, h3⟩, k3⟩
  refine wlp_pure ⟨⟨U3, h3⟩, (k3 f2 (by rw [plus_self r0]; omega)).mono (fun _ => rfl) ?_, k3 g2 (plus_pos_left hu)⟩
  rintro l z ⟨hl, rfl⟩
  exact hV l hl

/-- A step with a literal operand. -/
theorem withLiteral_post {x : Nat} {f : Nat → Nat → M Nat} (hc : Ctr s U u N src .u32 g c s1) (hu : 0 < u src)
    (hx : x < 2 ^ 32)
    (hf : ∀ {s2 U2 w z}, St s2 U2 w →
      Fact s2 w N c .u32 True (fun l z => l < N ∧ z = (BitVec.ofNat 32 (g l)).setWidth 64) →
      Fact s2 w N z .u32 False (fun _ y => y = (BitVec.ofNat 32 x).setWidth 64) →
      wlp (f c z) s2 (fun r s3 => ∃ lit, Post s2 U2 w .u32 N lit
        (fun l z => l < N ∧ z = (BitVec.ofNat 32 (g' l)).setWidth 64) r s3)) :
    wlp (withLiteral b x f c) s1 (fun r s' => Ctr s U u N src .u32 g' r s') := by
  obtain ⟨U1, h1⟩ := hc.tmp
  have hN : 0 < N := by have := hc.src.op.sized; rw [hc.src.full trivial] at this; exact this
  unfold withLiteral
  refine wlp_bind (wlp_mono (literal_post h1.st (by omega : 0 < 1) (fun e => nomatch e)) ?_)
  rintro z s2 ⟨p2, _⟩
  obtain ⟨U2, h2⟩ := h1.step p2
  have fz := (Fact.new (N := N) p2 (by omega) (by omega)).mono (full' := False)
    (V' := fun _ y => y = (BitVec.ofNat 32 x).setWidth 64) (fun e => e.elim) (by
    rintro l y rfl
    show _ = ((BitVec.ofNat 64 x).setWidth 32).setWidth 64
    congr 1
    apply BitVec.eq_of_toNat_eq
    simp only [BitVec.toNat_setWidth, BitVec.toNat_ofNat]
    omega)
  have fc := hc.fact.next h1 p2 (by omega)
  have gs := hc.src.next h1 p2 (by omega)
  refine wlp_bind (wlp_mono (hf h2.st fc fz) ?_)
  rintro r s3 ⟨lit, p3⟩
  obtain ⟨U3, h3⟩ := h2.step p3
  have f3 := (Fact.new p3 hN (le_refl N)).mono (full' := True) (fun _ => rfl) (fun _ _ => id)
  have g3 := gs.next h2 p3 (le_refl N)
  have r0 : r ≠ 0 := (h3.st.alive f3.op.held).1
  have ur : 0 < plus u [r] r := by rw [plus_self r0]; omega
  refine wlp_bind (wlp_mono (h3.drop (N := N) (w' := plus (plus u [r]) [z]) ?_
    (fun k hk => plus_pos_left (plus_pos_left hk))) ?_)
  · funext k; unfold plus; split <;> simp [List.count_cons] <;> omega
  rintro _ s4 ⟨⟨U4, h4⟩, k4⟩
  have f4 := k4 f3 (plus_pos_left ur)
  have g4 := k4 g3 (plus_pos_left (plus_pos_left hu))
  refine wlp_bind (wlp_mono (h4.drop (N := N) (w' := plus u [r]) rfl (fun k => plus_pos_left)) ?_)
  rintro _ s5 ⟨⟨U5, h5⟩, k5⟩
  exact wlp_pure ⟨⟨U5, h5⟩, k5 f4 ur, k5 g4 (plus_pos_left hu)⟩

theorem sizes_c {z : Nat} {V V' : Nat → BitVec 64 → Prop} (hc : Fact s w N c .u32 True V) (hz : Fact s w N z .u32 False V') :
    max (s.vars c).size (s.vars z).size = N ∧ max (s.vars z).size (s.vars c).size = N := by
  have := hc.full trivial
  have := hz.le
  omega

theorem back (n : Nat) : ((BitVec.ofNat 32 n).setWidth 64).setWidth 32 = BitVec.ofNat 32 n :=
  setWidth_setWidth (by omega) _

theorem sem_mod' (ht : t.isInt = true) (hs : t.isSint = false) (a b : BitVec t.bits) (hb : b ≠ 0) :
    sem2 .mod t t t (a.setWidth 64) (b.setWidth 64) = some ((a.umod b).setWidth 64) := by
  unfold sem2
  dsimp only
  rw [setWidth_setWidth (bits_le t), setWidth_setWidth (bits_le t), if_pos ⟨rfl, rfl, ht⟩, if_neg hb,
    if_neg (by rw [hs]; decide)]
  rfl

theorem sem_sub' (ht : t.isInt = true) (a b : BitVec t.bits) :
    sem2 .sub t t t (a.setWidth 64) (b.setWidth 64) = some ((a - b).setWidth 64) := by
  unfold sem2
  dsimp only
  rw [setWidth_setWidth (bits_le t), setWidth_setWidth (bits_le t), if_pos ⟨rfl, rfl, ht⟩]
  rfl

theorem sem_add' (ht : t.isInt = true) (a b : BitVec t.bits) :
    sem2 .add t t t (a.setWidth 64) (b.setWidth 64) = some ((a + b).setWidth 64) := by
  unfold sem2
  dsimp only
  rw [setWidth_setWidth (bits_le t), setWidth_setWidth (bits_le t), if_pos ⟨rfl, rfl, ht⟩]
  rfl

/-- `ctr % k` -/
theorem mod_step (hc : Ctr s U u N src .u32 g c s1) (hu : 0 < u src) (hk : 0 < k) (hk' : k < 2 ^ 32)
    (hg : ∀ l < N, g l < 2 ^ 32) :
    wlp (withLiteral b k (varMod ev) c) s1 (fun r s' => Ctr s U u N src .u32 (fun l => g l % k) r s') := by
  refine withLiteral_post hc hu hk' ?_
  intro s2 U2 w z h2 fc fz
  refine wlp_mono (mod_post h2 ⟨fc.op, fz.op, by rw [fc.type]; rfl, by rw [fc.type, fz.type]⟩) ?_
  intro r s3 p
  unfold Post2 at p
  rw [(sizes_c fc fz).1, fc.type] at p
  refine ⟨_, p.mono (fun e => e) ?_⟩
  rintro l z ⟨hl, rfl⟩
  refine ⟨_, _, fc.val l _ ⟨hl, rfl⟩, fz.val l _ rfl, ?_⟩
  rw [fc.type, fz.type]
  have gl := hg l hl
  have hne : BitVec.ofNat 32 k ≠ 0 := by
    intro e
    have := congrArg BitVec.toNat e
    rw [BitVec.toNat_ofNat, Nat.mod_eq_of_lt hk'] at this
    simp at this
    omega
  refine (sem_mod' (t := .u32) rfl rfl (BitVec.ofNat 32 (g l)) (BitVec.ofNat 32 k) hne).trans
    (congrArg (fun b : BitVec 32 => some (b.setWidth 64)) (?_ : (BitVec.ofNat 32 (g l)).umod (BitVec.ofNat 32 k) =
      BitVec.ofNat 32 (g l % k)))
  apply BitVec.eq_of_toNat_eq
  rw [BitVec.umod_eq, BitVec.toNat_umod, BitVec.toNat_ofNat, BitVec.toNat_ofNat, BitVec.toNat_ofNat,
    Nat.mod_eq_of_lt gl, Nat.mod_eq_of_lt hk', Nat.mod_eq_of_lt (lt_of_le_of_lt (Nat.mod_le _ _) gl)]

/-- `x - ctr` -/
theorem sub_step {x : Nat} (hc : Ctr s U u N src .u32 g c s1) (hu : 0 < u src) (hx : x < 2 ^ 32)
    (hg : ∀ l < N, g l ≤ x) :
    wlp (withLiteral b x (fun c z => varSub ev z c) c) s1 (fun r s' => Ctr s U u N src .u32 (fun l => x - g l) r s') := by
  refine withLiteral_post hc hu hx ?_
  intro s2 U2 w z h2 fc fz
  refine wlp_mono (sub_post h2 ⟨fz.op, fc.op, by rw [fz.type]; rfl, by rw [fc.type, fz.type]⟩) ?_
  intro r s3 p
  unfold Post2 at p
  rw [(sizes_c fc fz).2, fz.type] at p
  refine ⟨_, p.mono (fun e => e) ?_⟩
  rintro l z ⟨hl, rfl⟩
  refine ⟨_, _, fz.val l _ rfl, fc.val l _ ⟨hl, rfl⟩, ?_⟩
  rw [fc.type, fz.type]
  have gl := hg l hl
  refine (sem_sub' (t := .u32) rfl (BitVec.ofNat 32 x) (BitVec.ofNat 32 (g l))).trans
    (congrArg (fun b : BitVec 32 => some (b.setWidth 64)) (?_ : BitVec.ofNat 32 x - BitVec.ofNat 32 (g l) =
      BitVec.ofNat 32 (x - g l)))
  apply BitVec.eq_of_toNat_eq
  rw [BitVec.toNat_sub, BitVec.toNat_ofNat, BitVec.toNat_ofNat, BitVec.toNat_ofNat]
  omega

/-- `ctr + 1` -/
theorem succ_step (hc : Ctr s U u N src .u32 g c s1) (hu : 0 < u src) :
    wlp (withLiteral b 1 (varAdd ev) c) s1 (fun r s' => Ctr s U u N src .u32 (fun l => g l + 1) r s') := by
  refine withLiteral_post hc hu (by omega) ?_
  intro s2 U2 w z h2 fc fz
  refine wlp_mono (add_post h2 ⟨fc.op, fz.op, by rw [fc.type]; rfl, by rw [fc.type, fz.type]⟩) ?_
  intro r s3 p
  unfold Post2 at p
  rw [(sizes_c fc fz).1, fc.type] at p
  refine ⟨_, p.mono (fun e => e) ?_⟩
  rintro l z ⟨hl, rfl⟩
  refine ⟨_, _, fc.val l _ ⟨hl, rfl⟩, fz.val l _ rfl, ?_⟩
  rw [fc.type, fz.type]
  refine (sem_add' (t := .u32) rfl (BitVec.ofNat 32 (g l)) (BitVec.ofNat 32 1)).trans
    (congrArg (fun b : BitVec 32 => some (b.setWidth 64)) (?_ : BitVec.ofNat 32 (g l) + BitVec.ofNat 32 1 =
      BitVec.ofNat 32 (g l + 1)))
  rw [BitVec.ofNat_add]

/-- Conversion to the type of the array. -/
theorem cast_step (hc : Ctr s U u N src .u32 g c s1) (hu : 0 < u src) (ht : t.isInt = true)
    (hg : ∀ l < N, g l < 2 ^ 32) :
    wlp (do let c' ← varCast ev c t false; decRef c; pure c') s1 (fun r s' => Ctr s U u N src t g r s') := by
  have hf := hc.fact
  refine hc.replace hu (lit := s1.constProp = true ∧ (s1.vars c).kind = .literal) (V := V1 s1 .cast t c) ?_ ?_
  · intro U1 h1
    have := cast_post (ev := ev) (target := t) (re := false) h1 hf.op (by rw [hf.type]; decide)
      (.inr ⟨rfl, .inl (by rw [hf.type]; rfl), .inl ht⟩)
    unfold Post1 at this
    rw [hf.full trivial] at this
    exact this
  · intro l hl
    refine ⟨_, hf.val l _ ⟨hl, rfl⟩, ?_⟩
    rw [hf.type]
    have hb : t ≠ .bool := by rintro rfl; revert ht; decide
    simp only [sem1]
    rw [if_neg (fun e => hb e.1), if_neg (fun e => nomatch e.1), if_pos ⟨ht, rfl⟩, if_neg (by decide)]
    change some ((BitVec.setWidth t.bits (BitVec.setWidth 32 (BitVec.setWidth 64 (BitVec.ofNat 32 (g l))))).setWidth 64) = _
    rw [back]
    congr 2
    apply BitVec.eq_of_toNat_eq
    rw [BitVec.toNat_setWidth, BitVec.toNat_ofNat, BitVec.toNat_ofNat, Nat.mod_eq_of_lt (hg l hl)]

/-- The product with the literal. -/
theorem mul_step (hc : Ctr s U u N src t g c s1) (hu : 0 < u src) (ht : t.isInt = true) (et : (s.vars src).type = t)
    {v : BitVec t.bits} (hv : ∀ l, Val s src l (v.setWidth 64)) :
    wlp (do let r ← varMul ev c src; decRef c; pure r) s1
      (fun r s' => Ctr s U u N src t (fun l => g l * v.toNat) r s') := by
  have hf := hc.fact
  have hs := hc.src
  refine hc.replace hu (V := V2 s1 .mul t c src)
    (lit := s1.constProp = true ∧ (s1.vars c).kind = .literal ∧ (s1.vars src).kind = .literal) ?_ ?_
  · intro U1 h1
    have := mul_post (ev := ev) h1 ⟨hf.op, hs.op, by rw [hf.type]; exact ht, by rw [hf.type, hs.type, et]⟩
    unfold Post2 at this
    rw [hf.full trivial, hs.full trivial, hf.type, Nat.max_self] at this
    exact this
  · intro l hl
    refine ⟨_, _, hf.val l _ ⟨hl, rfl⟩, hs.val l _ (hv l), ?_⟩
    rw [hf.type, hs.type, et]
    simp only [sem2]
    rw [if_pos ⟨trivial, trivial, ht⟩]
    simp only [Option.map_some]
    rw [setWidth_setWidth (bits_le t), setWidth_setWidth (bits_le t)]
    congr 2
    apply BitVec.eq_of_toNat_eq
    rw [BitVec.toNat_mul, BitVec.toNat_ofNat, BitVec.toNat_ofNat, Nat.mod_mul_mod]

/-- How often the literal is added to obtain entry `j`. -/
def count (k : Nat) (exclusive reverse : Bool) (j : Nat) : Nat :=
  (if reverse then k - 1 - j % k else j % k) + (if exclusive then 0 else 1)

theorem prefixSum_post (h0 : St s U u) (ho : Operand s u src) (hl : (s.vars src).kind = .literal)
    (ht : (s.vars src).type.isInt = true) (hk : 0 < k) (hk' : k < 2 ^ 32) (hz : (s.vars src).size < 2 ^ 32)
    {exclusive reverse : Bool} :
    wlp (prefixSumLit ev (s.vars src) src k exclusive reverse) s (fun r s' =>
      Ctr s U u (s.vars src).size src (s.vars src).type
        (fun l => count k exclusive reverse l * ((s.vars src).literal.setWidth (s.vars src).type.bits).toNat) r s') := by
  have hN := ho.sized
  have hu := ho.held
  unfold prefixSumLit
  refine wlp_bind (wlp_mono (counter_any h0 hN) ?_)
  intro c s1 p1
  have c1 := Ctr.start (g := fun l => l) h0 ho p1 (by
    intro l hl
    refine ⟨hl, ?_⟩
    show _ = ((BitVec.ofNat 64 l).setWidth 32).setWidth 64
    congr 1
    apply BitVec.eq_of_toNat_eq
    simp only [BitVec.toNat_setWidth, BitVec.toNat_ofNat, VType.bits]
    omega)
  have a2 : wlp (blockPos ev (s.vars src) k c) s1
      (fun r s' => Ctr s U u (s.vars src).size src .u32 (fun l => l % k) r s') := by
    refine wlp_ite (fun _ => ?_) (fun e => ?_)
    · exact mod_step c1 hu hk hk' (fun l hl => by omega)
    · refine wlp_pure ⟨c1.tmp, c1.fact.mono (fun e => e) ?_, c1.src⟩
      rintro l z ⟨hl, rfl⟩
      rw [Nat.mod_eq_of_lt (by omega)]
      exact ⟨hl, rfl⟩
  refine wlp_bind (wlp_mono a2 ?_)
  clear a2 c1 p1
  intro c s2 c2
  have a3 : wlp (flip ev (s.vars src) k reverse c) s2 (fun r s' => Ctr s U u (s.vars src).size src .u32
      (fun l => if reverse then k - 1 - l % k else l % k) r s') := by
    refine wlp_ite (fun e => ?_) (fun e => ?_)
    · simp only [e, if_true]
      have e1 : (k + 2 ^ 32 - 1) % 2 ^ 32 = k - 1 := by omega
      rw [e1]
      refine sub_step c2 hu (by omega) (fun l hl => ?_)
      have := Nat.mod_lt l hk
      omega
    · simp only [e]
      exact wlp_pure c2
  refine wlp_bind (wlp_mono a3 ?_)
  clear a3 c2
  intro c s3 c3
  have a4 : wlp (addSelf ev (s.vars src) exclusive c) s3
      (fun r s' => Ctr s U u (s.vars src).size src .u32 (count k exclusive reverse) r s') := by
    refine wlp_ite (fun e => ?_) (fun e => ?_)
    · unfold count
      simp only [e, if_true]
      exact wlp_pure c3
    · unfold count
      simp only [e]
      exact succ_step c3 hu
  refine wlp_bind (wlp_mono a4 ?_)
  clear a4 c3
  intro c s4 c4
  have hcnt : ∀ l, count k exclusive reverse l < 2 ^ 32 := by
    intro l
    have := Nat.mod_lt l hk
    unfold count
    split_ifs <;> omega
  have a5 : wlp (toType ev (s.vars src).type c) s4
      (fun r s' => Ctr s U u (s.vars src).size src (s.vars src).type (count k exclusive reverse) r s') := by
    refine wlp_ite (fun e => ?_) (fun e => ?_)
    · exact cast_step c4 hu ht (fun l _ => hcnt l)
    · have e' : (s.vars src).type = .u32 := by
        by_contra hc; exact e hc
      rw [e']
      exact wlp_pure c4
  refine wlp_bind (wlp_mono a5 ?_)
  clear a5 c4
  intro c s5 c5
  exact mul_step c5 hu ht rfl (fun l => Val.literal hl)

end Verif.Reduce
