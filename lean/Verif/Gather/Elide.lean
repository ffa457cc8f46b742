import Verif.Gather.GatherPost
/-!
# Gathers that do not access memory
-/
namespace Verif.Gather
open Verif.Var Verif.Ops

variable {s s' s'' : Store} {U U' : List Nat} {u u' ext base w : Nat → Nat} {ev : M Unit}
variable {src : Nat}

/-- The values of a gather whose source is total in masked lanes. -/
def GVT (s : Store) (stack : List Nat) (src idx mask n l : Nat) (z : BitVec 64) : Prop :=
  GV s stack src idx mask n l z ∧ (Val s mask l 0#64 → Total s src)

theorem masked_bool {y : BitVec 64} (w : BitVec 64) (h : y = 0#64) :
    masked y w = 0#64 := by
  subst h
  unfold masked
  split <;> rfl

/-- Steps after the gather keeps the source. -/
theorem tryVal_of {stack : List Nat} {idx mask n l : Nat} {z : BitVec 64} (hi : (s.vars idx).type.isInt = true)
    (hs : (s.vars src).size < 2 ^ 32)
    (h : GVT s stack src idx mask n l z) : TryVal s stack src idx mask n l z := by
  obtain ⟨⟨hl, x, hx, hz⟩, hT⟩ := h
  obtain ⟨X, e, hX⟩ := idx_cast hi (t' := .u32) (.inl rfl) x
  rcases hz with ⟨hm1, ht, p, ep, hp, hv⟩ | ⟨hm0, ht, rfl⟩
  · refine ⟨X, 1#64, ⟨x, hx.1.1, e⟩, ⟨1#64, hm1.1.1, fun _ => rfl, fun h0 => ⟨1#64, (ht h0).1.1, rfl⟩⟩, .inl ⟨rfl, ?_⟩⟩
    rw [hX p ep (by omega)]
    exact hv.1.1
  · refine ⟨X, 0#64, ⟨x, hx.1.1, e⟩, ⟨0#64, hm0.1.1, fun _ => rfl, fun h0 => ?_⟩, .inr ⟨rfl, hT hm0.1.1, rfl⟩⟩
    obtain ⟨y, hy⟩ := ht h0
    exact ⟨y, hy.1.1, (masked_bool y rfl).symm⟩

/-- `gatherElide`. -/
theorem gatherElide_post {cb : Nat → Bool} {stack : List Nat} {fuel src idx mask n N : Nat} {info : OpInfo}
    (g : GIn s U u stack src idx mask n) (hN : N = max n (applySize s stack mask n)) (hin : info.size = n)

    (hc : (s.vars idx).kind = .counter → (s.vars idx).type = .u32) (hs : (s.vars src).size < 2 ^ 32) :
    wlp (gatherElide ev cb stack fuel info src idx mask) s (fun r s' => ∃ U',
      (r = 0 ∧ St s' U' u ∧ Evo (GSize n N) (fun _ => False) u s U s' U' ∧ (s.vars src).size ≠ 1) ∨
      ∃ m, (m = n ∨ m = N) ∧
        GAt (GSize n N) s U u u (s.vars src).type m (GVT s stack src idx mask n) r s' U') := by
  have hpos := g.pos
  have gm : GSize n N (s.vars mask).size := by have := g.msize; unfold GSize; omega
  have gn : GSize n N n := .inr (.inl rfl)
  unfold gatherElide
  refine wlp_bind (wlp_getVar ?_)
  rw [hin]
  refine wlp_ite (fun h1 => ?_) (fun h1 => ?_)
  · have g1 : GSize n N 1 := .inl rfl
    refine wlp_bind (wlp_mono (wlp_and (borrowed g.st g.osrc) (inc_any (Q := GSize n N) (P := fun _ => False) g.st
      (.inr (g.st.alive g.osrc.held)))) ?_)
    rintro _ s1 ⟨⟨U1, p⟩, _, _, a3, _⟩
    have p : PostAt _ _ _ _ _ _ _ src s1 U1 := p
    refine wlp_bind (wlp_mono (wlp_and (resize_post p.st (p.operand g.osrc.sized) g.pos (by rw [p.size, h1]; omega))
      (resize_sizes (Q := GSize n N) p.st (p.operand g.osrc.sized) (by rw [p.size, h1]; omega)
        (by rw [p.size, h1]; exact g1) gn)) ?_)
    rintro t s2 ⟨⟨U2, q⟩, z2⟩
    have q : PostAt _ _ _ _ _ _ _ t s2 U2 := q
    have e12 : Evo (GSize n N) (fun _ => False) u s U s2 U2 :=
      (p.evo (fun k hk => .inl (a3 k))).trans
        ((q.evo (fun k hk => z2 k (p.st.alive (hk.resolve_right id)))).mono fun _ => plus_pos_left)
    have om : Operand s2 (plus (plus u [src]) [t]) mask := q.keep p.st (p.keep g.st g.omask)
    have smm := (p.same g.st g.omask.held).trans (q.same p.st (plus_pos_left g.omask.held))
    have ht2 : (s2.vars t).type = (s.vars src).type := by rw [q.type, p.type]
    have hs2 : Scalar (s2.vars t).type := by rw [ht2]; exact g.stype
    have zm := (e12.size mask (.inl g.omask.held)).mem gm
    refine wlp_bind (wlp_mono (wlp_and (andMask_post q.st (q.operand g.pos) om hs2 (by rw [smm.type, g.mtype]))
      (and_sizes (Q := GSize n N) q.st (q.operand g.pos) om (scalar_ne hs2) (by rw [smm.type, g.mtype]; decide)
        (by rw [q.size]; exact gn) zm)) ?_)
    rintro r s3 ⟨⟨U3, f⟩, z3⟩
    have f : PostAt _ _ _ _ _ _ _ r s3 U3 := f
    have hle := gsize_mem g hN
    have hsz : max (s2.vars t).size (s2.vars mask).size = n ∨ max (s2.vars t).size (s2.vars mask).size = N := by
      rw [q.size]
      unfold GSize at zm
      omega
    have G : GAt (GSize n N) s U u (plus (plus u [src]) [t]) (s.vars src).type
        (max (s2.vars t).size (s2.vars mask).size) (GVT s stack src idx mask n) r s3 U3 := by
      refine ⟨f.st, e12.trans ((f.evo (fun k hk => z3 k (q.st.alive (hk.resolve_right id)))).mono fun k hk =>
        plus_pos_left (plus_pos_left hk)), f.alive.1, by rw [f.type, ht2], f.size, f.clean, f.litOK, ?_⟩
      rintro l z ⟨⟨hl, x, hx, hz⟩, hT⟩
      rcases hz with ⟨hm1, ht, b, eb, hb, hv⟩ | ⟨hm0, ht, rfl⟩
      · exact f.val ⟨z, 1#64, q.val (p.val (hv.2 h1 l).1), smm.val _ _ hm1.1.1, rfl⟩
      · obtain ⟨v, hv⟩ := total_val (hT hm0.1.1) l
        exact f.val ⟨v, 0#64, q.val (p.val hv), smm.val _ _ hm0.1.1, rfl⟩
    refine wlp_bind (wlp_mono (G.drop fun k hk => plus_pos_left hk) ?_)
    rintro _ s4 ⟨U4, G⟩
    refine wlp_bind (wlp_mono (G.drop fun k hk => hk) ?_)
    rintro _ s5 ⟨U5, G⟩
    exact wlp_pure ⟨U5, .inr ⟨_, hsz, G⟩⟩
  · refine wlp_bind (wlp_getVar ?_)
    refine wlp_ite (fun h2 => ?_) (fun h2 => ?_)
    · have hsn : (s.vars src).size = n := by
        have := g.isize
        omega
      refine wlp_mono (wlp_and (andMask_post g.st g.osrc g.omask g.stype g.mtype)
        (and_sizes (Q := GSize n N) g.st g.osrc g.omask (scalar_ne g.stype) (by rw [g.mtype]; decide)
          (by rw [hsn]; exact gn) gm)) ?_
      rintro r s1 ⟨⟨U1, f⟩, z⟩
      have f : PostAt _ _ _ _ _ _ _ r s1 U1 := f
      have hsz : max (s.vars src).size (s.vars mask).size = n := by
        rw [hsn]; have := g.msize; omega
      rw [hsz] at f
      refine ⟨U1, .inr ⟨n, .inl rfl, (f.gat fun k hk => z k (g.st.alive hk)).mono ?_⟩⟩
      rintro l z ⟨⟨hl, x, hx, hz⟩, hT⟩
      rcases hz with ⟨hm1, ht, b, eb, hb, hv⟩ | ⟨hm0, ht, rfl⟩
      · have ex : x = norm .u32 (BitVec.ofNat 64 l) := by
          have := hx.1.1.unique (Val.counter h2.1)
          rwa [hc h2.1] at this
        have hbl : b = l := by
          rw [hc h2.1, ex] at eb
          unfold cInt norm at eb
          rw [if_neg (by decide)] at eb
          have eb := Int.ofNat.inj eb
          simp only [BitVec.toNat_setWidth, BitVec.toNat_ofNat] at eb
          have e32 : VType.u32.bits = 32 := rfl
          rw [e32] at eb
          omega
        subst hbl
        exact ⟨z, 1#64, hv.1.1, hm1.1.1, rfl⟩
      · obtain ⟨v, hv⟩ := total_val (hT hm0.1.1) l
        exact ⟨v, 0#64, hv, hm0.1.1, rfl⟩
    · refine wlp_mono (tryReindex_post g hN) ?_
      rintro r s1 ⟨U1, ⟨a, b, c⟩ | G⟩
      · exact ⟨U1, .inl ⟨a, b, c, h1⟩⟩
      · exact ⟨U1, .inr ⟨N, .inr rfl, G.mono fun l z => tryVal_of g.itype hs⟩⟩

end Verif.Gather
