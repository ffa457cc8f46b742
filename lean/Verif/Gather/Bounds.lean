import Verif.Gather.GatherProps
/-!
# Reading one entry stays within the array
-/
namespace Verif.Gather
open Verif.Var Verif.Ops

variable {ev : M Unit} {evalVar : Nat → M Unit} {alloc : M (BitVec 64)} {cb : Nat → Bool} {s s' : Store} {U : List Nat}
  {u w : Nat → Nat} {st stack : List Nat} {fuel src idx mask r n N : Nat}

theorem wlp_true {α : Type} {p : M α} : wlp p s (fun _ _ => True) := fun _ _ _ => trivial

/-- An array in memory is not reindexed. -/
theorem tryReindex_zero (g : GIn s U u stack src idx mask n) (hk : (s.vars src).kind = .evaluated) :
    wlp (tryReindex ev cb stack fuel src idx mask n) s (fun r _ => r = 0) := by
  have nv : (s.vars idx).type ≠ .void := (isInt_ne g.itype).1
  unfold tryReindex
  refine wlp_bind (wlp_mono (wlp_and (cast_post g.st (target := .u32) (re := false) g.oidx nv
    (.inr ⟨rfl, .inl g.itype, .inl rfl⟩)) (cast_sizes (Q := fun _ => False) g.st g.oidx nv)) ?_)
  rintro i2 s1 ⟨⟨U1, p⟩, z1⟩
  have p : PostAt _ _ _ _ _ _ _ i2 s1 U1 := p
  have zk : ∀ k, 0 < u k → (s1.vars k).size = (s.vars k).size := fun k hk =>
    (z1 k (g.st.alive hk)).resolve_right fun e => e.1
  have sk1 : StackOK s1 (plus u [i2]) stack := fun t ht =>
    ⟨p.keep g.st (g.ostack t ht).1, by rw [(p.same g.st (g.ostack t ht).1.held).type, (g.ostack t ht).2]⟩
  have hmz : usable s1 stack n = 0 → (s1.vars mask).size ≤ n := by
    rw [zk mask g.omask.held]; intro _; have := g.msize; have := g.pos; omega
  refine wlp_bind (wlp_mono (maskApply_post p.st (p.keep g.st g.omask) sk1 g.pos hmz) ?_)
  rintro m2 s2 ⟨U2, q⟩
  have q : PostAt _ _ _ _ _ _ _ m2 s2 U2 := q
  have f2 : Frame u s U s2 U2 := p.frame.trans (q.frame.mono fun _ => plus_pos_left)
  have k2 : (s2.vars src).kind = .evaluated := by
    rw [(same_of g.st q.st f2 g.osrc.held (g.st.alive g.osrc.held)).2.kind, hk]
  refine wlp_bind (wlp_mono (Q := fun a _ => a.1 = 0) ?_ ?_)
  · cases fuel with
    | zero => exact wlp_abort
    | succ fuel =>
      unfold reindex
      refine wlp_bind (wlp_getVar ?_)
      refine wlp_ite (fun _ => wlp_pure rfl) (fun _ => ?_)
      rw [if_pos (.inl (by simp [Var.isEvaluated, k2]))]
      exact wlp_pure rfl
  · intro a s3 ha
    rw [if_neg (fun e => e ha)]
    refine wlp_bind (wlp_pure ?_)
    refine wlp_bind (wlp_mono wlp_true fun _ _ _ => ?_)
    refine wlp_bind (wlp_mono wlp_true fun _ _ _ => ?_)
    refine wlp_bind (wlp_mono wlp_true fun _ _ _ => ?_)
    refine wlp_bind (wlp_mono wlp_true fun _ _ _ => ?_)
    exact wlp_pure rfl

/-- **C40 (bounds).** Reading one entry of an array in memory, at a position that is known, returns only
if the array has this entry: otherwise an exception is raised before anything is read. -/
theorem C40_scalar_in_bounds (hev : EvOK ev) (hE : EvalOK evalVar) (hA : AllocOK alloc)
    (h : GReachable ev evalVar alloc cb s u st) (hw : WritesOK s) (a : GatherArgs s u st src idx mask)
    (hk : (s.vars src).kind = .evaluated) (h1 : (s.vars src).size ≠ 1)
    (li : (s.vars idx).kind = .literal) (i1 : (s.vars idx).size = 1)
    (lm : (s.vars mask).kind = .literal) (m1 : (s.vars mask).size = 1) (m0 : (s.vars mask).literal ≠ 0#64)
    (he : varGather ev evalVar alloc cb st fuel src idx mask s = .ok r s') :
    (s.vars idx).literal.toNat < (s.vars src).size := by
  obtain ⟨U, hi⟩ := greachable_inv hev hE hA h
  have h : St s U (plus u st) := ⟨hi.2, (writesOK_iff hi.2).1 hw⟩
  have hst : ∀ t, st.head? = some t → 0 < plus u st t := by
    intro t ht
    have := (a.otop t ht).1.held
    rwa [holders_eq hi.1] at this
  refine (?_ : wlp _ s (fun _ _ => (s.vars idx).literal.toNat < (s.vars src).size)) r s' he
  clear he
  have ws : 0 < plus u st src := plus_pos_left a.osrc.held
  have wi : 0 < plus u st idx := plus_pos_left a.oidx.held
  have wm : 0 < plus u st mask := plus_pos_left a.omask.held
  generalize plus u st = w at *
  have als := h.alive ws
  unfold varGather
  rw [if_neg (h.alive wi).1, if_neg als.1, if_neg (h.alive wm).1]
  refine wlp_bind (wlp_mono (inc_any (Q := fun _ => True) (P := fun _ => False) h (.inr als)) ?_)
  rintro _ s1 ⟨st1, ev1, z1, al1⟩
  have f1 : Frame w s U s1 U := (ev1 w).frame
  have sm1 : ∀ k, 0 < w k → Same s s1 k := fun k hk => (same_of h st1 f1 hk (h.alive hk)).2
  have op1 : ∀ {v k}, Operand s v k → 0 < w k → Operand s1 (plus w [src]) k := by
    intro v k o hk
    exact ⟨plus_pos_left hk, by rw [z1]; exact o.sized, (ev1 w).clean k hk o.clean, o.lit.body (sm1 k hk).body⟩
  have os := op1 a.osrc ws
  have oi := op1 a.oidx wi
  have om := op1 a.omask wm
  have tsv : (s1.vars src).type ≠ .void := by rw [(sm1 src ws).type]; exact scalar_ne a.stype
  have tiv : (s1.vars idx).type.isInt = true := by rw [(sm1 idx wi).type]; exact a.itype
  have tmv : (s1.vars mask).type = .bool := by rw [(sm1 mask wm).type]; exact a.mtype
  refine wlp_bind (wlp_mono (check_post st1 (by simp) (by simpa using ⟨os, tsv⟩)) ?_)
  rintro sinfo s2 ⟨rfl, hsi, _⟩
  refine wlp_bind (wlp_mono (check_post st1 (by simp)
    (by simpa using ⟨⟨oi, (isInt_ne tiv).1⟩, om, by rw [tmv]; decide⟩)) ?_)
  rintro info s3 ⟨rfl, hin, hpos⟩
  have hn : info.size = 1 := by rw [info2 hin, z1, z1, i1, m1]; rfl
  have hl : info.literal = true := by
    refine hin.literal.2 ?_
    intro k hk'
    simp only [List.mem_cons, List.not_mem_nil, or_false] at hk'
    rcases hk' with rfl | rfl
    · rw [(sm1 _ wi).kind, li]
    · rw [(sm1 _ wm).kind, lm]
  have hss : sinfo.size = (s.vars src).size := by
    rcases hsi.sizes src (by simp) with e | e <;> rw [z1] at e
    · exact absurd e h1
    · exact e.symm
  refine wlp_bind (wlp_getStore (wlp_bind (wlp_getVar (wlp_bind (wlp_getVar ?_)))))
  refine wlp_ite (fun _ => wlp_raise) (fun _ => ?_)
  refine wlp_ite (fun _ => wlp_raise) (fun _ => ?_)
  have bm := body_fields (sm1 mask wm).body
  rw [if_neg (by
    intro e
    have : (s3.vars mask).literal = 0#64 := by
      have : (s3.vars mask).kind = .literal ∧ (s3.vars mask).literal = 0#64 := by simpa [isZero, Var.isLiteral] using e
      exact this.2
    rw [bm.2.2.1] at this
    exact m0 this)]
  refine wlp_clean (by simp [oi.clean, os.clean]) ?_
  have sk : StackOK s3 (plus w [src]) st := fun t ht =>
    ⟨op1 (a.otop t ht).1 (hst t ht), by rw [(sm1 t (hst t ht)).type, (a.otop t ht).2.1]⟩
  have g : GIn s3 U (plus w [src]) st src idx mask 1 :=
    ⟨st1, os, by rw [(sm1 src ws).type]; exact a.stype, typed_next h ws a.typed st1 f1, oi, tiv,
      by have := hin.sizes idx (by simp); rwa [hn] at this, om, tmv,
      by have := hin.sizes mask (by simp); rwa [hn] at this, sk, by omega⟩
  have el : wlp (gatherElide ev cb st fuel info src idx mask) s3 (fun r _ => r = 0) := by
    unfold gatherElide
    refine wlp_bind (wlp_getVar ?_)
    rw [if_neg (by rw [z1]; exact h1)]
    refine wlp_bind (wlp_getVar ?_)
    rw [if_neg (by rw [(sm1 idx wi).kind, li]; exact fun e => nomatch e.1), hn]
    exact tryReindex_zero g (by rw [(sm1 src ws).kind, hk])
  refine wlp_bind (wlp_mono (wlp_and (gatherElide_post g rfl hn
      (by rw [(sm1 idx wi).kind, (sm1 idx wi).type]; exact a.ictr) (by rw [z1]; exact a.ssize)) el) ?_)
  rintro r s4 ⟨⟨U4, ⟨_, st4, ev4, hs1⟩ | ⟨m, hm, G⟩⟩, rfl⟩
  · rw [if_neg (fun e => e rfl)]
    have sms := (sm1 src ws).trans (same_of st1 st4 ev4.frame os.held (st1.alive os.held)).2
    have o34 := Evo.obs st1 st4 ev4
    refine wlp_bind (wlp_mono (varEval_post (Q := fun _ => True) hE st4 os.held (fun hk' => ?_)
        (typed_next st1 os.held g.typed st4 ev4.frame) ?_) ?_)
    · rw [sms.kind] at hk'
      exact absurd hk hk'
    · have := (o34.size src os.held).grow
      have := os.sized
      omega
    rintro _ s5 ⟨U5, st5, o45, hke, hlit⟩
    rw [if_pos ⟨hn, hl⟩]
    have hi1 : idx ≠ src := by rintro rfl; omega
    have smi := (sm1 idx wi).trans (same_of st1 st4 ev4.frame oi.held (st1.alive oi.held)).2
    obtain ⟨_, e5⟩ := hlit idx oi.held hi1 (by rw [smi.kind, li])
    refine wlp_bind (wlp_mono (Q := fun _ _ => (s.vars idx).literal.toNat < (s.vars src).size) ?_ fun _ _ hq =>
      wlp_bind (wlp_mono wlp_true fun _ _ _ => wlp_pure hq))
    unfold gatherScalar
    refine wlp_bind (wlp_getVar (wlp_bind (wlp_getVar ?_)))
    refine wlp_ite (fun _ => wlp_raise) (fun hb => ?_)
    rw [e5, (body_fields smi.body).2.2.1, hss] at hb
    exact wlp_mono wlp_true fun _ _ _ => by omega
  · exact absurd rfl G.ne

end Verif.Gather
