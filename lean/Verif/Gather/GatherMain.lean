import Verif.Gather.Access
import Verif.Ops.Props
/-!
# The specification of `jit_var_gather()`
-/
namespace Verif.Gather
open Verif.Var Verif.Ops

variable {s s' s'' : Store} {U U' : List Nat} {u u' ext base w : Nat → Nat} {ev : M Unit}
variable {src : Nat}

theorem usable_q {stack : List Nat} {n N : Nat} (hN : n ≠ 1 → N = n)
    (h : ∀ t, stack.head? = some t → SizeOK (GSize n N) s s' t) : usable s' stack n = usable s stack n := by
  unfold usable
  cases stack with
  | nil => rfl
  | cons t l =>
    have := h t rfl
    dsimp only
    unfold SizeOK GSize at this
    by_cases hc : n = 1 ∨ (s.vars t).size = 1 ∨ (s.vars t).size = n
    · rw [if_pos hc, if_pos (by omega)]
    · rw [if_neg hc, if_neg (by omega)]

theorem norm_zero (t : VType) : norm t 0#64 = 0#64 := by
  unfold norm
  simp

theorem Keeps.obs {Q : Nat → Prop} {i : Nat} (h : Evaluates u i s s') : Obs Q u s s' :=
  ⟨h.keeps.type, fun k hk => .inl (h.size k hk), h.keeps.clean, h.keeps.lit, h.keeps.val⟩

/-- `jitc_var_eval()`. -/
theorem varEval_post {evalVar : Nat → M Unit} (hE : EvalOK evalVar) (h : St s U u) (hs : 0 < u src)
    (hq : (s.vars src).kind ≠ .evaluated → s.sideEffects = []) (ht : Typed s src) (h1 : (s.vars src).size ≠ 1)
    {Q : Nat → Prop} : wlp (varEval evalVar src) s (fun _ s' => ∃ U', St s' U' u ∧ Obs Q u s s' ∧
      (s'.vars src).kind = .evaluated ∧ (∀ k, 0 < u k → k ≠ src → (s.vars k).kind = .literal →
        (s'.vars k).kind = .literal ∧ (s'.vars k).literal = (s.vars k).literal)) := by
  unfold varEval
  refine wlp_bind (wlp_getVar ?_)
  refine wlp_ite (fun he => ?_) (fun he => ?_)
  · exact wlp_pure ⟨U, h, .refl, by simpa [Var.isEvaluated] using he, fun _ _ _ e => ⟨e, rfl⟩⟩
  · refine wlp_ite (fun hn => ?_) (fun _ => wlp_stop)
    intro a s' e
    obtain ⟨⟨U', i'⟩, E⟩ := hE s U u src h.inv ((writesOK_iff h.inv).2 h.wok)
      (hq (by simpa [Var.isEvaluated] using he)) hs hn ht (fun e => absurd e h1) s' e
    exact ⟨U', ⟨i', (writesOK_iff i').1 E.writes⟩, Keeps.obs E, E.done, E.literal⟩

/-- The values of the specification, after taking a reference. -/
theorem gvt_of {stack : List Nat} {idx mask n N l : Nat} {z : BitVec 64} (h : St s U w) (h' : St s' U' u')
    (hf : Frame w s U s' U') (hz : ∀ k, (s'.vars k).size = (s.vars k).size)
    (ty : Typed s src) (hs : 0 < w src) (us : Uniform s src ∧ Shaped s src) (hi : 0 < w idx)
    (ui : Uniform s idx ∧ Shaped s idx) (hm : 0 < w mask) (um : Uniform s mask ∧ Shaped s mask)
    (ci : (s.vars idx).size = 1 ∨ (s.vars idx).size = n) (cm : (s.vars mask).size = 1 ∨ (s.vars mask).size = n)
    (ht : ∀ t, stack.head? = some t → 0 < w t ∧ 0 < (s.vars t).size ∧ Uniform s t ∧ Shaped s t)
    (hv : GatherVal s stack src idx mask n l z) : GVT s' stack src idx mask n l z := by
  obtain ⟨hl, x, hx, hd⟩ := hv
  have sm : ∀ k, 0 < w k → Same s s' k := fun k hk => (same_of h h' hf hk (h.alive hk)).2
  have uv : ∀ {k l y}, 0 < w k → Uniform s k ∧ Shaped s k → Covers (s.vars k).size l → Val s k l y →
      UVal s' k l y := by
    intro k l y hk hu c hy
    have hy := hu.1.val hu.2 c hy
    refine ⟨entry_frame h h' hf hk (h.alive hk) (by rw [hz]; exact c) hy.1, fun e l' =>
      entry_frame h h' hf hk (h.alive hk) (.inr e) (hy.2 (by rw [← hz]; exact e) l')⟩
  have cov : ∀ {k}, (s.vars k).size = 1 ∨ (s.vars k).size = n → Covers (s.vars k).size l := by
    intro k; unfold Covers; omega
  have covt : usable s' stack n ≠ 0 → Covers (s.vars (usable s' stack n)).size l := by
    intro h0
    have h1 := usable_size h0
    have h2 := (ht _ (usable_mem h0)).2.1
    rw [hz] at h1
    unfold Covers
    omega
  have top : usable s' stack n ≠ 0 → Top s stack n (usable s' stack n) := by
    intro h0
    refine ⟨usable_mem h0, ?_⟩
    have := usable_size h0
    rwa [hz] at this
  rcases hd with ⟨m1, t1, p, e, hp, hval⟩ | ⟨m0, t0, hT, rfl⟩
  · refine ⟨⟨hl, x, uv hi ui (cov ci) hx, .inl ⟨uv hm um (cov cm) m1, fun h0 => ?_, p, by rw [(sm idx hi).type]; exact e,
      by rw [hz]; exact hp, uv hs us (.inl hp) hval⟩⟩, fun e0 => ?_⟩
    · obtain ⟨a, _, b⟩ := ht _ (usable_mem h0)
      exact uv a b (covt h0) (t1 _ (top h0))
    · exact absurd (e0.unique ((sm mask hm).val _ _ m1)) (by decide)
  · refine ⟨⟨hl, x, uv hi ui (cov ci) hx, .inr ⟨uv hm um (cov cm) m0, fun h0 => ?_, rfl⟩⟩, fun _ =>
      total_next h hs ty h' hf .root hT⟩
    obtain ⟨a, _, b⟩ := ht _ (usable_mem h0)
    obtain ⟨y, hy⟩ := t0 _ (top h0)
    exact ⟨y, uv a b (covt h0) hy⟩

/-- `jitc_var_gather()`. -/
theorem varGather_post {evalVar : Nat → M Unit} {alloc : M (BitVec 64)} {cb : Nat → Bool} {stack : List Nat}
    {fuel idx mask : Nat} (hE : EvalOK evalVar) (hA : AllocOK alloc) (h : St s U w)
    (a : GatherArgs s u stack src idx mask) (hw : ∀ k, 0 < u k → 0 < w k)
    (hst : ∀ t, stack.head? = some t → 0 < w t) :
    wlp (varGather ev evalVar alloc cb stack fuel src idx mask) s (fun r s' => ∃ U' m,
      (m = gatherSize s idx mask ∨ m = gatherMax s stack idx mask) ∧
      RAt (GSize (gatherSize s idx mask) (gatherMax s stack idx mask)) s w w (s.vars src).type m
        (GatherVal s stack src idx mask (gatherSize s idx mask)) r s' U') := by
  have ws := hw _ a.osrc.held
  have wi := hw _ a.oidx.held
  have wm := hw _ a.omask.held
  have als := h.alive ws
  have ali := h.alive wi
  have alm := h.alive wm
  unfold varGather
  rw [if_neg ali.1, if_neg als.1, if_neg alm.1]
  refine wlp_bind (wlp_mono (inc_any (Q := fun _ => True) (P := fun _ => False) h (.inr als)) ?_)
  rintro _ s1 ⟨st1, ev1, z1, al1⟩
  have f1 : Frame w s U s1 U := (ev1 w).frame
  have sm1 : ∀ k, 0 < w k → Same s s1 k := fun k hk => (same_of h st1 f1 hk (h.alive hk)).2
  have op1 : ∀ {v k}, Operand s v k → 0 < w k → Operand s1 (plus w [src]) k := by
    intro v k o hk
    exact ⟨plus_pos_left hk, by rw [z1]; exact o.sized, (ev1 w).clean k hk o.clean, o.lit.body (sm1 k hk).body⟩
  have os := op1 a.osrc ws
  have oi := op1 a.oidx wi
  have om := op1 a.omask wm
  have tsv : (s1.vars src).type ≠ .void := by rw [(sm1 src ws).type]; exact scalar_ne a.stype
  have tiv : (s1.vars idx).type.isInt = true := by rw [(sm1 idx wi).type]; exact a.itype
  have tmv : (s1.vars mask).type = .bool := by rw [(sm1 mask wm).type]; exact a.mtype
  refine wlp_bind (wlp_mono (check_post st1 (by simp) (by simpa using ⟨os, tsv⟩)) ?_)
  rintro sinfo s2 ⟨rfl, hsi, _⟩
  refine wlp_bind (wlp_mono (check_post st1 (by simp)
    (by simpa using ⟨⟨oi, (isInt_ne tiv).1⟩, om, by rw [tmv]; decide⟩)) ?_)
  rintro info s3 ⟨rfl, hin, hpos⟩
  have hsty : sinfo.type = (s.vars src).type := by rw [hsi.type src [] rfl, (sm1 src ws).type]
  have hn : info.size = gatherSize s idx mask := by
    have := info2 hin
    rw [this, z1, z1]; rfl
  refine wlp_bind (wlp_getStore (wlp_bind (wlp_getVar (wlp_bind (wlp_getVar ?_)))))
  refine wlp_ite (fun _ => wlp_raise) (fun _ => ?_)
  refine wlp_ite (fun _ => wlp_raise) (fun _ => ?_)
  generalize hgn : gatherSize s idx mask = n at *
  generalize hgN : gatherMax s stack idx mask = N at *
  have hisz := hin.sizes idx (by simp)
  have hmsz := hin.sizes mask (by simp)
  rw [hn] at hisz hmsz hpos
  have sk : StackOK s3 (plus w [src]) stack := fun t ht =>
    ⟨op1 (a.otop t ht).1 (hst t ht), by rw [(sm1 t (hst t ht)).type, (a.otop t ht).2.1]⟩
  have g : GIn s3 U (plus w [src]) stack src idx mask n :=
    ⟨st1, os, by rw [(sm1 src ws).type]; exact a.stype, typed_next h ws a.typed st1 f1, oi, tiv, hisz, om, tmv, hmsz,
      sk, hpos⟩
  have hN : N = max n (applySize s3 stack mask n) := by
    rw [← hgN]
    unfold gatherMax applySize usable
    rw [hgn]
    cases stack with
    | nil => simp
    | cons t l =>
      have h1 := (sk t rfl).1.sized
      have h2 := (st1.alive (sk t rfl).1.held).1
      have zt := z1 t
      have zm := z1 mask
      dsimp only
      by_cases hc : n = 1 ∨ (s3.vars t).size = 1 ∨ (s3.vars t).size = n
      · simp only [if_pos hc]
        rw [if_neg h2]
        split <;> omega
      · simp only [if_neg hc]
        rw [if_pos trivial, if_neg (by omega)]
        omega
  obtain ⟨_, gs2, gs3⟩ := gsize_mem g hN
  have hQ := gsize_top2 gs2
  have hnN : n ≤ N := by omega
  have o01 : Obs (GSize n N) w s s3 :=
    ⟨fun k hk => (sm1 k hk).type, fun k _ => .inl (z1 k), (ev1 w).clean, fun k hk e => e.body (sm1 k hk).body,
      fun k hk l x c _ hv => entry_frame h st1 f1 hk (h.alive hk) c hv⟩
  have val01 : ∀ l z, GatherVal s stack src idx mask n l z → GVT s3 stack src idx mask n l z := fun l z =>
    gvt_of (N := N) h st1 f1 z1 a.typed ws ⟨a.usrc, a.hsrc⟩ wi ⟨a.uidx, a.hidx⟩ wm ⟨a.umask, a.hmask⟩
      (by rw [← z1]; exact hisz) (by rw [← z1]; exact hmsz) fun t ht =>
        ⟨hst t ht, by have := (a.otop t ht).1.sized; omega, (a.otop t ht).2.2⟩
  -- releasing the source
  have fin : ∀ {m r s' U'} (_ : m = n ∨ m = N), RAt (GSize n N) s3 (plus w [src]) (plus w [src]) (s.vars src).type m
      (GVT s3 stack src idx mask n) r s' U' →
      wlp (do decRef src; pure r) s' (fun r s' => ∃ U' m, (m = n ∨ m = N) ∧
        RAt (GSize n N) s w w (s.vars src).type m (GatherVal s stack src idx mask n) r s' U') := by
    intro m r s' U' hm R
    have R' : RAt (GSize n N) s3 w (plus w [src]) (s.vars src).type m (GVT s3 stack src idx mask n) r s' U' :=
      ⟨R.st, R.obs.mono fun _ => plus_pos_left, R.ne, R.type, R.size, R.clean, R.lit, R.val⟩
    refine wlp_bind (wlp_mono ((R'.before hQ o01 val01).drop hQ fun _ => id) ?_)
    rintro _ s'' ⟨U'', R⟩
    exact wlp_pure ⟨U'', m, hm, R⟩
  refine wlp_ite (fun hzero => ?_) (fun hzero => ?_)
  · refine wlp_bind ?_
    unfold makeZero
    dsimp only
    rw [hn, hsty]
    refine wlp_mono (literal_post st1 hpos (fun _ => rfl)) ?_
    rintro r s4 ⟨⟨U4, q⟩, _, _, hk⟩
    have q : PostAt _ _ _ _ _ _ _ r s4 U4 := q
    refine fin (m := n) (.inl rfl) (((q.gat fun k hk' => .inl (hk k (st1.alive hk')).1).mono ?_).rat st1)
    rintro l z ⟨⟨hl, x, hx, hz⟩, _⟩
    have hz' : (s3.vars mask).kind = .literal ∧ (s3.vars mask).literal = 0#64 := by
      simpa [isZero, Var.isLiteral] using hzero
    rcases hz with ⟨hm, _⟩ | ⟨_, _, rfl⟩
    · have := hm.1.1.unique (Val.literal hz'.1)
      rw [hz'.2, norm_zero] at this
      cases this
    · exact (norm_zero _).symm
  · refine wlp_clean (by simp [oi.clean, os.clean]) ?_
    refine wlp_bind (wlp_mono (gatherElide_post g hN hn
      (by rw [(sm1 idx wi).kind, (sm1 idx wi).type]; exact a.ictr) (by rw [z1]; exact a.ssize)) ?_)
    rintro r s4 ⟨U4, ⟨rfl, st4, ev4, hs1⟩ | ⟨m, hm, G⟩⟩
    · rw [if_neg (fun e => e rfl)]
      have o34 := Evo.obs st1 st4 ev4
      have sms := (sm1 src ws).trans (same_of st1 st4 ev4.frame os.held (st1.alive os.held)).2
      refine wlp_bind (wlp_mono (varEval_post (Q := GSize n N) hE st4 os.held (fun hk => ?_)
        (typed_next st1 os.held g.typed st4 ev4.frame) ?_) ?_)
      · rw [sms.kind] at hk
        rw [ev4.frame.side, f1.side]
        exact a.quiet hk
      · have := (o34.size src os.held).grow
        have := os.sized
        omega
      rintro _ s5 ⟨U5, st5, o45, hke, hlit⟩
      have o35 := o34.trans hQ o45
      have hsz : ∀ k, 0 < plus w [src] k → SizeOK (GSize n N) s3 s5 k := o35.size
      have us5 := usable_q (stack := stack) gs2 fun t ht => hsz t (sk t ht).1.held
      have hsrc5 : (s5.vars src).size ≠ 1 := by
        have := (hsz src os.held).grow
        have := os.sized
        omega
      have hsrcz : (s5.vars src).size = (s3.vars src).size := by
        rcases hsz src os.held with e | ⟨q1, q2, q3⟩
        · exact e
        · have := os.sized
          exact (hQ _ _ q1 q3 (by omega) q2).symm
      have qi : GSize n N (s3.vars idx).size := by unfold GSize; omega
      have qm : GSize n N (s3.vars mask).size := by unfold GSize; omega
      have v35 : ∀ l z, GVT s3 stack src idx mask n l z → GV s5 stack src idx mask n l z := fun l z hv =>
        hv.1.next hnN o35 os.held oi.held om.held (fun t ht => (sk t ht).1.held) us5 qi qm gs3
      refine wlp_ite (fun hsc => ?_) (fun _ => ?_)
      · obtain ⟨hsc1, hsc2⟩ := hsc
        have hn1 : n = 1 := by omega
        have li := hin.literal.1 hsc2 idx (by simp)
        have lm := hin.literal.1 hsc2 mask (by simp)
        have hi1 : idx ≠ src := by rintro rfl; omega
        have hm1 : mask ≠ src := by rintro rfl; omega
        have smi := (same_of st1 st4 ev4.frame oi.held (st1.alive oi.held)).2
        have smm := (same_of st1 st4 ev4.frame om.held (st1.alive om.held)).2
        obtain ⟨li5, _⟩ := hlit idx oi.held hi1 (by rw [smi.kind, li])
        obtain ⟨lm5, lv5⟩ := hlit mask om.held hm1 (by rw [smm.kind, lm])
        refine wlp_bind (wlp_mono (gatherScalar_post (stack := stack) (Q := GSize n N) (mask := mask) hA st5 hQ hke hsrc5
          (by rw [hsty, o35.type src os.held, (sm1 src ws).type]) (o35.operand oi) li5 (o35.operand om) lm5
          (by rw [o35.type mask om.held, tmv]) ?_) ?_)
        · rw [lv5, (body_fields smm.body).2.2.1]
          intro e
          apply hzero
          simp [isZero, Var.isLiteral, lm, e]
        · rintro r s6 ⟨U6, R⟩
          rw [o35.type src os.held, (sm1 src ws).type, ← hn1] at R
          exact fin (.inl rfl) (R.before hQ o35 v35)
      · have hap : max n (applySize s5 stack mask n) = N ∧ (usable s5 stack n = 0 → N = n) := by
          have e1 := (hsz mask om.held).grow
          have e2 := (hsz mask om.held).mem qm
          have e3 := om.sized
          by_cases h0 : usable s3 stack n = 0
          · unfold applySize at *
            rw [us5, if_pos h0] at *
            exact ⟨by omega, by omega⟩
          · have hu := (sk _ (usable_mem h0)).1.held
            have e4 := (hsz _ hu).grow
            have e5 := (hsz _ hu).mem (gs3 h0)
            unfold applySize at *
            rw [us5, if_neg h0] at *
            unfold GSize at e2 e5
            exact ⟨by omega, fun e => absurd e h0⟩
        refine wlp_bind (wlp_mono (gatherNode_post (N := N) st5 (o35.operand os) hke hsrc5 (by rw [hsrcz, z1]; exact a.ssize)
          (by rw [hsty, o35.type src os.held, (sm1 src ws).type]) (o35.operand oi)
          (by rw [o35.type idx oi.held]; exact tiv) ((hsz idx oi.held).mem qi) (o35.operand om)
          (by rw [o35.type mask om.held, tmv]) ((hsz mask om.held).mem qm)
          (fun t ht => ⟨o35.operand (sk t ht).1, by rw [o35.type t (sk t ht).1.held, (sk t ht).2]⟩) ?_ hn hpos hap.2
          hap.1) ?_)
        · rw [us5]
          intro h0
          exact (hsz _ (sk _ (usable_mem h0)).1.held).mem (gs3 h0)
        · rintro r s6 ⟨U6, G⟩
          rw [o35.type src os.held, (sm1 src ws).type] at G
          exact fin (.inr rfl) ((G.rat st5).before hQ o35 v35)
    · rw [if_pos G.ne]
      refine wlp_bind (wlp_pure ?_)
      rw [(sm1 src ws).type] at G
      exact fin hm (G.rat st1)

end Verif.Gather
