import Verif.Gather.GatherMain
import Verif.Gather.MaskProps
/-!
# Properties of gathers

The states are those reached by histories of the calls of `Verif.Var.Call`, arithmetic operations,
operations on the mask stack, and gathers.
-/
namespace Verif.Gather
open Verif.Var Verif.Ops

variable {s s' s1 s1' : Store} {U : List Nat} {u : Nat → Nat} {ev : M Unit} {st : List Nat}
variable {evalVar : Nat → M Unit} {alloc : M (BitVec 64)} {cb : Nat → Bool} {fuel src idx mask r r1 : Nat}

/-- Histories that include gathers.  `evalVar` evaluates a variable, `alloc` allocates memory, `cb`
tells which variables have a callback attached, and `fuel` bounds the depth of recursion. -/
inductive GReachable (ev : M Unit) (evalVar : Nat → M Unit) (alloc : M (BitVec 64)) (cb : Nat → Bool) :
    Store → (Nat → Nat) → List Nat → Prop
  | init {s : Store} {u : Nat → Nat} : OReachable ev s u → GReachable ev evalVar alloc cb s u []
  | step {s s' : Store} {u u' : Nat → Nat} {st st' : List Nat} {o : MOp} :
      GReachable ev evalVar alloc cb s u st → MStep ev s u st o s' u' st' →
      GReachable ev evalVar alloc cb s' u' st'
  | gather {s s' : Store} {u : Nat → Nat} {st : List Nat} {fuel src idx mask r : Nat} :
      GReachable ev evalVar alloc cb s u st → WritesOK s → GatherArgs s u st src idx mask →
      varGather ev evalVar alloc cb st fuel src idx mask s = .ok r s' →
      GReachable ev evalVar alloc cb s' (gain u r) st

theorem isNode_ne {v : Var} (h : v.isNode = true) : v.kind ≠ .evaluated := by
  intro e
  simp [Var.isNode, e] at h

/-- The result of a gather, given the invariant. -/
theorem gather_spec (hE : EvalOK evalVar) (hA : AllocOK alloc) (h : MInv s U u st) (hw : WritesOK s)
    (a : GatherArgs s u st src idx mask)
    (he : varGather ev evalVar alloc cb st fuel src idx mask s = .ok r s') :
    ∃ U' m, (m = gatherSize s idx mask ∨ m = gatherMax s st idx mask) ∧
      RAt (GSize (gatherSize s idx mask) (gatherMax s st idx mask)) s (plus u st) (plus u st) (s.vars src).type m
        (GatherVal s st src idx mask (gatherSize s idx mask)) r s' U' := by
  refine varGather_post hE hA (w := plus u st) ⟨h.2, (writesOK_iff h.2).1 hw⟩ a (fun _ => plus_pos_left) ?_ r s' he
  intro t ht
  have := (a.otop t ht).1.held
  rwa [holders_eq h.1] at this

theorem greachable_inv (hev : EvOK ev) (hE : EvalOK evalVar) (hA : AllocOK alloc)
    (h : GReachable ev evalVar alloc cb s u st) : ∃ U, MInv s U u st := by
  induction h with
  | init h0 =>
    obtain ⟨U, hi⟩ := oreachable_inv hev h0
    exact ⟨U, by simp, by rw [plus_nil]; exact hi⟩
  | step _ h1 ih =>
    obtain ⟨U, hi⟩ := ih
    obtain ⟨U1, i1, _⟩ := mstep_inv hev hi h1
    exact ⟨U1, i1⟩
  | gather _ hw a he ih =>
    obtain ⟨U, hi⟩ := ih
    obtain ⟨U', m, _, R⟩ := gather_spec hE hA hi hw a he
    refine ⟨U', hi.1, ?_⟩
    rw [gain_eq, plus_comm]
    exact R.st.inv

/-- **C40.** A gather returns an array of the type of the source and the size of index and mask whose
entries are the entries of the source that the index designates, and zero where the mask is not set.
This holds no matter whether the source is in memory or an expression, and whether the expression is
evaluated first or rebuilt with permuted indices; the variables that the caller holds keep their
values. -/
theorem C40_gather (hev : EvOK ev) (hE : EvalOK evalVar) (hA : AllocOK alloc)
    (h : GReachable ev evalVar alloc cb s u st) (hw : WritesOK s) (a : GatherArgs s u st src idx mask)
    (he : varGather ev evalVar alloc cb st fuel src idx mask s = .ok r s') :
    Gathers s u st src idx mask s' r := by
  obtain ⟨U, hi⟩ := greachable_inv hev hE hA h
  obtain ⟨U', m, hm, R⟩ := gather_spec hE hA hi hw a he
  have hg : 0 < gatherSize s idx mask := by
    have := a.oidx.sized
    unfold gatherSize
    omega
  have hle : gatherSize s idx mask ≤ gatherMax s st idx mask := by unfold gatherMax; omega
  have h1 : gatherSize s idx mask ≠ 1 → gatherMax s st idx mask = gatherSize s idx mask := by
    intro e
    unfold gatherMax
    cases st with
    | nil => simp
    | cons t l => simp only [if_neg e]; omega
  have ho := holders_eq (u := u) hi.1
  refine ⟨?_, R.type, by rw [R.size]; exact hm, ?_, ?_, ?_, ?_⟩
  · exact (live_iff R.st.inv r).2 (R.st.alive (by rw [plus_self R.ne]; omega))
  · intro l z hz x
    have := R.val l z hz
    exact ⟨fun hx => hx.unique this, fun e => e ▸ this⟩
  · exact fun v => ⟨fun o => o.held, fun hv => ⟨hv, by rw [R.size]; omega, R.clean, R.lit⟩⟩
  · intro k hk
    rw [ho] at hk
    exact (live_iff R.st.inv k).2 (R.st.alive (plus_pos_left hk))
  · rw [ho]
    refine ⟨R.obs.type, fun k hk => ?_, R.obs.clean, R.obs.lit, R.obs.val⟩
    rcases R.obs.size k hk with e | ⟨q1, q2, q3⟩
    · exact .inl e
    · unfold GSize at q1 q3
      omega

/-- **C40 (evaluation does not matter).** The gather from an expression and the gather that follows
the evaluation of this expression have the same entries.  (Both gathers are admissible and the sizes
of index and mask fit.) -/
theorem C40_same_as_evaluated (hev : EvOK ev) (hE : EvalOK evalVar) (hA : AllocOK alloc)
    (h : GReachable ev evalVar alloc cb s u st) (hw : WritesOK s) (a : GatherArgs s u st src idx mask)
    (he : varGather ev evalVar alloc cb st fuel src idx mask s = .ok r s')
    (hn : (s.vars src).isNode = true) (h1 : evalVar src s = .ok () s1)
    (a1 : GatherArgs s1 u st src idx mask)
    (he1 : varGather ev evalVar alloc cb st fuel src idx mask s1 = .ok r1 s1')
    (hi : (s.vars idx).size = 1 ∨ (s.vars idx).size = gatherSize s idx mask)
    (hm : (s.vars mask).size = 1 ∨ (s.vars mask).size = gatherSize s idx mask)
    {l : Nat} {z : BitVec 64} (hz : GatherVal s st src idx mask (gatherSize s idx mask) l z) :
    (s1.vars src).kind = .evaluated ∧ (s1'.vars r1).type = (s'.vars r).type ∧
    ∀ x, (Val s' r l x ↔ x = z) ∧ (Val s1' r1 l x ↔ x = z) := by
  obtain ⟨U, hI⟩ := greachable_inv hev hE hA h
  have G := C40_gather hev hE hA h hw a he
  have hsrc : 0 < plus u st src := plus_pos_left a.osrc.held
  obtain ⟨⟨U1, I1⟩, E⟩ := hE s U (plus u st) src hI.2 hw (a.quiet (isNode_ne hn)) hsrc hn a.typed
    (fun e l l' x hx => a.hsrc.entry (.inr e) (a.usrc e l l' x hx.1)) s1 h1
  obtain ⟨U', m, hmm, R⟩ := gather_spec hE hA (⟨hI.1, I1⟩ : MInv s1 U1 u st) E.writes a1 he1
  have wi : 0 < plus u st idx := plus_pos_left a.oidx.held
  have wm : 0 < plus u st mask := plus_pos_left a.omask.held
  have hgs : gatherSize s1 idx mask = gatherSize s idx mask := by
    unfold gatherSize
    rw [E.size _ wi, E.size _ wm]
  refine ⟨E.done, by rw [R.type, G.type, E.keeps.type _ hsrc], fun x => ⟨G.value l z hz x, ?_⟩⟩
  have tr : ∀ {k l y}, 0 < plus u st k → Uniform s k ∧ Shaped s k → Covers (s.vars k).size l → Val s k l y →
      Val s1 k l y := by
    intro k l y hk hu hc hv
    have hv := hu.1.val hu.2 hc hv
    exact (E.keeps.val _ hk _ _ (by rw [E.size _ hk]; exact hc) hv.2 hv.1).1
  have key : GatherVal s1 st src idx mask (gatherSize s1 idx mask) l z := by
    obtain ⟨hl, x, hx, hd⟩ := hz
    have ci : Covers (s.vars idx).size l := by clear hd; unfold Covers; omega
    have cm : Covers (s.vars mask).size l := by clear hd; unfold Covers; omega
    have top : ∀ t, Top s1 st (gatherSize s1 idx mask) t →
        Top s st (gatherSize s idx mask) t ∧ 0 < plus u st t ∧ Uniform s t ∧ Shaped s t := by
      rintro t ⟨e1, e2⟩
      have ht := a.otop t e1
      have h0 := ht.1.held
      rw [holders_eq hI.1] at h0
      rw [hgs, E.size t h0] at e2
      exact ⟨⟨e1, e2⟩, h0, ht.2.2⟩
    have ct : ∀ t, Top s st (gatherSize s idx mask) t → Covers (s.vars t).size l := by
      rintro t ⟨e1, e2⟩
      have := (a.otop t e1).1.sized
      unfold Covers
      omega
    refine ⟨by rw [hgs]; exact hl, x, tr wi ⟨a.uidx, a.hidx⟩ ci hx, ?_⟩
    rcases hd with ⟨m1, t1, p, e, hp, hv⟩ | ⟨m0, t0, _, rfl⟩
    · refine .inl ⟨tr wm ⟨a.umask, a.hmask⟩ cm m1, fun t ht => ?_, p, by rw [E.keeps.type _ wi]; exact e,
        by rw [E.size _ hsrc]; exact hp, tr hsrc ⟨a.usrc, a.hsrc⟩ (.inl hp) hv⟩
      obtain ⟨b1, b2, b3⟩ := top t ht
      exact tr b2 b3 (ct t b1) (t1 t b1)
    · refine .inr ⟨tr wm ⟨a.umask, a.hmask⟩ cm m0, fun t ht => ?_, .evaluated E.done, rfl⟩
      obtain ⟨b1, b2, b3⟩ := top t ht
      obtain ⟨y, hy⟩ := t0 t b1
      exact ⟨y, tr b2 b3 (ct t b1) hy⟩
  have := R.val l z key
  exact ⟨fun hx => hx.unique this, fun e => e ▸ this⟩

end Verif.Gather
