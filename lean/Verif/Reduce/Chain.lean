import Verif.Gather.TileProps
/-!
# Temporaries that are released in any order
-/
namespace Verif.Reduce
open Verif.Var Verif.Ops Verif.Gather

variable {s s1 s2 : Store} {U U1 U2 : List Nat} {u w w' : Nat → Nat} {ev : M Unit} {N n r a : Nat} {t t' : VType}
variable {full lit : Prop} {V V' : Nat → BitVec 64 → Prop}

/-- A state during a call: the references `w` are held, which include those of the caller. -/
structure Tmp (s : Store) (U : List Nat) (u w : Nat → Nat) (s1 : Store) (U1 : List Nat) : Prop where
  st : St s1 U1 w
  frame : Frame u s U s1 U1
  sub : ∀ k, 0 < u k → 0 < w k
  clean : ∀ k, 0 < u k → (s.vars k).isDirty = false → (s1.vars k).isDirty = false

theorem Tmp.start (h : St s U u) : Tmp s U u u s U := ⟨h, Frame.refl, fun _ => id, fun _ _ => id⟩

/-- What is known about a temporary. -/
structure Fact (s : Store) (w : Nat → Nat) (N : Nat) (r : Nat) (t : VType) (full : Prop)
    (V : Nat → BitVec 64 → Prop) : Prop where
  op : Operand s w r
  type : (s.vars r).type = t
  le : (s.vars r).size ≤ N
  full : full → (s.vars r).size = N
  val : ∀ l z, V l z → Val s r l z

theorem Fact.mono {full' : Prop} (h : Fact s w N r t full V) (hf : full' → full) (hV : ∀ l z, V' l z → V l z) :
    Fact s w N r t full' V' :=
  ⟨h.op, h.type, h.le, fun e => h.full (hf e), fun l z e => h.val l z (hV l z e)⟩

theorem Tmp.step (h : Tmp s U u w s1 U1) (p : Post s1 U1 w t n lit V r s2) :
    ∃ U2, Tmp s U u (plus w [r]) s2 U2 := by
  obtain ⟨U2, p⟩ := p
  have q : PostAt s1 U1 w t n lit V r s2 U2 := p
  refine ⟨U2, q.st, h.frame.trans (q.frame.mono h.sub), fun k hk => plus_pos_left (h.sub k hk), ?_⟩
  exact fun k hk e => q.held.clean k (h.sub k hk) (h.clean k hk e)

theorem Fact.new (p : Post s1 U1 w t n lit V r s2) (h0 : 0 < n) (hn : n ≤ N) :
    Fact s2 (plus w [r]) N r t (n = N) V := by
  obtain ⟨U2, p⟩ := p
  have q : PostAt s1 U1 w t n lit V r s2 U2 := p
  exact ⟨q.operand h0, q.type, by rw [q.size]; exact hn, fun e => by rw [q.size, e], fun l z hz => q.val hz⟩

theorem Fact.next (f : Fact s1 w N a t full V) (h : Tmp s U u w s1 U1) (p : Post s1 U1 w t' n lit V' r s2)
    (hn : n ≤ N) : Fact s2 (plus w [r]) N a t full V := by
  obtain ⟨U2, p⟩ := p
  have q : PostAt s1 U1 w t' n lit V' r s2 U2 := p
  have sm := q.same h.st f.op.held
  have z := q.held.size a f.op.held
  have l := f.le
  refine ⟨q.keep h.st f.op, sm.type.trans f.type, by omega, fun e => ?_, fun l z hz => sm.val l z (f.val l z hz)⟩
  have := f.full e
  omega

/-- Release of a reference. -/
theorem Tmp.drop {d : Nat} (h : Tmp s U u w s1 U1) (e : w = plus w' [d]) (hs : ∀ k, 0 < u k → 0 < w' k) :
    wlp (decRef d) s1 (fun _ s2 => (∃ U2, Tmp s U u w' s2 U2) ∧
      ∀ {a t full V}, Fact s1 w N a t full V → 0 < w' a → Fact s2 w' N a t full V) := by
  have h1 := h.st
  rw [e] at h1
  refine wlp_mono (decRef_post h1) ?_
  rintro _ s2 ⟨U2, a1, a2, a3, a4⟩
  refine ⟨⟨U2, a1, h.frame.trans (a2.mono hs), hs, fun k hk e => a4 k (h.clean k hk e)⟩, ?_⟩
  intro a t full V f ha
  have sm := (same_of h.st a1 a2 ha (h.st.alive f.op.held)).2
  have z := a3.2 a
  refine ⟨⟨ha, by rw [z]; exact f.op.sized, a4 a f.op.clean, f.op.lit.body sm.body⟩, sm.type.trans f.type,
    by rw [z]; exact f.le, fun e => by rw [z]; exact f.full e, fun l z hz => sm.val l z (f.val l z hz)⟩

/-- The end of a call. -/
theorem Tmp.computes (h0 : St s U u) (h : Tmp s U u (plus u [r]) s1 U1) (f : Fact s1 (plus u [r]) N r t True V) :
    Computes s u s1 r t N V := by
  refine ⟨(live_iff h.st.inv r).2 (h.st.alive f.op.held), f.type, f.full trivial, ?_, ?_, ?_⟩
  · intro l z hz x
    have hv := f.val l z hz
    exact ⟨fun hx => hx.unique hv, fun e => e ▸ hv⟩
  · exact fun l => ⟨fun h => h.held, fun h => ⟨h, f.op.sized, f.op.clean, f.op.lit⟩⟩
  · intro i hi
    obtain ⟨a1, a2⟩ := same_of h0 h.st h.frame hi (h0.alive hi)
    exact ⟨(live_iff h.st.inv i).2 a1, a2.type, a2.val⟩

theorem Post.done {V : Nat → BitVec 64 → Prop} (h : St s U u) (p : Post s U u t N lit V r s1) (hn : 0 < N) :
    ∃ U1, Tmp s U u (plus u [r]) s1 U1 ∧ Fact s1 (plus u [r]) N r t True V := by
  obtain ⟨U1, q⟩ := (Tmp.start h).step p
  exact ⟨U1, q, (Fact.new p hn (le_refl N)).mono (fun _ => rfl) (fun _ _ => id)⟩

/-- A counter, in any scope. -/
theorem counter_any (h : St s U u) {b : Nat} (hn : 0 < n) :
    wlp (varCounter b n true) s (Post s U u .u32 n False
      (fun l z => l < n ∧ z = norm .u32 (BitVec.ofNat 64 l))) := by
  unfold varCounter
  refine wlp_bind (wlp_getStore ?_)
  refine wlp_ite (fun e => ?_) (fun e => ?_)
  · obtain ⟨rfl, _⟩ := e
    refine wlp_mono (literal_post h (by omega) (fun e => nomatch e)) ?_
    rintro r s' ⟨p, _, _, k⟩
    refine p.mono (fun e => e.elim) (fun l z e => ?_)
    obtain ⟨e1, e2⟩ := e
    have : l = 0 := by omega
    subst this
    exact e2
  have := counter_post (b := b) (n := n) h
  unfold varCounter at this
  intro r s' er
  refine ((this r s' ?_).1).mono (fun e => e) (fun l z e => e.2)
  change (if n = 1 ∧ false = true ∧ (!s.symbolicScope) = true then varLiteral b VType.u32 (0#64) 1 else _) s = _
  rw [if_neg (by simp)]
  exact er

end Verif.Reduce
