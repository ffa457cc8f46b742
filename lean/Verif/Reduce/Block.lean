import Verif.Reduce.Chain
import Verif.Reduce.Arith
/-!
# Block reductions of literals
-/
namespace Verif.Reduce
open Verif.Var Verif.Ops Verif.Gather
open Verif.Llvm (ROp IsReduction slice scanList num ceilDiv32 cdiv ceilDiv32_eq)

variable {s s1 s2 : Store} {U U1 U2 : List Nat} {u w w' : Nat → Nat} {ev : M Unit} {N n r a b src k : Nat}
variable {t : VType} {op : ROp} {V : Nat → BitVec 64 → Prop} {z : BitVec 64}

/-- Selection of the value of the last block. -/
theorem joinTrailer_post (h0 : St s U u) {x y : BitVec 64} {res : Nat} (ht : t.isInt = true) (hN : 0 < N)
    (hN' : N < 2 ^ 32) (h : Tmp s U u (plus u [res]) s1 U1)
    (f : Fact s1 (plus u [res]) N res t True (fun _ z => z = norm t x)) :
    wlp (joinTrailer ev b t y N res) s1 (fun r s' => ∃ U', Tmp s U u (plus u [r]) s' U' ∧
      Fact s' (plus u [r]) N r t True (fun l z => l < N ∧ z = if l + 1 < N then norm t x else norm t y)) := by
  have hb : t ≠ .bool := by rintro rfl; revert ht; decide
  have hv : t ≠ .void := by rintro rfl; revert ht; decide
  unfold joinTrailer
  -- the temporaries
  refine wlp_bind (wlp_mono (literal_post h.st hN (fun e => absurd e hb)) ?_)
  rintro tr s2 ⟨p2, _⟩
  obtain ⟨U2, h2⟩ := h.step p2
  have f2 := f.next h p2 (le_refl N)
  have tr2 := Fact.new p2 hN (le_refl N)
  refine wlp_bind (wlp_mono (counter_any h2.st hN) ?_)
  intro c s3 p3
  obtain ⟨U3, h3⟩ := h2.step p3
  have f3 := f2.next h2 p3 (le_refl N)
  have tr3 := tr2.next h2 p3 (le_refl N)
  have c3 := Fact.new p3 hN (le_refl N)
  refine wlp_bind (wlp_mono (literal_post h3.st (by omega : 0 < 1) (fun e => nomatch e)) ?_)
  rintro li s4 ⟨p4, _⟩
  obtain ⟨U4, h4⟩ := h3.step p4
  have f4 := f3.next h3 p4 (by omega)
  have tr4 := tr3.next h3 p4 (by omega)
  have c4 := c3.next h3 p4 (by omega)
  have l4 := Fact.new (N := N) p4 (by omega) (by omega)
  refine wlp_bind (wlp_mono (lt_post h4.st ⟨c4.op, l4.op, by rw [c4.type]; exact .inl rfl, by rw [l4.type, c4.type]⟩) ?_)
  intro m s5 p5
  have hc4 := c4.full rfl
  have hl4 := l4.le
  have hmax : max (s4.vars c).size (s4.vars li).size = N := by omega
  unfold Post2 at p5
  rw [hmax] at p5
  obtain ⟨U5, h5⟩ := h4.step p5
  have f5 := f4.next h4 p5 (le_refl N)
  have tr5 := tr4.next h4 p5 (le_refl N)
  have m5 := Fact.new p5 hN (le_refl N)
  have m5' := m5.mono (full' := True) (V' := fun l z => l < N ∧ z = ofBool (decide (l + 1 < N))) (fun _ => rfl) (by
    rintro l z ⟨hl, rfl⟩
    refine ⟨_, _, c4.val l _ ⟨hl, rfl⟩, l4.val l _ rfl, ?_⟩
    rw [c4.type, l4.type]
    have e1 : (N + 2 ^ 32 - 1) % 2 ^ 32 = N - 1 := by omega
    rw [e1]
    simp only [sem2, semCmp]
    rw [if_pos ⟨trivial, trivial⟩, if_pos (.inl rfl), norm_u32 (by omega), norm_u32 (by omega), cInt_u32 (by omega),
      cInt_u32 (by omega)]
    have e2 : ((l : Int) < ((N - 1 : Nat) : Int)) ↔ l + 1 < N := by omega
    simp only [e2])
  have hs := select_post (ev := ev) h5.st m5'.op f5.op tr5.op m5'.type (by rw [f5.type]; exact hv) (by rw [tr5.type, f5.type])
  rw [m5'.full trivial, f5.full trivial, tr5.full rfl, Nat.max_self, Nat.max_self, f5.type] at hs
  refine wlp_bind (wlp_mono hs ?_)
  intro r s6 p6
  obtain ⟨U6, h6⟩ := h5.step p6
  have r6 := (Fact.new p6 hN (le_refl N)).mono (full' := True)
    (V' := fun l z => l < N ∧ z = if l + 1 < N then norm t x else norm t y) (fun _ => rfl) (by
    rintro l z ⟨hl, rfl⟩
    refine ⟨_, _, _, m5'.val l _ ⟨hl, rfl⟩, f5.val l _ rfl, tr5.val l _ rfl, ?_⟩
    rw [m5'.type, f5.type, tr5.type]
    simp only [sem3]
    rw [if_pos ⟨trivial, trivial, trivial⟩, norm_norm, norm_norm]
    by_cases hl' : l + 1 < N <;> simp [hl', ofBool])
  have ur : ∀ m : List Nat, 0 < plus (plus u [r]) m r := fun m => by
    have : r ≠ 0 := (h6.st.alive r6.op.held).1
    apply plus_pos_left
    rw [plus_self this]; omega
  have uu : ∀ (k : Nat) (m : List Nat), 0 < u k → 0 < plus (plus u [r]) m k := fun k m hk => plus_pos_left (plus_pos_left hk)
  -- releases
  refine wlp_bind (wlp_mono (h6.drop (N := N) (w' := plus (plus u [r]) [tr, c, li, m]) ?_ (fun k => uu k _)) ?_)
  · funext k; unfold plus; split <;> simp [List.count_cons] <;> omega
  rintro _ s7 ⟨⟨U7, h7⟩, g7⟩
  have r7 := g7 r6 (ur _)
  refine wlp_bind (wlp_mono (h7.drop (N := N) (w' := plus (plus u [r]) [tr, c, li]) ?_ (fun k => uu k _)) ?_)
  · funext k; unfold plus; split <;> simp [List.count_cons] <;> omega
  rintro _ s8 ⟨⟨U8, h8⟩, g8⟩
  have r8 := g8 r7 (ur _)
  refine wlp_bind (wlp_mono (h8.drop (N := N) (w' := plus (plus u [r]) [tr, c]) ?_ (fun k => uu k _)) ?_)
  · funext k; unfold plus; split <;> simp [List.count_cons] <;> omega
  rintro _ s9 ⟨⟨U9, h9⟩, g9⟩
  have r9 := g9 r8 (ur _)
  refine wlp_bind (wlp_mono (h9.drop (N := N) (w' := plus (plus u [r]) [tr]) ?_ (fun k => uu k _)) ?_)
  · funext k; unfold plus; split <;> simp [List.count_cons] <;> omega
  rintro _ s10 ⟨⟨U10, h10⟩, g10⟩
  have r10 := g10 r9 (ur _)
  refine wlp_bind (wlp_mono (h10.drop (N := N) (w' := plus u [r]) rfl (fun k => plus_pos_left)) ?_)
  rintro _ s11 ⟨⟨U11, h11⟩, g11⟩
  exact wlp_pure ⟨U11, h11, g11 r10 (by have := ur []; rwa [plus_nil] at this)⟩

/-! ## The values -/

theorem setWidth_inj {w : Nat} (h : w ≤ 64) {a b : BitVec w} (e : a.setWidth 64 = b.setWidth 64) : a = b := by
  rw [← setWidth_setWidth h a, e, setWidth_setWidth h b]

theorem bits_le (t : VType) : t.bits ≤ 64 := by cases t <;> decide

theorem entries_lit (hl : (s.vars src).kind = .literal) {f : Nat → BitVec (s.vars src).type.bits}
    (h : Entries s src n f) : ∀ j < n, f j = (s.vars src).literal.setWidth (s.vars src).type.bits := by
  intro j hj
  exact setWidth_inj (bits_le _) ((h j hj).unique (Val.literal hl))

theorem block_det (hl : (s.vars src).kind = .literal) (hk : 0 < k) (h : BlockValue s src k op b z) :
    b * k < (s.vars src).size ∧ z = (rep op (min k ((s.vars src).size - b * k))
      ((s.vars src).literal.setWidth (s.vars src).type.bits)).setWidth 64 := by
  obtain ⟨hb, f, y, hf, rfl, hr⟩ := h
  refine ⟨hb, ?_⟩
  rw [slice_rep (Nat.min_le_right _ _) (entries_lit hl hf), rep_iff (.inl (by omega))] at hr
  rw [hr]
  congr 2
  omega

theorem rep_one {w : Nat} (v : BitVec w) : rep op 1 v = v := by
  cases op <;> simp [rep]

end Verif.Reduce
