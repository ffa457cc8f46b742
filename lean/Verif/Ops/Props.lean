import Verif.Ops.Steps2
import Verif.Var.Props
/-!
# Properties of the arithmetic operations
-/
namespace Verif.Ops
open Verif.Var

variable {s s' : Store} {U : List Nat} {u : Nat → Nat} {ev : M Unit}

/-! ## All operations -/

theorem writesOK_iff (h : IInv s U u) : WritesOK s ↔ WOK s := by
  constructor
  · intro hw i hi
    exact hw i ((live_iff h i).2 (se_src h hi).1) (by simpa [Var.isDirty] using hi)
  · intro hw i _ hd
    exact hw i (by simpa [Var.isDirty] using hd)

theorem Post.computes {t : VType} {n : Nat} {lit : Prop} {V : Nat → BitVec 64 → Prop} {r : Nat}
    (h : St s U u) (hn : 0 < n) (p : Post s U u t n lit V r s') :
    Computes s u s' r t n V ∧ (lit → (s'.vars r).kind = .literal) ∧
      ∃ U', St s' U' (plus u [r]) := by
  obtain ⟨U', a1, a2, a3, a4, a5, a6, a7, a8, a9, a10⟩ := p
  refine ⟨⟨(live_iff a1.inv r).2 a3, a4, a5, ?_, ?_, ?_⟩, a8, U', a1⟩
  · intro l z hz x
    have hv := a9 l z hz
    exact ⟨fun hx => hx.unique hv, fun e => e ▸ hv⟩
  · exact fun l => ⟨fun o => o.held, fun e => ⟨e, by rw [a5]; exact hn, a6, a7⟩⟩
  · intro i hi
    obtain ⟨b1, b2, _, b4⟩ := held_keep h.inv a1.inv a2 hi (h.alive hi)
    exact ⟨(live_iff a1.inv i).2 b1, (body_fields b2).2.1, b4⟩

theorem op1_post (h : St s U u) {op : Op1} {a0 : Nat} (hv : (OpCall.op1 op a0).Valid s u) :
    wlp (op.run ev a0) s (Post1 s U u op.kind (op.resultType (s.vars a0).type) a0) := by
  obtain ⟨h0, ha⟩ := hv
  cases op with
  | neg => exact neg_post h h0 ha
  | not => exact not_post h h0 ha
  | abs => exact abs_post h h0 ha
  | popc => exact popc_post h h0 ha
  | clz => exact clz_post h h0 ha
  | ctz => exact ctz_post h h0 ha
  | brev => exact brev_post h h0 ha
  | cast t re =>
    cases re with
    | true => exact cast_post h h0 ha.1 (.inl ⟨rfl, ha.2⟩)
    | false =>
      refine cast_post h h0 ?_ (.inr ⟨rfl, ha.1, ha.2⟩)
      intro e
      rw [e] at ha
      rcases ha.1 with c | c <;> cases c

theorem op2_post (h : St s U u) {op : Op2} {a0 a1 : Nat} (hv : (OpCall.op2 op a0 a1).Valid s u) :
    wlp (op.run ev a0 a1) s (Post s U u (op.resultType (s.vars a0).type)
      (max (s.vars a0).size (s.vars a1).size)
      (s.constProp = true ∧ (s.vars a0).kind = .literal ∧ (s.vars a1).kind = .literal ∧
        (s.vars a1).type = (s.vars a0).type)
      (V2 s op.kind (op.resultType (s.vars a0).type) a0 a1)) := by
  obtain ⟨h0, h1, ha⟩ := hv
  have fin : ∀ {k : Kind} {t : VType} {m : M Nat}, wlp m s (Post2 s U u k t a0 a1) →
      wlp m s (Post s U u t (max (s.vars a0).size (s.vars a1).size)
      (s.constProp = true ∧ (s.vars a0).kind = .literal ∧ (s.vars a1).kind = .literal ∧
        (s.vars a1).type = (s.vars a0).type) (V2 s k t a0 a1)) :=
    fun hm => wlp_mono hm (fun _ _ p => Post.mono p (fun e => ⟨e.1, e.2.1, e.2.2.1⟩) (fun _ _ => id))
  have fin' : ∀ {k : Kind} {t : VType} {m : M Nat}, wlp m s (Post2' s U u k t a0 a1) →
      wlp m s (Post s U u t (max (s.vars a0).size (s.vars a1).size)
      (s.constProp = true ∧ (s.vars a0).kind = .literal ∧ (s.vars a1).kind = .literal ∧
        (s.vars a1).type = (s.vars a0).type) (V2 s k t a0 a1)) :=
    fun hm => wlp_mono hm (fun _ _ p => Post.mono p
      (fun e => ⟨e.1, e.2.1, e.2.2.1, e.2.2.2.symm⟩) (fun _ _ => id))
  cases op with
  | add => exact fin (add_post h ⟨h0, h1, ha.2, ha.1⟩)
  | sub => exact fin (sub_post h ⟨h0, h1, ha.2, ha.1⟩)
  | mul => exact fin (mul_post h ⟨h0, h1, ha.2, ha.1⟩)
  | div => exact fin (div_post h ⟨h0, h1, ha.2, ha.1⟩)
  | mod => exact fin (mod_post h ⟨h0, h1, ha.2, ha.1⟩)
  | mulHi => exact fin (mulHi_post h ⟨h0, h1, ha.2, ha.1⟩)
  | mulWide =>
    have hw : wideType (s.vars a0).type = some (Op2.mulWide.resultType (s.vars a0).type) ∧
        (s.vars a0).type.isInt = true := by
      rcases ha.2 with e | e <;> rw [e] <;> exact ⟨rfl, rfl⟩
    exact fin (mulWide_post h ⟨h0, h1, hw.2, ha.1⟩ hw.1)
  | min => exact fin (min_post h ⟨h0, h1, ha.2, ha.1⟩)
  | max => exact fin (max_post h ⟨h0, h1, ha.2, ha.1⟩)
  | eq => exact fin (eq_post h ⟨h0, h1, ha.2, ha.1⟩)
  | neq =>
    refine fin (neq_post h ⟨h0, h1, ?_, ha.1⟩ ?_)
    · rcases ha.2 with c | c
      · exact .inl c
      · exact .inr (.inr c)
    · rcases ha.2 with c | c
      · exact (isInt_ne c).2.2
      · rw [c]; rfl
  | lt => exact fin (lt_post h ⟨h0, h1, ha.2, ha.1⟩)
  | le => exact fin (le_post h ⟨h0, h1, ha.2, ha.1⟩)
  | gt => exact fin (gt_post h ⟨h0, h1, ha.2, ha.1⟩)
  | ge => exact fin (ge_post h ⟨h0, h1, ha.2, ha.1⟩)
  | and => exact fin' (and_post h ⟨h0, h1, ha.2, ha.1⟩)
  | or => exact fin' (or_post h ⟨h0, h1, ha.2, ha.1⟩)
  | xor => exact fin (xor_post h ⟨h0, h1, ha.2, ha.1⟩)
  | shl => exact fin (shl_post h ⟨h0, h1, ha.2, ha.1⟩)
  | shr => exact fin (shr_post h ⟨h0, h1, ha.2, ha.1⟩)

theorem op3_post (h : St s U u) {op : Op3} {a0 a1 a2 : Nat}
    (hv : (OpCall.op3 op a0 a1 a2).Valid s u) :
    wlp (op.run ev a0 a1 a2) s (Post s U u (op.resultType (s.vars a0).type (s.vars a1).type)
      (max (max (s.vars a0).size (s.vars a1).size) (s.vars a2).size)
      (s.constProp = true ∧ (s.vars a0).kind = .literal ∧ (s.vars a1).kind = .literal ∧
        (s.vars a2).kind = .literal)
      (V3 s op.kind (op.resultType (s.vars a0).type (s.vars a1).type) a0 a1 a2)) := by
  obtain ⟨h0, h1, h2, ha⟩ := hv
  cases op with
  | fma => exact fma_post h ⟨h0, h1, ha.2.2, ha.1⟩ h2 ha.2.1
  | select => exact select_post h h0 h1 h2 ha.1 ha.2.2 ha.2.1

/-- Operations preserve the invariant. -/
theorem op_inv (h : St s U u) {c : OpCall} (hv : c.Valid s u) {r : Nat}
    (he : c.exec ev s = .ok r s') : r ≠ 0 ∧ ∃ U', St s' U' (plus u [r]) := by
  cases c with
  | op1 op a0 =>
    have p := op1_post h hv r s' he
    exact ⟨p.ne, (by obtain ⟨U', a, _⟩ := p; exact ⟨U', a⟩)⟩
  | op2 op a0 a1 =>
    have p := op2_post h hv r s' he
    exact ⟨p.ne, (by obtain ⟨U', a, _⟩ := p; exact ⟨U', a⟩)⟩
  | op3 op a0 a1 a2 =>
    have p := op3_post h hv r s' he
    exact ⟨p.ne, (by obtain ⟨U', a, _⟩ := p; exact ⟨U', a⟩)⟩

theorem plus_one {r : Nat} (hr : r ≠ 0) : (fun k => u k + if k = r then 1 else 0) = plus u [r] := by
  funext k
  by_cases e : k = r
  · subst e; rw [plus_self hr]; simp
  · rw [plus_ne e]; simp [e]

theorem oreachable_inv (hev : EvOK ev) (h : OReachable ev s u) : ∃ U, IInv s U u := by
  induction h with
  | init h => exact reachable_inv hev h
  | call _ hs ih =>
    obtain ⟨U, hi⟩ := ih
    obtain ⟨U', h', _⟩ := step_spec hev hi hs
    exact ⟨U', h'⟩
  | op _ hw hv he ih =>
    obtain ⟨U, hi⟩ := ih
    obtain ⟨hr, U', h'⟩ := op_inv ⟨hi, (writesOK_iff hi).1 hw⟩ hv he
    rw [plus_one hr]
    exact ⟨U', h'.inv⟩

theorem oreachable_st (hev : EvOK ev) (h : OReachable ev s u) (hw : WritesOK s) : ∃ U, St s U u := by
  obtain ⟨U, hi⟩ := oreachable_inv hev h
  exact ⟨U, hi, (writesOK_iff hi).1 hw⟩

/-! ## C10, C13: the result has the value of the unsimplified operation -/

/-- Unary operations, in every reachable state and for all flags. -/
theorem C10_C13_unary (hev : EvOK ev) (hr : OReachable ev s u) (hw : WritesOK s) (op : Op1)
    {a0 r : Nat} (h0 : Operand s u a0) (ha : op.accepts (s.vars a0).type)
    (he : op.run ev a0 s = .ok r s') :
    Computes s u s' r (op.resultType (s.vars a0).type) (s.vars a0).size (fun l z =>
      ∃ x, Val s a0 l x ∧ sem1 op.kind (op.resultType (s.vars a0).type) (s.vars a0).type x = some z) := by
  obtain ⟨U, h⟩ := oreachable_st hev hr hw
  exact (Post.computes h h0.sized (op1_post h ⟨h0, ha⟩ r s' he)).1

/-- Binary operations. -/
theorem C10_C13_binary (hev : EvOK ev) (hr : OReachable ev s u) (hw : WritesOK s) (op : Op2)
    {a0 a1 r : Nat} (h0 : Operand s u a0) (h1 : Operand s u a1)
    (ha : op.accepts (s.vars a0).type (s.vars a1).type) (he : op.run ev a0 a1 s = .ok r s') :
    Computes s u s' r (op.resultType (s.vars a0).type) (max (s.vars a0).size (s.vars a1).size)
      (fun l z => ∃ x y, Val s a0 l x ∧ Val s a1 l y ∧
        sem2 op.kind (op.resultType (s.vars a0).type) (s.vars a0).type (s.vars a1).type x y
          = some z) := by
  obtain ⟨U, h⟩ := oreachable_st hev hr hw
  refine (Post.computes h ?_ (op2_post h ⟨h0, h1, ha⟩ r s' he)).1
  have := h0.sized; omega

/-- Ternary operations. -/
theorem C10_C13_ternary (hev : EvOK ev) (hr : OReachable ev s u) (hw : WritesOK s) (op : Op3)
    {a0 a1 a2 r : Nat} (h0 : Operand s u a0) (h1 : Operand s u a1) (h2 : Operand s u a2)
    (ha : op.accepts (s.vars a0).type (s.vars a1).type (s.vars a2).type)
    (he : op.run ev a0 a1 a2 s = .ok r s') :
    Computes s u s' r (op.resultType (s.vars a0).type (s.vars a1).type)
      (max (max (s.vars a0).size (s.vars a1).size) (s.vars a2).size)
      (fun l z => ∃ x y w, Val s a0 l x ∧ Val s a1 l y ∧ Val s a2 l w ∧
        sem3 op.kind (op.resultType (s.vars a0).type (s.vars a1).type) (s.vars a0).type
          (s.vars a1).type (s.vars a2).type x y w = some z) := by
  obtain ⟨U, h⟩ := oreachable_st hev hr hw
  refine (Post.computes h ?_ (op3_post h ⟨h0, h1, h2, ha⟩ r s' he)).1
  have := h0.sized; omega

/-! ## C11: operations on literals -/

/-- With constant propagation, a unary operation on a literal returns a literal, and its value is
the one that the kernel would compute. -/
theorem C11_fold_unary (hev : EvOK ev) (hr : OReachable ev s u) (hw : WritesOK s)
    (hc : s.constProp = true) (op : Op1)
    {a0 r : Nat} (h0 : Operand s u a0) (ha : op.accepts (s.vars a0).type)
    (l0 : (s.vars a0).kind = .literal) (he : op.run ev a0 s = .ok r s') :
    (s'.vars r).kind = .literal ∧
    ∀ z, sem1 op.kind (op.resultType (s.vars a0).type) (s.vars a0).type (s.vars a0).literal = some z →
      (s'.vars r).literal = z := by
  obtain ⟨U, h⟩ := oreachable_st hev hr hw
  obtain ⟨U', a1, a2, a3, a4, a5, a6, a7, a8, a9, a10⟩ := op1_post h ⟨h0, ha⟩ r s' he
  refine ⟨a8 ⟨hc, l0⟩, fun z hz => ?_⟩
  have hx : Val s a0 0 (s.vars a0).literal := by
    have := Val.literal (l := 0) l0
    rwa [h0.lit l0] at this
  have := (a9 0 z ⟨_, hx, hz⟩).literal_inv (a8 ⟨hc, l0⟩)
  rw [this, a7 (a8 ⟨hc, l0⟩)]

/-- Binary operations on literals of the same type. -/
theorem C11_fold_binary (hev : EvOK ev) (hr : OReachable ev s u) (hw : WritesOK s)
    (hc : s.constProp = true) (op : Op2)
    {a0 a1 r : Nat} (h0 : Operand s u a0) (h1 : Operand s u a1)
    (ha : op.accepts (s.vars a0).type (s.vars a1).type) (ht : (s.vars a1).type = (s.vars a0).type)
    (l0 : (s.vars a0).kind = .literal) (l1 : (s.vars a1).kind = .literal)
    (he : op.run ev a0 a1 s = .ok r s') :
    (s'.vars r).kind = .literal ∧
    ∀ z, sem2 op.kind (op.resultType (s.vars a0).type) (s.vars a0).type (s.vars a1).type
      (s.vars a0).literal (s.vars a1).literal = some z → (s'.vars r).literal = z := by
  obtain ⟨U, h⟩ := oreachable_st hev hr hw
  obtain ⟨U', a1', a2, a3, a4, a5, a6, a7, a8, a9, a10⟩ := op2_post h ⟨h0, h1, ha⟩ r s' he
  have hl := a8 ⟨hc, l0, l1, ht⟩
  refine ⟨hl, fun z hz => ?_⟩
  have hx : Val s a0 0 (s.vars a0).literal := by
    have := Val.literal (l := 0) l0
    rwa [h0.lit l0] at this
  have hy : Val s a1 0 (s.vars a1).literal := by
    have := Val.literal (l := 0) l1
    rwa [h1.lit l1] at this
  have := (a9 0 z ⟨_, _, hx, hy, hz⟩).literal_inv hl
  rw [this, a7 hl]

/-- Ternary operations on literals. -/
theorem C11_fold_ternary (hev : EvOK ev) (hr : OReachable ev s u) (hw : WritesOK s)
    (hc : s.constProp = true) (op : Op3)
    {a0 a1 a2 r : Nat} (h0 : Operand s u a0) (h1 : Operand s u a1) (h2 : Operand s u a2)
    (ha : op.accepts (s.vars a0).type (s.vars a1).type (s.vars a2).type)
    (l0 : (s.vars a0).kind = .literal) (l1 : (s.vars a1).kind = .literal)
    (l2 : (s.vars a2).kind = .literal) (he : op.run ev a0 a1 a2 s = .ok r s') :
    (s'.vars r).kind = .literal ∧
    ∀ z, sem3 op.kind (op.resultType (s.vars a0).type (s.vars a1).type) (s.vars a0).type
      (s.vars a1).type (s.vars a2).type (s.vars a0).literal (s.vars a1).literal
      (s.vars a2).literal = some z → (s'.vars r).literal = z := by
  obtain ⟨U, h⟩ := oreachable_st hev hr hw
  obtain ⟨U', a1', a2', a3, a4, a5, a6, a7, a8, a9, a10⟩ := op3_post h ⟨h0, h1, h2, ha⟩ r s' he
  have hl := a8 ⟨hc, l0, l1, l2⟩
  refine ⟨hl, fun z hz => ?_⟩
  have hx : Val s a0 0 (s.vars a0).literal := by
    have := Val.literal (l := 0) l0
    rwa [h0.lit l0] at this
  have hy : Val s a1 0 (s.vars a1).literal := by
    have := Val.literal (l := 0) l1
    rwa [h1.lit l1] at this
  have hv : Val s a2 0 (s.vars a2).literal := by
    have := Val.literal (l := 0) l2
    rwa [h2.lit l2] at this
  have := (a9 0 z ⟨_, _, _, hx, hy, hv, hz⟩).literal_inv hl
  rw [this, a7 hl]

/-! ## C12: division, remainder and multiplication as operations on numbers -/

section
variable {t : VType} {x y : BitVec 64}

theorem cInt_setWidth (a : BitVec t.bits) :
    cInt t (a.setWidth 64) = if t.isSint then a.toInt else (a.toNat : Int) := by
  unfold cInt
  rw [setWidth_setWidth (bits_le t)]

theorem sem_div (ht : t.isInt = true) (hy : cInt t y ≠ 0)
    (ho : ¬ (t.isSint = true ∧ cInt t x = -2 ^ (t.bits - 1) ∧ cInt t y = -1)) :
    ∃ z, sem2 .div t t t x y = some z ∧ cInt t z = (cInt t x).tdiv (cInt t y) := by
  have h0 : ¬ y.setWidth t.bits = 0 := fun e => hy ((cInt_eq_zero t).2 e)
  simp only [sem2]
  rw [if_pos ⟨trivial, trivial, ht⟩, if_neg h0]
  by_cases hs : t.isSint = true
  · rw [cInt_min hs ht, cInt_neg_one hs ht] at ho
    rw [if_pos hs, if_neg (fun e => ho ⟨hs, e⟩)]
    refine ⟨_, rfl, ?_⟩
    rw [cInt_setWidth, if_pos hs, cInt_signed hs, cInt_signed hs,
      BitVec.toInt_sdiv_of_ne_or_ne]
    by_cases e : x.setWidth t.bits = BitVec.intMin _
    · exact .inr (fun e' => ho ⟨hs, e, e'⟩)
    · exact .inl e
  · have hs' : t.isSint = false := by simpa using hs
    rw [if_neg hs]
    refine ⟨_, rfl, ?_⟩
    rw [cInt_setWidth, if_neg hs, cInt_unsigned hs', cInt_unsigned hs']
    simp only [BitVec.udiv_eq, BitVec.toNat_udiv]
    rfl

theorem sem_mod (ht : t.isInt = true) (hy : cInt t y ≠ 0)
    (ho : ¬ (t.isSint = true ∧ cInt t x = -2 ^ (t.bits - 1) ∧ cInt t y = -1)) :
    ∃ z, sem2 .mod t t t x y = some z ∧ cInt t z = (cInt t x).tmod (cInt t y) := by
  have h0 : ¬ y.setWidth t.bits = 0 := fun e => hy ((cInt_eq_zero t).2 e)
  simp only [sem2]
  rw [if_pos ⟨trivial, trivial, ht⟩, if_neg h0]
  by_cases hs : t.isSint = true
  · rw [cInt_min hs ht, cInt_neg_one hs ht] at ho
    rw [if_pos hs, if_neg (fun e => ho ⟨hs, e⟩)]
    refine ⟨_, rfl, ?_⟩
    rw [cInt_setWidth, if_pos hs, cInt_signed hs, cInt_signed hs, BitVec.toInt_srem]
  · have hs' : t.isSint = false := by simpa using hs
    rw [if_neg hs]
    refine ⟨_, rfl, ?_⟩
    rw [cInt_setWidth, if_neg hs, cInt_unsigned hs', cInt_unsigned hs']
    simp only [BitVec.umod_eq, BitVec.toNat_umod]
    rfl

theorem sem_mul (ht : t.isInt = true) :
    ∃ z, sem2 .mul t t t x y = some z ∧ (2 ^ t.bits : Int) ∣ cInt t z - cInt t x * cInt t y := by
  simp only [sem2]
  rw [if_pos ⟨trivial, trivial, ht⟩]
  refine ⟨_, rfl, ?_⟩
  rw [cInt_setWidth]
  by_cases hs : t.isSint = true
  · rw [if_pos hs, cInt_signed hs, cInt_signed hs, BitVec.toInt_mul]
    have := Int.dvd_bmod_sub_self (x := (x.setWidth t.bits).toInt * (y.setWidth t.bits).toInt)
      (m := 2 ^ t.bits)
    push_cast at this
    exact this
  · have hs' : t.isSint = false := by simpa using hs
    rw [if_neg hs, cInt_unsigned hs', cInt_unsigned hs', BitVec.toNat_mul]
    push_cast
    exact Int.dvd_emod_sub_self
end

/-- The value of operand `a` in thread `l`, as a number. -/
def Num (s : Store) (a l : Nat) (n : Int) : Prop := ∃ x, Val s a l x ∧ cInt (s.vars a).type x = n

/-- Quotients are rounded towards zero whatever rewriting is used, for divisors other than zero
(and unless the quotient overflows). -/
theorem C12_div (hev : EvOK ev) (hr : OReachable ev s u) (hw : WritesOK s)
    {a0 a1 r : Nat} (h0 : Operand s u a0) (h1 : Operand s u a1)
    (ht : (s.vars a0).type.isInt = true) (ht1 : (s.vars a1).type = (s.vars a0).type)
    (he : varDiv ev a0 a1 s = .ok r s') {l : Nat} {n d : Int} (hn : Num s a0 l n) (hd : Num s a1 l d)
    (hz : d ≠ 0)
    (ho : ¬ ((s.vars a0).type.isSint = true ∧ n = -2 ^ ((s.vars a0).type.bits - 1) ∧ d = -1)) :
    (s'.vars r).type = (s.vars a0).type ∧ ∀ q, Num s' r l q ↔ q = n.tdiv d := by
  have c := C10_C13_binary hev hr hw .div h0 h1 ⟨ht1, ht⟩ he
  obtain ⟨x, hx, rfl⟩ := hn
  obtain ⟨y, hy, rfl⟩ := hd
  rw [ht1] at hz ho
  obtain ⟨z, e1, e2⟩ := sem_div (x := x) (y := y) ht hz ho
  have hv := c.value l z ⟨x, y, hx, hy, by rw [ht1]; exact e1⟩
  have ct : (s'.vars r).type = (s.vars a0).type := c.type
  refine ⟨ct, fun q => ?_⟩
  unfold Num
  rw [ct, ht1, ← e2]
  exact ⟨fun ⟨w, a, b⟩ => by rw [← b, (hv w).1 a], fun e => ⟨z, (hv z).2 rfl, e.symm⟩⟩

/-- Remainders have the sign of the dividend. -/
theorem C12_mod (hev : EvOK ev) (hr : OReachable ev s u) (hw : WritesOK s)
    {a0 a1 r : Nat} (h0 : Operand s u a0) (h1 : Operand s u a1)
    (ht : (s.vars a0).type.isInt = true) (ht1 : (s.vars a1).type = (s.vars a0).type)
    (he : varMod ev a0 a1 s = .ok r s') {l : Nat} {n d : Int} (hn : Num s a0 l n) (hd : Num s a1 l d)
    (hz : d ≠ 0)
    (ho : ¬ ((s.vars a0).type.isSint = true ∧ n = -2 ^ ((s.vars a0).type.bits - 1) ∧ d = -1)) :
    (s'.vars r).type = (s.vars a0).type ∧ ∀ q, Num s' r l q ↔ q = n.tmod d := by
  have c := C10_C13_binary hev hr hw .mod h0 h1 ⟨ht1, ht⟩ he
  obtain ⟨x, hx, rfl⟩ := hn
  obtain ⟨y, hy, rfl⟩ := hd
  rw [ht1] at hz ho
  obtain ⟨z, e1, e2⟩ := sem_mod (x := x) (y := y) ht hz ho
  have hv := c.value l z ⟨x, y, hx, hy, by rw [ht1]; exact e1⟩
  have ct : (s'.vars r).type = (s.vars a0).type := c.type
  refine ⟨ct, fun q => ?_⟩
  unfold Num
  rw [ct, ht1, ← e2]
  exact ⟨fun ⟨w, a, b⟩ => by rw [← b, (hv w).1 a], fun e => ⟨z, (hv z).2 rfl, e.symm⟩⟩

/-- Products are exact modulo two to the number of bits. -/
theorem C12_mul (hev : EvOK ev) (hr : OReachable ev s u) (hw : WritesOK s)
    {a0 a1 r : Nat} (h0 : Operand s u a0) (h1 : Operand s u a1)
    (ht : (s.vars a0).type.isInt = true) (ht1 : (s.vars a1).type = (s.vars a0).type)
    (he : varMul ev a0 a1 s = .ok r s') {l : Nat} {n d : Int} (hn : Num s a0 l n)
    (hd : Num s a1 l d) :
    (s'.vars r).type = (s.vars a0).type ∧
    ∃ q, Num s' r l q ∧ (2 ^ (s.vars a0).type.bits : Int) ∣ q - n * d := by
  have c := C10_C13_binary hev hr hw .mul h0 h1 ⟨ht1, ht⟩ he
  obtain ⟨x, hx, rfl⟩ := hn
  obtain ⟨y, hy, rfl⟩ := hd
  rw [ht1]
  obtain ⟨z, e1, e2⟩ := sem_mul (x := x) (y := y) ht
  have hv := c.value l z ⟨x, y, hx, hy, by rw [ht1]; exact e1⟩
  have ct : (s'.vars r).type = (s.vars a0).type := c.type
  exact ⟨ct, cInt _ z, ⟨z, (hv z).2 rfl, by rw [ct]⟩, e2⟩

/-! ## C14: NaN -/

/-- `eq` of floating point variables is the comparison of IEEE 754, also of a variable with
itself. -/
theorem C14_eq (hev : EvOK ev) (hr : OReachable ev s u) (hw : WritesOK s)
    {a0 a1 r : Nat} (h0 : Operand s u a0) (h1 : Operand s u a1)
    (ht : (s.vars a0).type.isFloat = true) (ht1 : (s.vars a1).type = (s.vars a0).type)
    (he : varEq ev a0 a1 s = .ok r s') :
    Computes s u s' r .bool (max (s.vars a0).size (s.vars a1).size) (fun l z =>
      ∃ x y, Val s a0 l x ∧ Val s a1 l y ∧ z = ofBool (fEq (s.vars a0).type x y)) := by
  have c := C10_C13_binary hev hr hw .eq h0 h1 ⟨ht1, .inr (.inl ht)⟩ he
  refine { c with value := ?_ }
  rintro l z ⟨x, y, hx, hy, rfl⟩
  refine c.value l _ ⟨x, y, hx, hy, ?_⟩
  have hnb : ¬ ((s.vars a0).type.isInt = true ∨ (s.vars a0).type = .bool) := by
    revert ht; cases (s.vars a0).type <;> decide
  rw [ht1]
  show semCmp .bool _ _ _ _ x y = _
  unfold semCmp
  rw [if_pos ⟨rfl, rfl⟩, if_neg hnb, if_pos ht]

/-- A NaN is not equal to itself. -/
theorem C14_eq_self (hev : EvOK ev) (hr : OReachable ev s u) (hw : WritesOK s)
    {a r : Nat} (h0 : Operand s u a) (ht : (s.vars a).type.isFloat = true)
    (he : varEq ev a a s = .ok r s') {l : Nat} {x : BitVec 64} (hx : Val s a l x) :
    ∀ z, Val s' r l z ↔ z = ofBool (!fNan (s.vars a).type x) := by
  have c := C14_eq hev hr hw h0 h0 ht rfl he
  refine c.value l _ ⟨x, x, hx, hx, ?_⟩
  unfold fEq
  cases fNan (s.vars a).type x <;> simp

/-- `neq` of floating point variables agrees with IEEE 754 in threads in which no operand is a NaN.
Missing: threads with a NaN, where the claim is wrong (`C14_neq_nan_false`). -/
theorem C14_neq_partial (hev : EvOK ev) (hr : OReachable ev s u) (hw : WritesOK s)
    {a0 a1 r : Nat} (h0 : Operand s u a0) (h1 : Operand s u a1)
    (ht : (s.vars a0).type.isFloat = true) (ht1 : (s.vars a1).type = (s.vars a0).type)
    (he : varNeq ev a0 a1 s = .ok r s') :
    Computes s u s' r .bool (max (s.vars a0).size (s.vars a1).size) (fun l z =>
      ∃ x y, Val s a0 l x ∧ Val s a1 l y ∧ fNan (s.vars a0).type x = false ∧
        fNan (s.vars a0).type y = false ∧ z = ofBool (!fEq (s.vars a0).type x y)) := by
  obtain ⟨U, h⟩ := oreachable_st hev hr hw
  refine (Post.computes h ?_ (neqF_post h ⟨h0, h1, .inr (.inl ht), ht1⟩ ht r s' he)).1
  have := h0.sized; omega

/-! ## Reachable examples and counterexamples -/

theorem writesOK_of_len (h : ∀ i < s.len, (s.vars i).isDirty = true → (s.vars i).kind = .evaluated) :
    WritesOK s := by
  intro i hl
  refine h i ?_
  unfold Live getVar at hl
  split at hl
  · cases hl
  · rename_i hc
    simp only [not_or] at hc
    omega

instance (s : Store) (u : Nat → Nat) (a : Nat) : Decidable (Operand s u a) :=
  decidable_of_iff (0 < u a ∧ 0 < (s.vars a).size ∧ (s.vars a).isDirty = false ∧
    ((s.vars a).kind = .literal → norm (s.vars a).type (s.vars a).literal = (s.vars a).literal))
    ⟨fun ⟨a, b, c, d⟩ => ⟨a, b, c, d⟩, fun ⟨a, b, c, d⟩ => ⟨a, b, c, d⟩⟩

/-- A reachable state with memory contents `mem` in which `P` holds, from a run. -/
theorem oreach (mem : BitVec 64 → Nat → BitVec 64) (cp : Bool) (l : List Call)
    (P : Store → (Nat → Nat) → Prop) [∀ s u, Decidable (P s u)]
    (h : (runAll noEval l { mem := mem, constProp := cp } (fun _ => 0)).any (fun p =>
      decide (P p.1 p.2 ∧ ∀ i < p.1.len, (p.1.vars i).isDirty = true →
        (p.1.vars i).kind = .evaluated)) = true) :
    ∃ s u, OReachable noEval s u ∧ WritesOK s ∧ P s u := by
  cases hr : runAll noEval l { mem := mem, constProp := cp } (fun _ => 0) with
  | none => rw [hr] at h; cases h
  | some p =>
    rw [hr] at h
    have h' : P p.1 p.2 ∧ ∀ i < p.1.len, (p.1.vars i).isDirty = true →
        (p.1.vars i).kind = .evaluated := by simpa using h
    exact ⟨p.1, p.2, .init (runAll_reachable _ (.init mem true true cp false false) hr),
      writesOK_of_len h'.2, h'.1⟩

/-- Memory: the index, or NaNs. -/
def memIdx : BitVec 64 → Nat → BitVec 64 := fun _ i => BitVec.ofNat 64 i
@[inherit_doc memIdx] def memNan : BitVec 64 → Nat → BitVec 64 := fun _ _ => 0x7fc00000#64

/-- An array in memory, the literals 8 and 3, and a mask. -/
def demo : List Call :=
  [.memMap 1 .u32 64#64 10 false, .literal 1 .u32 8#64 1, .literal 1 .u32 3#64 1,
   .node2 1 .lt .bool 10 false 1 3 0#64]

/-- What a call returned. -/
def got (r : Res Nat) (f : Nat → Store → Bool) : Bool :=
  match r with
  | .ok r s => f r s
  | _ => false

/-- The hypotheses of C10-C13 are met: a division by a power of two becomes a shift. -/
example : ∃ s u, OReachable noEval s u ∧ WritesOK s ∧ (Operand s u 1 ∧ Operand s u 2 ∧
    (s.vars 2).type = (s.vars 1).type ∧ (s.vars 1).type.isInt = true ∧
    got (varDiv noEval 1 2 s) (fun r s' => (s'.vars r).kind == .shr) = true) :=
  oreach memIdx true demo (fun s u => Operand s u 1 ∧ Operand s u 2 ∧
    (s.vars 2).type = (s.vars 1).type ∧ (s.vars 1).type.isInt = true ∧
    got (varDiv noEval 1 2 s) (fun r s' => (s'.vars r).kind == .shr) = true) (by decide +kernel)

/-- A remainder becomes a mask, a product a shift; other divisors give ordinary nodes. -/
example : ∃ s u, OReachable noEval s u ∧ WritesOK s ∧ (Operand s u 1 ∧ Operand s u 2 ∧ Operand s u 3 ∧
    got (varMod noEval 1 2 s) (fun r s' => (s'.vars r).kind == .and) = true ∧
    got (varMul noEval 1 2 s) (fun r s' => (s'.vars r).kind == .shl) = true ∧
    got (varMod noEval 1 3 s) (fun r s' => (s'.vars r).kind == .mod) = true ∧
    got (varDiv noEval 1 3 s) (fun r s' => (s'.vars r).kind == .div) = true) :=
  oreach memIdx true demo (fun s u => Operand s u 1 ∧ Operand s u 2 ∧ Operand s u 3 ∧
    got (varMod noEval 1 2 s) (fun r s' => (s'.vars r).kind == .and) = true ∧
    got (varMul noEval 1 2 s) (fun r s' => (s'.vars r).kind == .shl) = true ∧
    got (varMod noEval 1 3 s) (fun r s' => (s'.vars r).kind == .mod) = true ∧
    got (varDiv noEval 1 3 s) (fun r s' => (s'.vars r).kind == .div) = true) (by decide +kernel)

/-- Literals are folded: 8 / 3 = 2 (C11); a select and a masked value create nodes (C13). -/
example : ∃ s u, OReachable noEval s u ∧ WritesOK s ∧ (Operand s u 1 ∧ Operand s u 2 ∧ Operand s u 3 ∧
    Operand s u 4 ∧ s.constProp = true ∧ (s.vars 2).kind = .literal ∧ (s.vars 3).kind = .literal ∧
    got (varDiv noEval 2 3 s) (fun r s' => (s'.vars r).kind == .literal &&
      (s'.vars r).literal == 2#64) = true ∧
    got (varSelect noEval 4 1 3 s) (fun r s' => (s'.vars r).kind == .select) = true ∧
    got (varAnd noEval 1 4 s) (fun r s' => (s'.vars r).kind == .and) = true ∧
    got (varFma noEval 1 2 3 s) (fun r s' => (s'.vars r).kind == .fma) = true) :=
  oreach memIdx true demo (fun s u => Operand s u 1 ∧ Operand s u 2 ∧ Operand s u 3 ∧
    Operand s u 4 ∧ s.constProp = true ∧ (s.vars 2).kind = .literal ∧ (s.vars 3).kind = .literal ∧
    got (varDiv noEval 2 3 s) (fun r s' => (s'.vars r).kind == .literal &&
      (s'.vars r).literal == 2#64) = true ∧
    got (varSelect noEval 4 1 3 s) (fun r s' => (s'.vars r).kind == .select) = true ∧
    got (varAnd noEval 1 4 s) (fun r s' => (s'.vars r).kind == .and) = true ∧
    got (varFma noEval 1 2 3 s) (fun r s' => (s'.vars r).kind == .fma) = true) (by decide +kernel)

theorem got_ok {r : Res Nat} {f : Nat → Store → Bool} (h : got r f = true) :
    ∃ i s', r = .ok i s' ∧ f i s' = true := by
  unfold got at h
  cases r with
  | ok i s' => exact ⟨i, s', rfl, h⟩
  | raise => cases h
  | abort => cases h
  | stop => cases h

/-- C14 does not hold for `neq`: the result of `jit_var_neq(x, x)` is `false` although `x` is an
array of NaNs, for which IEEE 754 requires `true`. -/
theorem C14_neq_nan_false : ∃ s u, OReachable noEval s u ∧ WritesOK s ∧ Operand s u 1 ∧
    (s.vars 1).type = .f32 ∧ (∃ x, Val s 1 0 x ∧ fNan .f32 x = true) ∧
    ∃ r s', varNeq noEval 1 1 s = .ok r s' ∧ Val s' r 0 (ofBool false) := by
  obtain ⟨s, u, hr, hw, ho, ht, hk, hm, hg⟩ := oreach memNan true [.memMap 1 .f32 64#64 10 false]
    (fun s u => Operand s u 1 ∧ (s.vars 1).type = .f32 ∧ (s.vars 1).kind = .evaluated ∧
      s.mem (s.vars 1).literal (if (s.vars 1).size = 1 then 0 else 0) = 0x7fc00000#64 ∧
      got (varNeq noEval 1 1 s) (fun r s' => (s'.vars r).kind == .literal &&
        (s'.vars r).literal == 0#64) = true) (by decide +kernel)
  obtain ⟨r, s', e, hf⟩ := got_ok hg
  refine ⟨s, u, hr, hw, ho, ht, ⟨_, Val.evaluated (l := 0) hk, ?_⟩, r, s', e, ?_⟩
  · rw [hm, ht]; decide
  · simp only [Bool.and_eq_true, beq_iff_eq] at hf
    have := Val.literal (s := s') (l := 0) hf.1
    rw [hf.2, norm_zero] at this
    exact this

/-- C11 does not hold for `neq` of NaN literals: folding two literals yields `true`, but the kernel
(`fcmp one`) computes `false`. -/
theorem C11_neq_nan_folding_disagrees : ∃ s u, OReachable noEval s u ∧ WritesOK s ∧
    Operand s u 1 ∧ Operand s u 2 ∧ Val s 1 0 0x7fc00000#64 ∧ Val s 2 0 0#64 ∧
    (∃ r s', varNeq noEval 1 2 s = .ok r s' ∧ Val s' r 0 (ofBool true)) ∧
    sem2 .neq .bool .f32 .f32 0x7fc00000#64 0#64 = some (ofBool false) := by
  obtain ⟨s, u, hr, hw, ho, ho2, ht, ht2, hk, hk2, hl, hl2, hg⟩ := oreach memNan true
    [.literal 1 .f32 0x7fc00000#64 1, .literal 1 .f32 0#64 1]
    (fun s u => Operand s u 1 ∧ Operand s u 2 ∧ (s.vars 1).type = .f32 ∧ (s.vars 2).type = .f32 ∧
      (s.vars 1).kind = .literal ∧ (s.vars 2).kind = .literal ∧
      (s.vars 1).literal = 0x7fc00000#64 ∧ (s.vars 2).literal = 0#64 ∧
      got (varNeq noEval 1 2 s) (fun r s' => (s'.vars r).kind == .literal &&
        (s'.vars r).type == .bool && (s'.vars r).literal == 1#64) = true) (by decide +kernel)
  obtain ⟨r, s', e, hf⟩ := got_ok hg
  have v1 := Val.literal (s := s) (l := 0) hk
  have v2 := Val.literal (s := s) (l := 0) hk2
  rw [ho.lit hk, hl] at v1
  rw [ho2.lit hk2, hl2] at v2
  refine ⟨s, u, hr, hw, ho, ho2, v1, v2, ⟨r, s', e, ?_⟩, by decide⟩
  simp only [Bool.and_eq_true, beq_iff_eq] at hf
  have := Val.literal (s := s') (l := 0) hf.1.1
  rw [hf.2, hf.1.2] at this
  exact this

/-- Division by zero is inconsistent: a variable divided by itself is 1 in every thread, while
the division of the literals 0 / 0 gives a number with all bits set. -/
theorem C12_zero_by_zero : ∃ s u, OReachable noEval s u ∧ WritesOK s ∧ Operand s u 1 ∧
    Operand s u 2 ∧ Num s 1 0 0 ∧ Num s 2 0 0 ∧
    (∃ r s', varDiv noEval 1 1 s = .ok r s' ∧ (s'.vars r).kind = .literal ∧
      (s'.vars r).literal = 1#64) ∧
    (∃ r s', varDiv noEval 2 2 s = .ok r s' ∧ (s'.vars r).kind = .literal ∧
      (s'.vars r).literal = 0xffffffff#64) := by
  obtain ⟨s, u, hr, hw, ho, ho2, hk, ht, hm, hk2, hl2, ht2, hg, hg2⟩ := oreach memIdx true
    [.memMap 1 .u32 64#64 10 false, .literal 1 .u32 0#64 1]
    (fun s u => Operand s u 1 ∧ Operand s u 2 ∧ (s.vars 1).kind = .evaluated ∧
      (s.vars 1).type = .u32 ∧ s.mem (s.vars 1).literal (if (s.vars 1).size = 1 then 0 else 0) = 0#64 ∧
      (s.vars 2).kind = .literal ∧ (s.vars 2).literal = 0#64 ∧ (s.vars 2).type = .u32 ∧
      got (varDiv noEval 1 1 s) (fun r s' => (s'.vars r).kind == .literal &&
        (s'.vars r).literal == 1#64) = true ∧
      got (varDiv noEval 2 2 s) (fun r s' => (s'.vars r).kind == .literal &&
        (s'.vars r).literal == 0xffffffff#64) = true) (by decide +kernel)
  obtain ⟨r, s', e, hf⟩ := got_ok hg
  obtain ⟨r2, s2, e2, hf2⟩ := got_ok hg2
  simp only [Bool.and_eq_true, beq_iff_eq] at hf hf2
  refine ⟨s, u, hr, hw, ho, ho2, ⟨_, Val.evaluated hk, ?_⟩, ⟨_, Val.literal hk2, ?_⟩,
    ⟨r, s', e, hf⟩, r2, s2, e2, hf2⟩
  · rw [hm, ht]; decide
  · rw [hl2, ht2]; decide

/-- Folding evaluates C++ expressions with undefined behaviour: the sum of the literals `INT_MAX`
and 1. -/
theorem C11_signed_overflow_ub : ∃ s u, OReachable noEval s u ∧ WritesOK s ∧
    (Operand s u 1 ∧ Operand s u 2 ∧ (s.vars 1).type = .i32 ∧ (s.vars 2).type = .i32 ∧
    (match varAdd noEval 1 2 s with | .stop .ub => true | _ => false) = true) :=
  oreach memIdx true [.literal 1 .i32 0x7fffffff#64 1, .literal 1 .i32 1#64 1]
    (fun s u => Operand s u 1 ∧ Operand s u 2 ∧ (s.vars 1).type = .i32 ∧ (s.vars 2).type = .i32 ∧
    (match varAdd noEval 1 2 s with | .stop .ub => true | _ => false) = true) (by decide +kernel)

/-- The product of two `uint16` literals is computed as `int` and may overflow. -/
theorem C11_u16_mul_ub : ∃ s u, OReachable noEval s u ∧ WritesOK s ∧
    (Operand s u 1 ∧ (s.vars 1).type = .u16 ∧
    (match varMul noEval 1 1 s with | .stop .ub => true | _ => false) = true) :=
  oreach memIdx true [.literal 1 .u16 0xffff#64 1]
    (fun s u => Operand s u 1 ∧ (s.vars 1).type = .u16 ∧
    (match varMul noEval 1 1 s with | .stop .ub => true | _ => false) = true) (by decide +kernel)

end Verif.Ops
