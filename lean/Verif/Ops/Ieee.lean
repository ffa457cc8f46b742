import Verif.Ops.Props
import Verif.Ieee.Lemmas
/-!
# Floating point comparisons agree with IEEE 754
-/
namespace Verif.Ops
open Verif.Var Verif.Ieee

variable {ev : M Unit} {s s' : Store} {u : Nat → Nat}

/-- Exponent and fraction bits of `half`, `float` and `double` (IEEE 754-2008, table 3.5). -/
def expBits : VType → Nat
  | .f16 => 5 | .f32 => 8 | _ => 11
@[inherit_doc expBits] def fracBits : VType → Nat
  | .f16 => 10 | .f32 => 23 | _ => 52

/-- The datum represented by `x` as a number of type `t`. -/
def datum (t : VType) (x : BitVec 64) : FP := decode (expBits t) (fracBits t) x.toNat

theorem fMag_eq {t : VType} (ht : t.isFloat = true) (x : BitVec 64) :
    fMag t x = mag (expBits t) (fracBits t) x.toNat := by
  cases t <;> first | (cases ht; done) | rfl

theorem fNeg_eq {t : VType} (ht : t.isFloat = true) (x : BitVec 64) :
    fNeg t x = sign (expBits t) (fracBits t) x.toNat := by
  cases t <;> first | (cases ht; done) | rfl

theorem fKey_eq {t : VType} (ht : t.isFloat = true) (x : BitVec 64) :
    fKey t x = key (expBits t) (fracBits t) x.toNat := by
  unfold fKey key
  rw [fMag_eq ht, fNeg_eq ht]

theorem fNan_false {t : VType} (ht : t.isFloat = true) (x : BitVec 64) :
    fNan t x = false ↔
      mag (expBits t) (fracBits t) x.toNat ≤ (2 ^ expBits t - 1) * 2 ^ fracBits t := by
  unfold fNan
  rw [fMag_eq ht]
  have : (2 ^ (t.bits - 1 - mantBits t) - 1) * 2 ^ mantBits t =
      (2 ^ expBits t - 1) * 2 ^ fracBits t := by
    cases t <;> first | (cases ht; done) | rfl
  rw [this]
  simp

theorem expBits_pos (t : VType) : 0 < expBits t := by cases t <;> decide

/-- The NaN test recognises exactly the bit patterns that IEEE 754 calls NaN. -/
theorem fNan_iff {t : VType} (ht : t.isFloat = true) (x : BitVec 64) :
    fNan t x = true ↔ datum t x = .nan := by
  unfold datum
  rw [nan_iff]
  have := fNan_false ht x
  cases h : fNan t x
  · rw [h] at this; simp only [true_iff, Bool.false_eq_true, false_iff] at *; omega
  · rw [h] at this; simp only [Bool.true_eq_false, true_iff, false_iff] at *; omega

theorem fLt_iff {t : VType} (ht : t.isFloat = true) (x y : BitVec 64) :
    fLt t x y = true ↔ (datum t x).lt (datum t y) := by
  unfold datum
  rw [lt_iff _ _ _ _ (expBits_pos t), ← fNan_false ht, ← fNan_false ht, ← fKey_eq ht,
    ← fKey_eq ht]
  unfold fLt
  simp [and_assoc]

theorem fEq_iff {t : VType} (ht : t.isFloat = true) (x y : BitVec 64) :
    fEq t x y = true ↔ (datum t x).eq (datum t y) := by
  unfold datum
  rw [eq_iff _ _ _ _ (expBits_pos t), ← fNan_false ht, ← fNan_false ht, ← fKey_eq ht,
    ← fKey_eq ht]
  unfold fEq
  simp [and_assoc]

theorem fLe_iff {t : VType} (ht : t.isFloat = true) (x y : BitVec 64) :
    fLe t x y = true ↔ (datum t x).lt (datum t y) ∨ (datum t x).eq (datum t y) := by
  rw [← fLt_iff ht, ← fEq_iff ht]
  unfold fLe fLt fEq
  simp only [Bool.and_eq_true, Bool.not_eq_true', decide_eq_true_eq, beq_iff_eq]
  constructor
  · rintro ⟨h, h'⟩
    rcases lt_or_eq_of_le h' with h' | h'
    · exact .inl ⟨h, h'⟩
    · exact .inr ⟨h, h'⟩
  · rintro (⟨h, h'⟩ | ⟨h, h'⟩)
    · exact ⟨h, by omega⟩
    · exact ⟨h, by omega⟩

/-- What IEEE 754 requires of a comparison of `a` and `b`. -/
def ieee : Op2 → FP → FP → Prop
  | .eq => fun a b => a.eq b
  | .lt => fun a b => a.lt b
  | .le => fun a b => a.lt b ∨ a.eq b
  | .gt => fun a b => b.lt a
  | .ge => fun a b => b.lt a ∨ b.eq a
  | _ => fun _ _ => False

/-- **C14**: `eq`, `lt`, `le`, `gt` and `ge` on floating point variables compute, in every
thread, whether the numbers represented by the operands are in the given relation according to
IEEE 754, in particular false if one of them is a NaN, also when both are the same variable and when
literals are folded. -/
theorem C14_compare_ieee (hev : EvOK ev) (hr : OReachable ev s u) (hw : WritesOK s) (op : Op2)
    (hop : op ∈ [Op2.eq, .lt, .le, .gt, .ge])
    {a0 a1 r : Nat} (h0 : Operand s u a0) (h1 : Operand s u a1)
    (ht : (s.vars a0).type.isFloat = true) (ht1 : (s.vars a1).type = (s.vars a0).type)
    (he : op.run ev a0 a1 s = .ok r s') {l : Nat} {x y : BitVec 64} (hx : Val s a0 l x)
    (hy : Val s a1 l y) :
    (s'.vars r).type = .bool ∧ ∃ b : Bool, (∀ z, Val s' r l z ↔ z = ofBool b) ∧
      (b = true ↔ ieee op (datum (s.vars a0).type x) (datum (s.vars a0).type y)) := by
  have hnb : ¬ ((s.vars a0).type.isInt = true ∨ (s.vars a0).type = .bool) := by
    revert ht; cases (s.vars a0).type <;> decide
  have sem : ∀ (fi : Int → Int → Bool) ff,
      semCmp .bool (s.vars a0).type (s.vars a0).type fi ff x y = some (ofBool (ff x y)) := by
    intro fi ff
    unfold semCmp
    rw [if_pos ⟨rfl, rfl⟩, if_neg hnb, if_pos ht]
  have fin : ∀ (f : BitVec 64 → BitVec 64 → Bool), op.accepts (s.vars a0).type (s.vars a1).type →
      op.resultType (s.vars a0).type = .bool →
      sem2 op.kind .bool (s.vars a0).type (s.vars a0).type x y = some (ofBool (f x y)) →
      (f x y = true ↔ ieee op (datum (s.vars a0).type x) (datum (s.vars a0).type y)) →
      (s'.vars r).type = .bool ∧ ∃ b : Bool, (∀ z, Val s' r l z ↔ z = ofBool b) ∧
        (b = true ↔ ieee op (datum (s.vars a0).type x) (datum (s.vars a0).type y)) := by
    intro f hac hrt hs hf
    have c := C10_C13_binary hev hr hw op h0 h1 hac he
    rw [hrt] at c
    refine ⟨c.type, f x y, ?_, hf⟩
    exact c.value l _ ⟨x, y, hx, hy, by rw [ht1]; exact hs⟩
  simp only [List.mem_cons, List.not_mem_nil, or_false] at hop
  rcases hop with rfl | rfl | rfl | rfl | rfl
  · exact fin (fEq _) ⟨ht1, .inr (.inl ht)⟩ rfl (sem (· == ·) (fEq _)) (fEq_iff ht x y)
  · exact fin (fLt _) ⟨ht1, .inr (.inl ht)⟩ rfl (sem (fun a b => decide (a < b)) (fLt _))
      (fLt_iff ht x y)
  · exact fin (fLe _) ⟨ht1, .inr (.inl ht)⟩ rfl (sem (fun a b => decide (a ≤ b)) (fLe _))
      (fLe_iff ht x y)
  · exact fin (fun x y => fLt (s.vars a0).type y x) ⟨ht1, .inr (.inl ht)⟩ rfl
      (sem (fun a b => decide (a > b)) (fun x y => fLt (s.vars a0).type y x)) (fLt_iff ht y x)
  · exact fin (fun x y => fLe (s.vars a0).type y x) ⟨ht1, .inr (.inl ht)⟩ rfl
      (sem (fun a b => decide (a ≥ b)) (fun x y => fLe (s.vars a0).type y x)) (fLe_iff ht y x)

/-- **C14**: `neq` computes the negation of `=` of IEEE 754 in threads in which no operand is
a NaN.  Missing: threads with a NaN, for which the claim is wrong (`C14_neq_nan_false`). -/
theorem C14_neq_ieee_partial (hev : EvOK ev) (hr : OReachable ev s u) (hw : WritesOK s)
    {a0 a1 r : Nat} (h0 : Operand s u a0) (h1 : Operand s u a1)
    (ht : (s.vars a0).type.isFloat = true) (ht1 : (s.vars a1).type = (s.vars a0).type)
    (he : varNeq ev a0 a1 s = .ok r s') {l : Nat} {x y : BitVec 64} (hx : Val s a0 l x)
    (hy : Val s a1 l y) (hnx : datum (s.vars a0).type x ≠ .nan)
    (hny : datum (s.vars a0).type y ≠ .nan) :
    ∃ b : Bool, (∀ z, Val s' r l z ↔ z = ofBool b) ∧
      (b = true ↔ ¬ (datum (s.vars a0).type x).eq (datum (s.vars a0).type y)) := by
  have c := C14_neq_partial hev hr hw h0 h1 ht ht1 he
  have e : ∀ w, datum (s.vars a0).type w ≠ .nan → fNan (s.vars a0).type w = false := by
    intro w hw
    rw [ne_eq, ← fNan_iff ht] at hw
    simpa using hw
  refine ⟨!fEq (s.vars a0).type x y, c.value l _ ⟨x, y, hx, hy, e x hnx, e y hny, rfl⟩, ?_⟩
  rw [← fEq_iff ht]
  simp

/-- The literals treated as zero, one, smallest and largest number in the simplifications of
floating point operations denote these numbers. -/
theorem C13_float_constants (t : VType) (ht : t.isFloat = true) :
    datum t (oneBits t) = .fin 1 ∧ datum t (typeMin t) = .inf true ∧
    datum t (typeMax t) = .inf false := by
  refine ⟨?_, ?_, ?_⟩ <;>
  cases t <;> first
    | (cases ht; done)
    | (simp [datum, decode, expo, frac, sign, oneBits, typeMin, typeMax, expBits, fracBits, bias])

/-- NaN, a subnormal number and a normal number. -/
example : datum .f32 0x7fc00000#64 = .nan ∧ datum .f16 0x0001#64 = .fin (1 / 2 ^ 24) ∧
    datum .f64 0xc008000000000000#64 = .fin (-3) := by
  refine ⟨?_, ?_, ?_⟩ <;>
    norm_num [datum, decode, expo, frac, sign, expBits, fracBits, bias]

/-- The hypotheses of `C14_compare_ieee` are met. -/
example : ∃ s u, OReachable noEval s u ∧ WritesOK s ∧ (Operand s u 1 ∧ Operand s u 2 ∧
    (s.vars 1).type = .f32 ∧ (s.vars 2).type = (s.vars 1).type ∧ (s.vars 1).kind = .evaluated ∧
    got (varLt noEval 1 2 s) (fun r s' => (s'.vars r).kind == .lt) = true) :=
  oreach memNan true [.memMap 1 .f32 64#64 10 false, .literal 1 .f32 0x3f800000#64 1]
    (fun s u => Operand s u 1 ∧ Operand s u 2 ∧
    (s.vars 1).type = .f32 ∧ (s.vars 2).type = (s.vars 1).type ∧ (s.vars 1).kind = .evaluated ∧
    got (varLt noEval 1 2 s) (fun r s' => (s'.vars r).kind == .lt) = true) (by decide +kernel)

end Verif.Ops
