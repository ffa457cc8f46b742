import Verif.Atomic.Exch

/-!
# Reductions of integers
-/
namespace Verif.Atomic

theorem intOp_eval {n : Nat} (signed : Bool) (op : IntOp) : intOp (n := n) signed op = op.eval signed := by
  funext a b
  cases op <;> cases signed <;>
    simp only [intOp, IntOp.eval, BitVec.slt, BitVec.ult, if_true, if_false, Bool.false_eq_true, decide_eq_true_eq]
  all_goals (split <;> split <;> first | rfl | (exfalso; omega) | skip)
  all_goals first
    | (apply BitVec.eq_of_toNat_eq; omega)
    | (apply BitVec.eq_of_toInt_eq; omega)

theorem intMax_ge {n : Nat} (a : BitVec n) : a.toInt ≤ (BitVec.intMax n).toInt := by
  cases n with
  | zero => rw [BitVec.eq_nil a, BitVec.eq_nil (BitVec.intMax 0)]; exact Int.le_refl _
  | succ n =>
    have h := BitVec.toInt_lt (x := a)
    rw [BitVec.toInt_intMax]
    omega

theorem allOnes_ge {n : Nat} (a : BitVec n) : a.toNat ≤ (BitVec.allOnes n).toNat := by
  rw [BitVec.toNat_allOnes]
  have := a.isLt
  omega

/-- Picks the smaller of two values; `f` is injective. -/
theorem pick_ok {V : Type} {f : V → Int} (hf : Function.Injective f) {op : V → V → V}
    (h : ∀ a b, op a b = if f a ≤ f b then a else b) :
    (∀ a b c, op (op a b) c = op a (op b c)) ∧ (∀ a b, op a b = op b a) := by
  constructor
  · intro a b c
    simp only [h]
    repeat' split
    all_goals first | rfl | omega | (apply hf; omega)
  · intro a b
    simp only [h]
    split <;> split
    all_goals first | rfl | omega | (apply hf; omega)

theorem toNat_inj (n : Nat) : Function.Injective fun a : BitVec n => (a.toNat : Int) :=
  fun _ _ h => BitVec.eq_of_toNat_eq (Int.ofNat_inj.1 h)

theorem toInt_inj (n : Nat) : Function.Injective fun a : BitVec n => a.toInt := fun _ _ h => BitVec.eq_of_toInt_eq h

theorem intRed_ok (n : Nat) (signed : Bool) (op : IntOp) : (intRed n signed op).OK := by
  have hne : ∀ (r : Red (BitVec n)), r.ne = (fun a b => decide (a ≠ b)) → (∀ a, r.op a r.id = a) →
      ∀ x, r.ne r.id x = false → ∀ a, r.op a x = a := by
    intro r h1 h2 x hx a
    rw [h1] at hx
    have : r.id = x := by simpa using hx
    rw [← this, h2]
  have hid : ∀ a, (intRed n signed op).op a (intRed n signed op).id = a := by
    intro a
    simp only [intRed, intOp_eval]
    cases op with
    | add => simp [IntOp.eval, intIdentity]
    | or => simp [IntOp.eval, intIdentity]
    | and => simp [IntOp.eval, intIdentity]
    | min =>
      cases signed <;> simp only [IntOp.eval, intIdentity, if_true, if_false, Bool.false_eq_true]
      · rw [if_pos (allOnes_ge a)]
      · rw [if_pos (intMax_ge a)]
    | max =>
      cases signed <;> simp only [IntOp.eval, intIdentity, if_true, if_false, Bool.false_eq_true]
      · split
        · rename_i h
          apply BitVec.eq_of_toNat_eq
          simp at h ⊢
          rw [h]
        · rfl
      · have := BitVec.toInt_intMin_le a
        split
        · apply BitVec.eq_of_toInt_eq
          omega
        · rfl
  refine ⟨?_, ?_, hid, ?_, hne _ rfl hid⟩
  · simp only [intRed, intOp_eval]
    cases op with
    | add => exact fun a b c => BitVec.add_assoc a b c
    | or => exact fun a b c => BitVec.or_assoc a b c
    | and => exact fun a b c => BitVec.and_assoc a b c
    | min =>
      cases signed
      · exact (pick_ok (toNat_inj n) fun a b => by simp [IntOp.eval]).1
      · exact (pick_ok (toInt_inj n) fun a b => by simp [IntOp.eval]).1
    | max =>
      cases signed
      · exact (pick_ok (f := fun a => -(a.toNat : Int)) (fun a b h => toNat_inj n (by simpa using h)) fun a b => by
          simp only [IntOp.eval, if_false, Bool.false_eq_true]
          split <;> split
          all_goals first | rfl | omega | (apply BitVec.eq_of_toNat_eq; omega)).1
      · exact (pick_ok (f := fun a => -a.toInt) (fun a b h => toInt_inj n (by simpa using h)) fun a b => by
          simp only [IntOp.eval, if_true]
          split <;> split
          all_goals first | rfl | omega | (apply BitVec.eq_of_toInt_eq; omega)).1
  · simp only [intRed, intOp_eval]
    cases op with
    | add => exact fun a b => BitVec.add_comm a b
    | or => exact fun a b => BitVec.or_comm a b
    | and => exact fun a b => BitVec.and_comm a b
    | min =>
      cases signed
      · exact (pick_ok (toNat_inj n) fun a b => by simp [IntOp.eval]).2
      · exact (pick_ok (toInt_inj n) fun a b => by simp [IntOp.eval]).2
    | max =>
      cases signed
      · exact (pick_ok (f := fun a => -(a.toNat : Int)) (fun a b h => toNat_inj n (by simpa using h)) fun a b => by
          simp only [IntOp.eval, if_false, Bool.false_eq_true]
          split <;> split
          all_goals first | rfl | omega | (apply BitVec.eq_of_toNat_eq; omega)).2
      · exact (pick_ok (f := fun a => -a.toInt) (fun a b h => toInt_inj n (by simpa using h)) fun a b => by
          simp only [IntOp.eval, if_true]
          split <;> split
          all_goals first | rfl | omega | (apply BitVec.eq_of_toInt_eq; omega)).2
  · intro s hs cur x hx
    simp only [intRed, intOp_eval] at hs ⊢
    cases op with
    | add => cases hs
    | or => cases hs
    | and => cases hs
    | min =>
      cases hs
      cases signed <;> simp only [if_true, if_false, Bool.false_eq_true, BitVec.sle, BitVec.ule, decide_eq_true_eq] at hx <;>
        simp only [IntOp.eval, if_true, if_false, Bool.false_eq_true]
      · rw [if_pos hx]
      · rw [if_pos hx]
    | max =>
      cases hs
      cases signed <;> simp only [if_true, if_false, Bool.false_eq_true, BitVec.sle, BitVec.ule, decide_eq_true_eq] at hx <;>
        simp only [IntOp.eval, if_true, if_false, Bool.false_eq_true]
      · split
        · apply BitVec.eq_of_toNat_eq; omega
        · rfl
      · split
        · apply BitVec.eq_of_toInt_eq; omega
        · rfl

end Verif.Atomic
