import Verif.Ops.FoldBits
import Mathlib.Tactic.Ring
/-!
# Algebraic identities behind the simplifications
-/
namespace Verif.Ops
open Verif.Var

variable {t : VType} {x y z : BitVec 64}

theorem ite_some {c : Prop} [Decidable c] {a b : BitVec 64} (h : (if c then some a else none) = some b) :
    c ∧ a = b := by
  split at h
  · cases h; exact ⟨‹_›, rfl⟩
  · cases h

theorem nat_pow2 {n : Nat} (h0 : n ≠ 0) (h : n &&& (n - 1) = 0) : n = 2 ^ Nat.log2 n := by
  have h1 := Nat.log2_self_le h0
  have h2 := Nat.lt_log2_self (n := n)
  generalize hk : Nat.log2 n = k at h1 h2
  by_contra hne
  obtain ⟨m, rfl⟩ : ∃ m, n = 2 ^ k + m := ⟨n - 2 ^ k, by omega⟩
  have hm : m < 2 ^ k := by rw [Nat.pow_succ] at h2; omega
  have hm0 : m ≠ 0 := by rintro rfl; exact hne (by simp)
  have e : 2 ^ k + m - 1 = 2 ^ k + (m - 1) := by omega
  have b1 : (2 ^ k + m).testBit k = true := by
    rw [Nat.testBit_two_pow_add_eq, Nat.testBit_lt_two_pow hm]; rfl
  have b2 : (2 ^ k + m - 1).testBit k = true := by
    rw [e, Nat.testBit_two_pow_add_eq, Nat.testBit_lt_two_pow (by omega)]; rfl
  have : ((2 ^ k + m) &&& (2 ^ k + m - 1)).testBit k = true := by
    rw [Nat.testBit_and, b1, b2]; rfl
  rw [h] at this
  simp at this

/-- A power of two of type `t`. -/
theorem pow2_spec (h : isPow2 x = true) (hx : norm t x = x) :
    ∃ k, k = Nat.log2 x.toNat ∧ k < t.bits ∧ x.toNat = 2 ^ k := by
  unfold isPow2 at h
  simp only [Bool.and_eq_true, bne_iff_ne, ne_eq, beq_iff_eq] at h
  have h0 : x.toNat ≠ 0 := fun e => h.1 (by apply BitVec.eq_of_toNat_eq; rw [e]; rfl)
  have h1 : (x - 1#64).toNat = x.toNat - 1 := by
    rw [BitVec.toNat_sub_of_le]
    · rfl
    · rw [BitVec.le_def]; change 1 ≤ _; omega
  have e := nat_pow2 h0 (by
    have := congrArg BitVec.toNat h.2
    rw [BitVec.toNat_and, h1] at this
    exact this)
  refine ⟨_, rfl, ?_, e⟩
  have hb : x.toNat < 2 ^ t.bits := by
    rw [← hx]
    unfold norm
    rw [BitVec.toNat_setWidth]
    exact Nat.lt_of_le_of_lt (Nat.mod_le _ _) (BitVec.isLt _)
  rw [e] at hb
  exact (Nat.pow_lt_pow_iff_right (by omega)).1 hb

theorem pow2_setWidth {k w : Nat} (hx : x.toNat = 2 ^ k) : x.setWidth w = BitVec.twoPow w k := by
  apply BitVec.eq_of_toNat_eq
  rw [BitVec.toNat_setWidth, hx, BitVec.toNat_twoPow]

theorem shift_amount {k : Nat} (hk : k < t.bits) :
    ((norm t (BitVec.ofNat 64 k)).setWidth t.bits).toNat = k := by
  have h1 := bits_le t
  have h2 : t.bits < 2 ^ t.bits := Nat.lt_two_pow_self
  have h3 : (64 : Nat) < 2 ^ 64 := by decide
  unfold norm
  rw [setWidth_setWidth h1, BitVec.toNat_setWidth, BitVec.toNat_ofNat, Nat.mod_eq_of_lt
    (show k < 2 ^ 64 by omega), Nat.mod_eq_of_lt (by omega)]

/-! ## Arithmetic -/

theorem add_zero_left (h : sem2 .add t t t 0#64 y = some z) : z = norm t y := by
  simp only [sem2] at h
  split at h
  · simp only [Option.map_some, BitVec.setWidth_zero, BitVec.zero_add, Option.some.injEq] at h
    exact h.symm
  · cases h

theorem add_zero_right (h : sem2 .add t t t x 0#64 = some z) : z = norm t x := by
  simp only [sem2] at h
  split at h
  · simp only [Option.map_some, BitVec.setWidth_zero, BitVec.add_zero, Option.some.injEq] at h
    exact h.symm
  · cases h

theorem sub_zero (h : sem2 .sub t t t x 0#64 = some z) : z = norm t x := by
  simp only [sem2] at h
  split at h
  · simp only [Option.map_some, BitVec.setWidth_zero, BitVec.sub_zero, Option.some.injEq] at h
    exact h.symm
  · cases h

theorem sub_self (h : sem2 .sub t t t x x = some z) : z = norm t 0#64 := by
  simp only [sem2] at h
  split at h
  · simp only [Option.map_some, BitVec.sub_self, BitVec.setWidth_zero, Option.some.injEq] at h
    rw [← h, norm_zero]
  · cases h

theorem setWidth_one_mul {w : Nat} : (1#64).setWidth w = 1#w := by
  apply BitVec.eq_of_toNat_eq
  rw [BitVec.toNat_setWidth]
  rfl

theorem mul_one_left (h : sem2 .mul t t t 1#64 y = some z) : z = norm t y := by
  simp only [sem2] at h
  split at h
  · rename_i hc
    rw [setWidth_one_mul] at h
    simp only [Option.map_some, BitVec.one_mul, Option.some.injEq] at h
    exact h.symm
  · cases h

theorem mul_comm' : sem2 .mul t t t x y = sem2 .mul t t t y x := by
  simp only [sem2]
  rw [BitVec.mul_comm]

theorem mul_zero_left (h : sem2 .mul t t t 0#64 y = some z) : z = 0#64 := by
  simp only [sem2] at h
  split at h
  · simp only [Option.map_some, BitVec.setWidth_zero, BitVec.zero_mul, Option.some.injEq] at h
    exact h.symm
  · cases h

theorem mul_pow2 {k : Nat} (hk : k < t.bits) (hx : x.toNat = 2 ^ k)
    (h : sem2 .mul t t t x y = some z) :
    sem2 .shl t t t y (norm t (BitVec.ofNat 64 k)) = some z := by
  simp only [sem2] at h ⊢
  split at h
  · rename_i hc
    rw [if_pos hc, shift_amount hk, if_pos hk]
    rw [pow2_setWidth hx, BitVec.mul_comm, BitVec.mul_twoPow_eq_shiftLeft] at h
    exact h
  · cases h

theorem div_one (h : sem2 .div t t t x 1#64 = some z) : z = norm t x := by
  simp only [sem2] at h
  split at h
  · rename_i hc
    have hb := isInt_bits hc.2.2
    rw [setWidth_one_mul] at h
    have : ¬ (1#t.bits = 0) := by
      intro e
      have := congrArg BitVec.toNat e
      change (BitVec.ofNat t.bits 1).toNat = (BitVec.ofNat t.bits 0).toNat at this
      rw [BitVec.toNat_ofNat, BitVec.toNat_ofNat, Nat.mod_eq_of_lt (Nat.one_lt_two_pow (by omega))] at this
      simp at this
    rw [if_neg this] at h
    split at h
    · split at h
      · cases h
      · simp only [Option.map_some, BitVec.sdiv_one, Option.some.injEq] at h
        exact h.symm
    · simp only [Option.map_some, Option.some.injEq, BitVec.udiv_eq, BitVec.udiv_one] at h
      exact h.symm
  · cases h

theorem div_pow2 {k : Nat} (hu : t.isUint = true) (hk : k < t.bits) (hy : y.toNat = 2 ^ k)
    (h : sem2 .div t t t x y = some z) :
    sem2 .shr t t t x (norm t (BitVec.ofNat 64 k)) = some z := by
  have hs : t.isSint = false := by cases t <;> first | rfl | exact absurd hu (by decide)
  simp only [sem2] at h ⊢
  split at h
  · rename_i hc
    rw [if_pos hc, shift_amount hk, if_pos hk, hs, if_neg (by decide)]
    rw [hs, pow2_setWidth hy] at h
    split at h
    · cases h
    · rw [if_neg (by decide), BitVec.udiv_eq, BitVec.udiv_twoPow_eq_of_lt hk] at h
      exact h
  · cases h

theorem div_self (h : sem2 .div t t t x x = some z) : z = norm t 1#64 := by
  simp only [sem2] at h
  split at h
  · rename_i hc
    have hb := isInt_bits hc.2.2
    have h1 : norm t 1#64 = (1#t.bits).setWidth 64 := by
      unfold norm; rw [setWidth_one_mul]
    rw [h1]
    split at h
    · cases h
    rename_i h0
    split at h
    · split at h
      · cases h
      · rw [BitVec.sdiv_self] at h
        simp only [Option.map_some, Option.some.injEq, beq_iff_eq] at h
        rw [if_neg (show ¬ _ = 0#_ from h0)] at h
        exact h.symm
    · simp only [Option.map_some, Option.some.injEq, BitVec.udiv_eq] at h
      rw [BitVec.udiv_self] at h
      simp only [beq_iff_eq] at h
      rw [if_neg (show ¬ _ = 0#_ from h0)] at h
      exact h.symm
  · cases h

theorem mod_pow2 {k : Nat} (hu : t.isUint = true) (hk : k < t.bits) (hy : y.toNat = 2 ^ k)
    (h : sem2 .mod t t t x y = some z) :
    sem2 .and t t t x (norm t (y - 1#64)) = some z := by
  have hs : t.isSint = false := by cases t <;> first | rfl | exact absurd hu (by decide)
  have hb := bits_le t
  simp only [sem2] at h ⊢
  split at h
  · rename_i hc
    rw [if_pos trivial, if_pos ⟨hc.1, hc.2.1, .inl hc.2.2⟩]
    rw [hs] at h
    split at h
    · cases h
    · rw [if_neg (by decide)] at h
      simp only [Option.map_some, Option.some.injEq] at h
      rw [← h]
      congr 2
      apply BitVec.eq_of_toNat_eq
      have e1 : ((norm t (y - 1#64)).setWidth t.bits).toNat = 2 ^ k - 1 := by
        unfold norm
        have : (y - 1#64).toNat = 2 ^ k - 1 := by
          rw [BitVec.toNat_sub_of_le, hy]
          · rfl
          · rw [BitVec.le_def, hy]; change 1 ≤ _; exact Nat.one_le_two_pow
        have h2 : (2 : Nat) ^ k < 2 ^ t.bits := Nat.pow_lt_pow_right (by omega) hk
        rw [setWidth_setWidth hb, BitVec.toNat_setWidth, this, Nat.mod_eq_of_lt (by omega)]
      rw [BitVec.toNat_and, e1, Nat.and_two_pow_sub_one_eq_mod]
      change _ = (BitVec.umod _ _).toNat
      rw [BitVec.umod_eq, BitVec.toNat_umod, pow2_setWidth hy, BitVec.toNat_twoPow,
        Nat.mod_eq_of_lt (a := 2 ^ k) (Nat.pow_lt_pow_right (by omega) hk)]
  · cases h

theorem mod_one (h : sem2 .mod t t t x 1#64 = some z) : z = norm t 0#64 := by
  simp only [sem2] at h
  split at h
  · rename_i hc
    have hb := isInt_bits hc.2.2
    rw [setWidth_one_mul] at h
    rw [norm_zero]
    split at h
    · cases h
    split at h
    · split at h
      · cases h
      · simp only [Option.map_some, BitVec.srem_one, Option.some.injEq] at h
        rw [← h]; simp
    · simp only [Option.map_some, Option.some.injEq, BitVec.umod_eq, BitVec.umod_one] at h
      rw [← h]; simp
  · cases h

theorem signExtend_zero {v w : Nat} : (0#w).signExtend v = 0#v := by
  apply BitVec.eq_of_getLsbD_eq
  intro i hi
  simp [BitVec.getLsbD_signExtend]

theorem mulHi_zero_left (h : sem2 .mulHi t t t 0#64 y = some z) : z = 0#64 := by
  simp only [sem2] at h
  split at h
  · split at h <;> simp [signExtend_zero] at h <;> exact h.symm
  · cases h

theorem mulHi_zero_right (h : sem2 .mulHi t t t x 0#64 = some z) : z = 0#64 := by
  simp only [sem2] at h
  split at h
  · split at h <;> simp [signExtend_zero] at h <;> exact h.symm
  · cases h

theorem mulWide_zero_left {t' : VType} (h : sem2 .mulWide t' t t 0#64 y = some z) : z = 0#64 := by
  simp only [sem2] at h
  split at h
  · split at h <;> simp [signExtend_zero] at h <;> exact h.symm
  · cases h

theorem mulWide_zero_right {t' : VType} (h : sem2 .mulWide t' t t x 0#64 = some z) : z = 0#64 := by
  simp only [sem2] at h
  split at h
  · split at h <;> simp [signExtend_zero] at h <;> exact h.symm
  · cases h

/-! ## Shifts -/

theorem shl_zero_left (h : sem2 .shl t t t 0#64 y = some z) : z = 0#64 := by
  simp only [sem2] at h
  split at h
  · split at h <;> simp at h <;> exact h.symm
  · cases h

theorem shl_zero_right (h : sem2 .shl t t t x 0#64 = some z) : z = norm t x := by
  simp only [sem2] at h
  split at h
  · split at h
    · simp at h; exact h.symm
    · cases h
  · cases h

theorem shr_zero_left (h : sem2 .shr t t t 0#64 y = some z) : z = 0#64 := by
  simp only [sem2] at h
  split at h
  · split at h
    · split at h <;> simp at h <;> exact h.symm
    · cases h
  · cases h

theorem shr_zero_right (h : sem2 .shr t t t x 0#64 = some z) : z = norm t x := by
  simp only [sem2] at h
  split at h
  · split at h
    · split at h <;> simp at h <;> exact h.symm
    · cases h
  · cases h

/-! ## Bitwise operations -/

theorem and_zero_left {t1 : VType} (h : sem2 .and t t t1 0#64 y = some z) : z = norm t 0#64 := by
  rw [norm_zero]
  simp only [sem2] at h
  split at h
  · split at h
    · simp at h; exact h.symm
    · cases h
  · split at h
    · simp at h; exact h.symm
    · cases h

theorem and_zero_right {t1 : VType} (h : sem2 .and t t t1 x 0#64 = some z) : z = norm t 0#64 := by
  rw [norm_zero]
  simp only [sem2] at h
  split at h
  · split at h
    · simp at h; exact h.symm
    · cases h
  · split at h
    · simp at h; exact h.symm
    · cases h

theorem bool_cases (hx : norm .bool x = x) : x = 0#64 ∨ x = 1#64 := norm_bool hx

theorem and_true_right (hx : norm t x = x) (h : sem2 .and t t .bool x 1#64 = some z) : z = x := by
  simp only [sem2] at h
  split at h
  · rename_i ht
    subst ht
    split at h
    · rcases norm_bool hx with rfl | rfl <;> simp at h <;> rw [← h] <;> rfl
    · cases h
  · split at h
    · simp at h
      rw [← h]; exact hx
    · cases h

theorem and_self (h : sem2 .and t t t x x = some z) : z = norm t x := by
  simp only [sem2] at h
  split at h
  · split at h
    · simp at h; exact h.symm
    · cases h
  · rename_i e; exact absurd trivial e

theorem and_true_left (hy : norm .bool y = y) (h : sem2 .and .bool .bool .bool 1#64 y = some z) :
    z = y := by
  rcases norm_bool hy with rfl | rfl <;> simp [sem2] at h <;> rw [← h] <;> rfl

theorem or_true_right (h : sem2 .or .bool .bool .bool x 1#64 = some z) (hx : norm .bool x = x) :
    z = 1#64 := by
  rcases norm_bool hx with rfl | rfl <;> simp [sem2] at h <;> rw [← h] <;> rfl

theorem or_true_left (h : sem2 .or .bool .bool .bool 1#64 y = some z) (hy : norm .bool y = y) :
    z = 1#64 := by
  rcases norm_bool hy with rfl | rfl <;> simp [sem2] at h <;> rw [← h] <;> rfl

theorem or_zero_left (h : sem2 .or t t t 0#64 y = some z) : z = norm t y := by
  simp only [sem2] at h
  split at h
  · split at h
    · simp at h; exact h.symm
    · cases h
  · rename_i e; exact absurd trivial e

theorem or_self (h : sem2 .or t t t x x = some z) : z = norm t x := by
  simp only [sem2] at h
  split at h
  · split at h
    · simp at h; exact h.symm
    · cases h
  · rename_i e; exact absurd trivial e

theorem or_zero_right {t1 : VType} (h : sem2 .or t t t1 x 0#64 = some z) : z = norm t x := by
  simp only [sem2] at h
  split at h
  · split at h
    · simp at h; exact h.symm
    · cases h
  · split at h
    · simp at h; exact h.symm
    · cases h

theorem xor_zero_left (h : sem2 .xor t t t 0#64 y = some z) : z = norm t y := by
  simp only [sem2] at h
  split at h
  · simp at h; exact h.symm
  · cases h

theorem xor_zero_right (h : sem2 .xor t t t x 0#64 = some z) : z = norm t x := by
  simp only [sem2] at h
  split at h
  · simp at h; exact h.symm
  · cases h

theorem xor_self (h : sem2 .xor t t t x x = some z) : z = norm t 0#64 := by
  rw [norm_zero]
  simp only [sem2] at h
  split at h
  · simp at h; exact h.symm
  · cases h

/-! ## Minimum and maximum -/

theorem cInt_range (ht : t.isInt = true) (x : BitVec 64) :
    cInt t (typeMin t) ≤ cInt t x ∧ cInt t x ≤ cInt t (typeMax t) := by
  unfold cInt
  have l0 := (x.setWidth t.bits).isLt
  have l1 := BitVec.le_toInt (x.setWidth t.bits)
  have l2 := BitVec.toInt_lt (x := x.setWidth t.bits)
  revert l0 l1 l2
  generalize (BitVec.setWidth t.bits x).toInt = i
  generalize (BitVec.setWidth t.bits x).toNat = n
  intro l0 l1 l2
  have key : ∀ t : VType, t.isInt = true →
      if t.isSint = true then ((typeMin t).setWidth t.bits).toInt = -2 ^ (t.bits - 1) ∧
        ((typeMax t).setWidth t.bits).toInt = 2 ^ (t.bits - 1) - 1
      else ((typeMin t).setWidth t.bits).toNat = 0 ∧
        ((typeMax t).setWidth t.bits).toNat = 2 ^ t.bits - 1 := by
    intro t ht
    revert ht
    cases t <;> decide
  have := key t ht
  split at this
  · rename_i hs
    simp only [if_pos hs]
    rw [this.1, this.2]
    omega
  · rename_i hs
    simp only [if_neg hs]
    rw [this.1, this.2]
    omega

theorem min_self (h : sem2 .min t t t x x = some z) : z = norm t x := by
  simp only [sem2] at h
  split at h
  · simp at h; exact h.symm
  · cases h

theorem max_self (h : sem2 .max t t t x x = some z) : z = norm t x := by
  simp only [sem2] at h
  split at h
  · simp at h; exact h.symm
  · cases h

/-- If `cInt` of one operand is not larger than the other. -/
theorem min_left (hle : t.isInt = true → cInt t x ≤ cInt t y) (h : sem2 .min t t t x y = some z) :
    z = norm t x := by
  simp only [sem2] at h
  split at h
  · rename_i hc
    rw [if_pos (hle hc.2.2)] at h
    simp at h; exact h.symm
  · cases h

theorem min_right (hle : t.isInt = true → cInt t y ≤ cInt t x) (h : sem2 .min t t t x y = some z) :
    z = norm t y := by
  simp only [sem2] at h
  split at h
  · rename_i hc
    split at h
    · rename_i h1
      have := (cInt_inj t).1 (Int.le_antisymm h1 (hle hc.2.2))
      simp only [Option.map_some, Option.some.injEq] at h
      rw [← h]
      unfold norm; rw [this]
    · simp at h; exact h.symm
  · cases h

theorem max_left (hle : t.isInt = true → cInt t y ≤ cInt t x) (h : sem2 .max t t t x y = some z) :
    z = norm t x := by
  simp only [sem2] at h
  split at h
  · rename_i hc
    rw [if_pos (hle hc.2.2)] at h
    simp at h; exact h.symm
  · cases h

theorem max_right (hle : t.isInt = true → cInt t x ≤ cInt t y) (h : sem2 .max t t t x y = some z) :
    z = norm t y := by
  simp only [sem2] at h
  split at h
  · rename_i hc
    split at h
    · rename_i h1
      have := (cInt_inj t).1 (Int.le_antisymm (hle hc.2.2) h1)
      simp only [Option.map_some, Option.some.injEq] at h
      rw [← h]
      unfold norm; rw [this]
    · simp at h; exact h.symm
  · cases h

/-! ## Comparisons -/

/-- A comparison of a value with itself. -/
theorem cmp_self {fi : Int → Int → Bool} {ff : BitVec 64 → BitVec 64 → Bool} {b : Bool}
    (hi : ∀ a, fi a a = b) (hff : t.isFloat = true → ff x x = b)
    (h : semCmp .bool t t fi ff x x = some z) : z = norm .bool (ofBool b) := by
  unfold semCmp at h
  rw [if_pos ⟨rfl, rfl⟩, hi] at h
  rw [norm_ofBool]
  split at h
  · cases h; rfl
  · split at h
    · rename_i hf
      rw [hff hf] at h
      cases h; rfl
    · cases h

theorem fLt_self : fLt t x x = false := by
  unfold fLt; simp

/-! ## Ternary operations -/

theorem fma_one_left {t : VType} {w : BitVec 64} (h : sem3 .fma t t t t 1#64 y w = some z) :
    sem2 .add t t t y w = some z := by
  simp only [sem3, sem2] at h ⊢
  split at h
  · rename_i hc
    rw [if_pos ⟨hc.1, hc.2.1, hc.2.2.2⟩]
    rw [setWidth_one_mul, BitVec.one_mul] at h
    exact h
  · cases h

theorem fma_one_right {t : VType} {w : BitVec 64} (h : sem3 .fma t t t t x 1#64 w = some z) :
    sem2 .add t t t x w = some z := by
  simp only [sem3, sem2] at h ⊢
  split at h
  · rename_i hc
    rw [if_pos ⟨hc.1, hc.2.1, hc.2.2.2⟩]
    rw [setWidth_one_mul, BitVec.mul_one] at h
    exact h
  · cases h

theorem fma_zero {t : VType} (h : sem3 .fma t t t t x y 0#64 = some z) :
    sem2 .mul t t t x y = some z := by
  simp only [sem3, sem2] at h ⊢
  split at h
  · rename_i hc
    rw [if_pos ⟨hc.1, hc.2.1, hc.2.2.2⟩]
    rw [BitVec.setWidth_zero, BitVec.add_zero] at h
    exact h
  · cases h

theorem fma_zero_left {t : VType} {w : BitVec 64} (h : sem3 .fma t t t t 0#64 y w = some z) :
    z = norm t w := by
  simp only [sem3] at h
  split at h
  · rw [BitVec.setWidth_zero, BitVec.zero_mul, BitVec.zero_add] at h
    cases h; rfl
  · cases h

theorem fma_zero_mid {t : VType} {w : BitVec 64} (h : sem3 .fma t t t t x 0#64 w = some z) :
    z = norm t w := by
  simp only [sem3] at h
  split at h
  · rw [BitVec.setWidth_zero, BitVec.mul_zero, BitVec.zero_add] at h
    cases h; rfl
  · cases h

/-- Widening products are products of casts. -/
theorem mulWide_cast {t' : VType} (h : sem2 .mulWide t' t t x y = some z) :
    ∃ a b, sem1 .cast t' t x = some a ∧ sem1 .cast t' t y = some b ∧
      sem2 .mul t' t' t' a b = some z := by
  simp only [sem2] at h
  split at h
  · rename_i hc
    have hw : (t = .u32 ∧ t' = .u64) ∨ (t = .i32 ∧ t' = .i64) := by
      revert hc; cases t <;> simp [wideType] <;> intro h <;> exact h.symm
    rcases hw with ⟨rfl, rfl⟩ | ⟨rfl, rfl⟩
    · refine ⟨_, _, rfl, rfl, ?_⟩
      rw [← h]
      rfl
    · refine ⟨_, _, rfl, rfl, ?_⟩
      rw [← h]
      rfl
  · cases h

end Verif.Ops
