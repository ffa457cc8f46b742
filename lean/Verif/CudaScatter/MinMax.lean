import Verif.CudaScatter.Model
import Verif.Ieee.Lemmas

namespace Verif.CudaScatter
open Verif.Ieee (decode sign mag key lt_iff nan_iff)

/-- Position of a bit pattern: negative numbers are in reverse order below the others -/
def pos {eb mb : Nat} (v : BitVec (mb + eb + 1)) : Int :=
  if 2 ^ (mb + eb) ≤ v.toNat then (2 ^ (mb + eb) : Nat) - 1 - (v.toNat : Int) else v.toNat

variable {eb mb : Nat}

theorem bound (v : BitVec (mb + eb + 1)) : v.toNat < 2 * 2 ^ (mb + eb) := by
  have := v.isLt
  rw [pow_succ] at this
  omega

theorem msb_pos (v : BitVec (mb + eb + 1)) : v.msb = decide (2 ^ (mb + eb) ≤ v.toNat) := by
  rw [BitVec.msb_eq_decide]
  simp

theorem toInt_pos (v : BitVec (mb + eb + 1)) :
    v.toInt = if 2 ^ (mb + eb) ≤ v.toNat then (v.toNat : Int) - 2 * (2 ^ (mb + eb) : Nat) else v.toNat := by
  rw [BitVec.toInt_eq_toNat_cond, pow_succ]
  generalize 2 ^ (mb + eb) = T
  by_cases h : T ≤ v.toNat
  · rw [if_pos h, if_neg (by omega)]; push_cast; omega
  · rw [if_neg h, if_pos (by omega)]

theorem pos_inj {a b : BitVec (mb + eb + 1)} (h : pos a = pos b) : a = b := by
  apply BitVec.eq_of_toNat_eq
  have ha := bound a
  have hb := bound b
  unfold pos at h
  generalize 2 ^ (mb + eb) = T at *
  split at h <;> split at h <;> omega

theorem minmax_min (mem v : BitVec (mb + eb + 1)) : minmax true mem v = if pos v < pos mem then v else mem := by
  have ha := bound v
  have hb := bound mem
  unfold minmax
  rw [msb_pos]
  by_cases h : 2 ^ (mb + eb) ≤ v.toNat
  · rw [if_neg (by simpa using h), if_pos rfl]
    have e : mem.ult v = decide (pos v < pos mem) := by
      rw [BitVec.ult, Bool.eq_iff_iff, decide_eq_true_iff, decide_eq_true_iff]
      unfold pos
      generalize 2 ^ (mb + eb) = T at *
      rw [if_pos h]
      split <;> omega
    rw [e]; simp
  · rw [if_pos (by simpa using h), if_pos rfl]
    have e : v.slt mem = decide (pos v < pos mem) := by
      rw [BitVec.slt, Bool.eq_iff_iff, decide_eq_true_iff, decide_eq_true_iff, toInt_pos, toInt_pos]
      unfold pos
      generalize 2 ^ (mb + eb) = T at *
      rw [if_neg h, if_neg h]
      split <;> omega
    rw [e]; simp

theorem minmax_max (mem v : BitVec (mb + eb + 1)) : minmax false mem v = if pos mem < pos v then v else mem := by
  have ha := bound v
  have hb := bound mem
  unfold minmax
  rw [msb_pos]
  by_cases h : 2 ^ (mb + eb) ≤ v.toNat
  · rw [if_neg (by simpa using h), if_neg (by simp)]
    have e : v.ult mem = decide (pos mem < pos v) := by
      rw [BitVec.ult, Bool.eq_iff_iff, decide_eq_true_iff, decide_eq_true_iff]
      unfold pos
      generalize 2 ^ (mb + eb) = T at *
      rw [if_pos h]
      split <;> omega
    rw [e]; simp
  · rw [if_pos (by simpa using h), if_neg (by simp)]
    have e : mem.slt v = decide (pos mem < pos v) := by
      rw [BitVec.slt, Bool.eq_iff_iff, decide_eq_true_iff, decide_eq_true_iff, toInt_pos, toInt_pos]
      unfold pos
      generalize 2 ^ (mb + eb) = T at *
      rw [if_neg h, if_neg h]
      split <;> omega
    rw [e]; simp

theorem sign_eq (v : BitVec (mb + eb + 1)) : sign eb mb v.toNat = decide (2 ^ (mb + eb) ≤ v.toNat) := by
  have ha := bound v
  have hp : 0 < 2 ^ (mb + eb) := Nat.two_pow_pos _
  unfold sign
  generalize 2 ^ (mb + eb) = T at *
  by_cases h : T ≤ v.toNat
  · have : v.toNat / T = 1 := by rw [Nat.div_eq_of_lt_le] <;> omega
    simp [this, h]
  · have : v.toNat / T = 0 := Nat.div_eq_of_lt (by omega)
    simp [this, h]

theorem mag_eq' (v : BitVec (mb + eb + 1)) : mag eb mb v.toNat = if 2 ^ (mb + eb) ≤ v.toNat then v.toNat - 2 ^ (mb + eb) else v.toNat := by
  have ha := bound v
  unfold mag
  generalize 2 ^ (mb + eb) = T at *
  by_cases h : T ≤ v.toNat
  · rw [if_pos h, Nat.mod_eq_sub_mod h, Nat.mod_eq_of_lt (by omega)]
  · rw [if_neg h, Nat.mod_eq_of_lt (by omega)]

/-- The order of positions is that of numbers. -/
theorem pos_lt {a b : BitVec (mb + eb + 1)} (he : 0 < eb) (h : (decode eb mb a.toNat).lt (decode eb mb b.toNat)) : pos a < pos b := by
  rw [lt_iff eb mb _ _ he] at h
  have h := h.2.2
  unfold key at h
  rw [sign_eq, sign_eq, mag_eq', mag_eq'] at h
  have ha := bound a
  have hb := bound b
  unfold pos
  generalize 2 ^ (mb + eb) = T at *
  by_cases h1 : T ≤ a.toNat <;> by_cases h2 : T ≤ b.toNat <;> simp only [h1, h2, decide_true, decide_false, if_true, if_false, Bool.false_eq_true] at h ⊢ <;> omega

end Verif.CudaScatter
