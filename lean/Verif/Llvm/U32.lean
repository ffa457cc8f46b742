import Mathlib.Tactic.Common
import Mathlib.Tactic.Ring
import Mathlib.Tactic.Linarith
import Mathlib.Tactic.NormNum

/-!
# Arithmetic on `uint32_t`

Unsigned 32-bit arithmetic wraps around; it is modelled by natural numbers below 2^32.
-/
namespace Verif.Llvm

/-- `a + b`, `a * b` -/
def add32 (a b : Nat) : Nat := (a + b) % 2 ^ 32
@[inherit_doc add32] def mul32 (a b : Nat) : Nat := (a * b) % 2 ^ 32
/-- `(a + b - 1) / b` for `b ≠ 0`; `ceil_div` (common.h:108-110) -/
def ceilDiv32 (a b : Nat) : Nat := ((a + b + (2 ^ 32 - 1)) % 2 ^ 32) / b

theorem add32_eq {a b : Nat} (h : a + b < 2 ^ 32) : add32 a b = a + b := Nat.mod_eq_of_lt h
theorem mul32_eq {a b : Nat} (h : a * b < 2 ^ 32) : mul32 a b = a * b := Nat.mod_eq_of_lt h

/-- `⌈a / b⌉` -/
def cdiv (a b : Nat) : Nat := (a + b - 1) / b

theorem ceilDiv32_eq {a b : Nat} (hb : 0 < b) (h : a + b ≤ 2 ^ 32) : ceilDiv32 a b = cdiv a b := by
  unfold ceilDiv32 cdiv
  have : (a + b + (2 ^ 32 - 1)) % 2 ^ 32 = a + b - 1 := by omega
  rw [this]

theorem cdiv_mul_ge {a b : Nat} (hb : 0 < b) : a ≤ cdiv a b * b := by
  unfold cdiv
  have h1 := Nat.div_add_mod (a + b - 1) b
  have h2 := Nat.mod_lt (a + b - 1) hb
  rw [Nat.mul_comm] at h1
  omega

theorem cdiv_mul_lt {a b : Nat} (hb : 0 < b) : cdiv a b * b < a + b := by
  unfold cdiv
  have h1 := Nat.div_add_mod (a + b - 1) b
  rw [Nat.mul_comm] at h1
  omega

theorem cdiv_pos {a b : Nat} (ha : 0 < a) (hb : 0 < b) : 0 < cdiv a b := by
  unfold cdiv
  exact Nat.div_pos (by omega) hb

theorem cdiv_le {a b c : Nat} (hb : 0 < b) (h : a ≤ c * b) : cdiv a b ≤ c := by
  have h1 := cdiv_mul_lt (a := a) hb
  have : cdiv a b * b < (c + 1) * b := by rw [Nat.add_mul]; omega
  have := Nat.lt_of_mul_lt_mul_right this
  omega

theorem lt_cdiv {a b i : Nat} (hb : 0 < b) : i < cdiv a b ↔ i * b < a := by
  constructor
  · intro h
    have h1 := cdiv_mul_lt (a := a) hb
    have : (i + 1) * b ≤ cdiv a b * b := Nat.mul_le_mul_right _ h
    rw [Nat.add_mul] at this
    omega
  · intro h
    by_contra hc
    have : cdiv a b * b ≤ i * b := Nat.mul_le_mul_right _ (by omega)
    have := cdiv_mul_ge (a := a) hb
    omega

theorem cdiv_le_self {a b : Nat} (hb : 0 < b) : cdiv a b ≤ a :=
  cdiv_le hb (Nat.le_mul_of_pos_right _ hb)

end Verif.Llvm
