import Verif.Hash.Model
import Mathlib.Data.Fintype.EquivFin
import Mathlib.Tactic.Common

/-!
# C51: the hash functions are bijections
-/
namespace Verif.Hash

/-- The inverse of `x ↦ x ^ (x >> k)` when `3 * k` is at least the number of bits. -/
theorem unshift {w : Nat} (k : Nat) (h : w ≤ 3 * k) (x : BitVec w) :
    let y := x ^^^ (x >>> k)
    y ^^^ (y >>> k) ^^^ (y >>> (2 * k)) = x := by
  intro y
  ext i hi
  simp only [y, BitVec.getElem_xor, BitVec.getElem_ushiftRight, BitVec.getLsbD_xor, BitVec.getLsbD_ushiftRight]
  rw [show k + (2 * k + i) = 3 * k + i by omega, BitVec.getLsbD_of_ge x (3 * k + i) (by omega),
    show k + (k + i) = 2 * k + i by omega]
  cases x.getLsbD (k + i) <;> cases x.getLsbD (2 * k + i) <;> simp

theorem shift_injective {w : Nat} (k : Nat) (h : w ≤ 3 * k) {x y : BitVec w}
    (e : x ^^^ (x >>> k) = y ^^^ (y >>> k)) : x = y := by
  have h1 := unshift k h x
  have h2 := unshift k h y
  dsimp only at h1 h2
  rw [e] at h1
  exact h1.symm.trans h2

/-- Multiplication by a number with an inverse is injective. -/
theorem mul_injective {w : Nat} (m inv : BitVec w) (h : m * inv = 1#w) {x y : BitVec w} (e : x * m = y * m) : x = y := by
  have := congrArg (· * inv) e
  simpa [BitVec.mul_assoc, h] using this

theorem xor_injective {w : Nat} {a x y : BitVec w} (e : a ^^^ x = a ^^^ y) : x = y := by
  have := congrArg (a ^^^ ·) e
  simpa [← BitVec.xor_assoc] using this

/-- Distinct 32-bit keys have distinct hashes. -/
theorem C51_fmix32_injective : Function.Injective fmix32 := by
  intro x y h
  unfold fmix32 at h
  have h := shift_injective 16 (by omega) h
  have h := mul_injective _ 0x7ed1b41d#32 (by decide) h
  have h := shift_injective 13 (by omega) h
  have h := mul_injective _ 0xa5cb9243#32 (by decide) h
  exact shift_injective 16 (by omega) h

/-- The same for 64-bit keys and pointers -/
theorem C51_fmix64_injective : Function.Injective fmix64 := by
  intro x y h
  unfold fmix64 at h
  have h := shift_injective 33 (by omega) h
  have h := mul_injective _ 0x9cb4b2f8129337db#64 (by decide) h
  have h := shift_injective 33 (by omega) h
  have h := mul_injective _ 0x4f74430c22a54005#64 (by decide) h
  exact shift_injective 33 (by omega) h

/-- The hashers of the 32-bit, 64-bit and pointer tables are injective. -/
theorem C51_hashers_injective : Function.Injective uint32Hasher ∧ Function.Injective uint64Hasher := by
  refine ⟨fun x y h => C51_fmix32_injective ?_, C51_fmix64_injective⟩
  have := congrArg (BitVec.setWidth 32) h
  simpa [uint32Hasher] using this

/-- Every 32-bit (64-bit) value is the hash of exactly one key: no buckets are unreachable. -/
theorem C51_bijective : Function.Bijective fmix32 ∧ Function.Bijective fmix64 := by
  have key : ∀ {w : Nat} (f : BitVec w → BitVec w), Function.Injective f → Function.Surjective f := by
    intro w f hf
    let g : Fin (2 ^ w) → Fin (2 ^ w) := fun i => (f (BitVec.ofFin i)).toFin
    have hg : Function.Injective g := by
      intro a b h
      have : f (BitVec.ofFin a) = f (BitVec.ofFin b) := BitVec.toFin_inj.1 h
      simpa using congrArg BitVec.toFin (hf this)
    intro y
    obtain ⟨i, hi⟩ := (Finite.injective_iff_surjective.1 hg) y.toFin
    exact ⟨BitVec.ofFin i, BitVec.toFin_inj.1 hi⟩
  exact ⟨⟨C51_fmix32_injective, key _ C51_fmix32_injective⟩, ⟨C51_fmix64_injective, key _ C51_fmix64_injective⟩⟩

/-- Combining a hash with a further value loses nothing about that value: for every seed,
distinct values have distinct combined hashes. -/
theorem C51_hashCombine_injective (seed : BitVec 64) : Function.Injective (hashCombine seed) := by
  intro x y h
  unfold hashCombine at h
  dsimp only at h
  have hm : (0x9ddfea08eb382d69#64 : BitVec 64) * 0xdc56e6f5090b32d9#64 = 1#64 := by decide
  have h := mul_injective _ _ hm h
  have h := shift_injective 47 (by omega) h
  have h := mul_injective _ _ hm h
  have h := xor_injective h
  have h := shift_injective 47 (by omega) h
  have h := mul_injective _ _ hm h
  rw [BitVec.xor_comm x, BitVec.xor_comm y] at h
  exact xor_injective h

example : fmix32 1#32 = 0x514e28b7#32 ∧ fmix32 2#32 = 0x30f4c306#32 := by decide
example : fmix64 1#64 ≠ fmix64 2#64 ∧ hashCombine 5#64 1#64 ≠ hashCombine 5#64 2#64 := by decide

end Verif.Hash
