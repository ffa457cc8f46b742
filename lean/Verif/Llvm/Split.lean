import Verif.Llvm.PrefixProps

/-!
# Splitting an index range over the thread pool

Used by `reduce_dot`, `compress`, `aggregate` and `reduce_expanded` (`/repo/src/llvm_ts.cpp`).
-/
namespace Verif.Llvm

open Verif.Par

/-- Block size and number of blocks (llvm_ts.cpp:489-493, 711-715, 957-961, 1091-1095) -/
def poolSplit (workers ideal size : Nat) : Nat × Nat :=
  if workers > 1 then (ideal, ceilDiv32 size ideal) else (size, 1)

/-- Range of a task: `start = index * block_size`, `end = min(start + block_size, size)`
(llvm_ts.cpp:735-736, 759-760, 971-972) -/
def splitRange (bs size index : Nat) : Nat × Nat :=
  (mul32 index bs, min (add32 (mul32 index bs) bs) size)

/-- Range of a task: `index * block_size`, `min((index + 1) * block_size, size)` (llvm_ts.cpp:505-506,
1102-1103) -/
def splitRange' (bs size index : Nat) : Nat × Nat :=
  (mul32 index bs, min (mul32 (add32 index 1) bs) size)

/-- `for (uint32_t i = lo; i != hi; ++i)` with an accumulator: if `lo > hi`, the counter wraps around -/
def foldNe {L V α : Type} (lo hi : Nat) (a : α) (body : Nat → α → Prog L V α) : Prog L V α :=
  Prog.loop ((hi + (2 ^ 32 - lo)) % 2 ^ 32) a (fun k a => body ((lo + k) % 2 ^ 32) a)

/-- The same without accumulator -/
def forNe {L V : Type} (lo hi : Nat) (body : Nat → Prog L V Unit) : Prog L V Unit :=
  foldNe lo hi () (fun i _ => body i)

theorem loop_congr {L V α : Type} {n : Nat} {a : α} {f g : Nat → α → Prog L V α} (h : ∀ k a, k < n → f k a = g k a) :
    Prog.loop n a f = Prog.loop n a g := by
  induction n with
  | zero => rfl
  | succ n ih =>
    unfold Prog.loop
    rw [ih (fun k a hk => h k a (by omega))]
    congr 1
    funext a
    exact h n a (by omega)

theorem foldNe_eq {L V α : Type} {lo hi : Nat} (a : α) (body : Nat → α → Prog L V α) (h1 : lo ≤ hi) (h2 : hi < 2 ^ 32) :
    foldNe lo hi a body = Prog.loop (hi - lo) a (fun k a => body (lo + k) a) := by
  unfold foldNe
  rw [show (hi + (2 ^ 32 - lo)) % 2 ^ 32 = hi - lo by omega]
  apply loop_congr
  intro k a hk
  rw [Nat.mod_eq_of_lt (by omega)]

theorem forNe_eq {L V : Type} {lo hi : Nat} (body : Nat → Prog L V Unit) (h1 : lo ≤ hi) (h2 : hi < 2 ^ 32) :
    forNe lo hi body = forLt lo hi body := foldNe_eq () _ h1 h2

/-- Sizes for which splitting does not wrap around -/
structure SplitOk (ideal size : Nat) : Prop where
  pos : 0 < size
  idpos : 0 < ideal
  sum : size + ideal ≤ 2 ^ 32

section
variable {workers ideal size : Nat}

/-- All about the ranges -/
theorem poolSplit_facts (h : SplitOk ideal size) {t : Nat} (ht : t < (poolSplit workers ideal size).2) :
    0 < (poolSplit workers ideal size).1 ∧
    splitRange (poolSplit workers ideal size).1 size t =
      (t * (poolSplit workers ideal size).1, min (t * (poolSplit workers ideal size).1 + (poolSplit workers ideal size).1) size) ∧
    splitRange' (poolSplit workers ideal size).1 size t =
      (t * (poolSplit workers ideal size).1, min (t * (poolSplit workers ideal size).1 + (poolSplit workers ideal size).1) size) ∧
    t * (poolSplit workers ideal size).1 < size := by
  obtain ⟨h0, h1, h2⟩ := h
  unfold poolSplit at *
  by_cases hw : workers > 1
  · rw [if_pos hw] at ht ⊢
    simp only at ht ⊢
    rw [ceilDiv32_eq h1 h2] at ht
    have h3 := (lt_cdiv h1).1 ht
    have h4 : (t + 1) * ideal = t * ideal + ideal := by ring
    have h5 : t < size := lt_of_lt_of_le ht (cdiv_le_self h1)
    refine ⟨h1, ?_, ?_, h3⟩
    · unfold splitRange
      rw [mul32_eq (by omega)]
      by_cases hc : t * ideal + ideal < 2 ^ 32
      · rw [add32_eq hc]
      · omega
    · unfold splitRange'
      rw [mul32_eq (by omega), add32_eq (by omega)]
      by_cases hc : t * ideal + ideal < 2 ^ 32
      · rw [mul32_eq (by omega), h4]
      · omega
  · rw [if_neg hw] at ht ⊢
    simp only at ht ⊢
    have : t = 0 := by omega
    subst this
    refine ⟨h0, ?_, ?_, by omega⟩
    · unfold splitRange
      rw [mul32_eq (by omega), add32_eq (by omega)]
    · unfold splitRange'
      rw [mul32_eq (by omega), add32_eq (by omega), mul32_eq (by omega)]
      simp

theorem poolSplit_le (h : SplitOk ideal size) {t : Nat} (ht : t < (poolSplit workers ideal size).2) :
    (splitRange (poolSplit workers ideal size).1 size t).1 < (splitRange (poolSplit workers ideal size).1 size t).2 ∧
    (splitRange (poolSplit workers ideal size).1 size t).2 ≤ size ∧ size < 2 ^ 32 := by
  obtain ⟨h1, h2, h3, h4⟩ := poolSplit_facts h ht
  rw [h2]
  simp only
  have := h.sum
  have := h.idpos
  omega

theorem poolSplit_last (h : SplitOk ideal size) : size ≤ (poolSplit workers ideal size).2 * (poolSplit workers ideal size).1 := by
  obtain ⟨h0, h1, h2⟩ := h
  unfold poolSplit
  by_cases hw : workers > 1
  · rw [if_pos hw]
    simp only
    rw [ceilDiv32_eq h1 h2]
    exact cdiv_mul_ge h1
  · rw [if_neg hw]; simp

theorem poolSplit_split (h : SplitOk ideal size) :
    Split size (poolSplit workers ideal size).2 (fun t => (splitRange (poolSplit workers ideal size).1 size t).1)
      (fun t => (splitRange (poolSplit workers ideal size).1 size t).2) := by
  have hf := fun t ht => poolSplit_facts (workers := workers) h (t := t) ht
  have hl := poolSplit_last (workers := workers) h
  generalize poolSplit workers ideal size = p at *
  have hpos : ∀ t, t < p.2 → 0 < p.1 := fun t ht => (hf t ht).1
  refine ⟨fun t ht => ?_, fun t t' ht ht' hne i h1 h2 => ?_, fun i hi => ?_⟩
  · simp only [(hf t ht).2.1]; omega
  · simp only [(hf t ht).2.1] at h1 h2
    simp only [(hf t' ht').2.1]
    rintro ⟨h3, h4⟩
    have e1 : i / p.1 = t := by
      rw [Nat.div_eq_iff (hpos t ht)]; omega
    have e2 : i / p.1 = t' := by
      rw [Nat.div_eq_iff (hpos t ht)]; omega
    omega
  · have hp : 0 < p.1 := by
      rcases Nat.eq_zero_or_pos p.1 with h | h
      · rw [h] at hl; omega
      · exact h
    have ht : i / p.1 < p.2 := by
      rw [Nat.div_lt_iff_lt_mul hp]; omega
    refine ⟨_, ht, ?_⟩
    simp only [(hf _ ht).2.1]
    have h1 := Nat.div_add_mod i p.1
    have h2 := Nat.mod_lt i hp
    rw [Nat.mul_comm] at h1
    omega

end

end Verif.Llvm
