import Verif.Llvm.BlockReduce
import Verif.Llvm.IntRed

/-!
# C22: block reductions return the reduction of each block
-/
namespace Verif.Llvm

open Verif.Par

variable {T A : Type}

/-- **C22.**  For every operation, size, block size, number of threads and interleaving: the call
succeeds, all memory accesses are within bounds, and `out[b]` is a reduction of the elements
`b * block_size .. min ((b+1) * block_size, size) - 1`, in this order.  Nothing else is modified.
`m`, `m'` are the contents of the memory before and after. -/
theorem C22_block_reduce (r : Red T A) (tsize workers ideal size block_size inb outb fresh : Nat)
    (hb : 1 ≤ block_size) (hle : block_size ≤ size) (hsum : size + block_size ≤ 2 ^ 32)
    (hid : 16 ≤ ideal) (hid' : ideal < 2 ^ 31) (ht : 1 ≤ tsize) (ht8 : tsize ≤ 8)
    (hne : inb ≠ outb) (hin : inb < fresh) (hout : outb < fresh) :
    ∃ ps as, blockReduce r tsize workers ideal size block_size inb outb fresh = .ok ps as ∧
      ∀ m, Safe (InBounds inb size outb (cdiv size block_size) as) ps m ∧
        (∃ m', Ends ps m m') ∧
        ∀ m', Ends ps m m' →
          (∀ b, b < cdiv size block_size →
            Result r (slice (fun j => m (inb, j)) (b * block_size) (min (b * block_size + block_size) size)) (m' (outb, b))) ∧
          ∀ l : Loc, l.1 < fresh → ¬ (l.1 = outb ∧ l.2 < cdiv size block_size) → m' l = m l := by
  by_cases h1 : block_size = 1
  · subst h1
    have hc : cdiv size 1 = size := by simp [cdiv]
    rw [blockReduce, if_neg (by omega), if_neg (by omega), if_pos rfl, hc]
    refine ⟨_, _, rfl, fun m => ⟨⟨?_, fun _ _ => trivial⟩, ends_exists _ _, ?_⟩⟩
    · exact copyTask_safe size hne m (fun j hj => Or.inl ⟨rfl, rfl, hj⟩) (fun i hi => Or.inr (Or.inl ⟨rfl, hi⟩))
    · rintro m' ⟨m1, hm1, rfl⟩
      obtain ⟨h2, h3⟩ := copyTask_spec size hne m _ hm1
      refine ⟨fun b hbb => ?_, fun l _ hl => h3 l fun h => hl ⟨h.1, h.2.2⟩⟩
      rw [h2 b hbb, show min (b * 1 + 1) size = b * 1 + 1 by omega, slice_succ _ (le_refl _), slice_self _ (le_refl _),
        Nat.mul_one]
      exact .copy _
  · obtain ⟨ps, as, hp, _, h⟩ := blockReduce_rec r tsize workers hid ht ht8 block_size size inb outb fresh
      ⟨by omega, hle, hsum, by omega, hid'⟩ hne hin hout
    refine ⟨ps, as, hp, fun m => ⟨(h m).1, ends_exists _ _, fun m' hm' => ?_⟩⟩
    obtain ⟨h2, h3⟩ := (h m).2 m' hm'
    exact ⟨h2, fun l hl hl2 => h3 l hl fun h => hl2 ⟨h.1, h.2.2⟩⟩

/-- **C22.**  For integers, the result is determined: it is the sum or product modulo 2^w, the
minimum, maximum, bitwise or, bitwise and, of the elements of the block. -/
theorem C22_integers (signed : Bool) (w : Nat) (hw : 0 < w) (op : ROp) (tsize workers ideal size block_size inb outb fresh : Nat)
    (hb : 1 ≤ block_size) (hle : block_size ≤ size) (hsum : size + block_size ≤ 2 ^ 32)
    (hid : 16 ≤ ideal) (hid' : ideal < 2 ^ 31) (ht : 1 ≤ tsize) (ht8 : tsize ≤ 8)
    (hne : inb ≠ outb) (hin : inb < fresh) (hout : outb < fresh) :
    ∃ ps as, blockReduce (intRed signed w op) tsize workers ideal size block_size inb outb fresh = .ok ps as ∧
      ∀ m m', Ends ps m m' → ∀ b, b < cdiv size block_size →
        IsReduction signed op (slice (fun j => m (inb, j)) (b * block_size) (min (b * block_size + block_size) size)) (m' (outb, b)) := by
  obtain ⟨ps, as, hp, h⟩ := C22_block_reduce (intRed signed w op) tsize workers ideal size block_size inb outb fresh
    hb hle hsum hid hid' ht ht8 hne hin hout
  refine ⟨ps, as, hp, fun m m' hm' b hbb => ?_⟩
  exact (((h m).2.2 m' hm').1 b hbb).isReduction signed hw op

/-- **C22.**  Empty arrays and invalid block sizes -/
theorem C22_trivial (r : Red T A) (tsize workers ideal size block_size inb outb fresh : Nat) :
    blockReduce r tsize workers ideal 0 block_size inb outb fresh = .ok [] [] ∧
    (size ≠ 0 → block_size = 0 ∨ block_size > size →
      blockReduce r tsize workers ideal size block_size inb outb fresh = .raise) := by
  constructor
  · rw [blockReduce, if_pos rfl]
  · intro h1 h2
    rw [blockReduce, if_neg h1, if_pos h2]

/-- **C22, limit.**  A reduction of a whole array (`jit_reduce`, util.cpp:44-47) with more than 2^31
elements fails: the number of blocks is computed as 0, which is then used as a divisor. -/
theorem C22_more_than_half (r : Red T A) (tsize workers ideal size inb outb fresh : Nat)
    (h1 : 2 ^ 31 < size) (h2 : size < 2 ^ 32) (hw : 1 < workers) :
    blockReduce r tsize workers ideal size size inb outb fresh = .divZero := by
  rw [blockReduce, if_neg (by omega), if_neg (by omega), if_neg (by omega)]
  have hbc : ceilDiv32 size size = 0 := by
    unfold ceilDiv32
    apply Nat.div_eq_of_lt
    omega
  have hg : geometry workers ideal size size = none := by
    unfold geometry
    dsimp only
    rw [hbc, if_pos hw, if_pos]
    have : ∀ x, mul32 0 x = 0 := by intro x; simp [mul32]
    rw [this, Nat.min_zero]
  rw [hg]; rfl

/-! ### The hypotheses can be met -/

/-- 10 blocks of 7 elements (the last one has 2) -/
example : ∃ ps as, blockReduce (intRed true 32 .min) 4 8 16384 65 7 0 1 2 = .ok ps as ∧
    ∀ m m', Ends ps m m' → ∀ b, b < 10 →
      IsReduction true .min (slice (fun j => m (0, j)) (b * 7) (min (b * 7 + 7) 65)) (m' (1, b)) := by
  have h := C22_integers true 32 (by omega) .min 4 8 16384 65 7 0 1 2 (by omega) (by omega) (by omega)
    (by omega) (by omega) (by omega) (by omega) (by omega) (by omega) (by omega)
  exact h

/-- A case with three levels of submissions: one block of 4000 elements, chunks of 16 elements -/
example : ((blockReduce (intRed false 32 .add) 4 8 16 4000 4000 0 1 2) : Plan (BitVec 32)) ≠ .raise ∧
    (geometry 8 16 4000 4000).map (fun g => (g.chunk_size, g.chunks_per_block, g.chunk_count, g.work_units)) = some (16, 250, 250, 250) ∧
    (geometry 8 16 250 250).map (fun g => (g.chunk_size, g.chunks_per_block, g.chunk_count, g.work_units)) = some (16, 16, 16, 16) ∧
    (geometry 8 16 16 16).map (fun g => (g.chunk_size, g.chunks_per_block, g.chunk_count, g.work_units)) = some (16, 1, 1, 1) := by
  refine ⟨?_, by decide +kernel, by decide +kernel, by decide +kernel⟩
  obtain ⟨ps, as, h, _⟩ := C22_block_reduce (intRed false 32 .add) 4 8 16 4000 4000 0 1 2 (by omega) (by omega) (by omega)
    (by omega) (by omega) (by omega) (by omega) (by omega) (by omega) (by omega)
  rw [h]; exact fun h => by cases h

end Verif.Llvm
