import Verif.Gemm.Props
/-!
# Calls of `jit_batched_gemm()` that do not compute the product
-/
namespace Verif.Gemm
open Verif.Par
open Verif.Llvm (add32 mul32 ceilDiv32)

variable {V : Type} {e : Elem V} {c : Cfg}

/-- Nothing is computed. -/
theorem not_achieves {p : Problem} {packed scratch : Nat} (hg : 0 < points p.grid) (hm : 0 < p.M) (hn : 0 < p.N) {v : V}
    (hv : ∀ A B : Nat → V, p.entry e A B 0 0 0 ≠ v) : ¬ Achieves p e (.ok [] packed scratch) (fun _ => v) := by
  rintro ⟨ph, a, b, h1, _, h3⟩
  injection h1 with h1
  subst h1
  exact hv _ _ ((h3 _ rfl).1 0 0 0 hg hm hn).symm

/-- **Finding.**  If the inner dimension is zero, the entries of the product are empty sums, but
`jit_batched_gemm()` returns immediately and leaves the result uninitialised. -/
theorem C28_inner_zero (junkA : Nat → V) (junk : Nat → Nat → V) {fuel maxDims : Nat} {type : FType} {At Bt : Bool} {M N : Nat}
    {batch : Option Batch} (hg : 0 < points (problem At Bt M N 0 batch).grid) (hm : 0 < M) (hn : 0 < N) {v : V} (hv : e.store e.zero ≠ v) :
    (problem At Bt M N 0 batch).entry e = (fun _ _ _ _ _ => e.store e.zero) ∧
    ¬ Achieves (problem At Bt M N 0 batch) e (batchedGemm e c junkA junk fuel maxDims type At Bt M N 0 batch) (fun _ => v) := by
  have h : ∀ A B g i j, (problem At Bt M N 0 batch).entry e A B g i j = e.store e.zero := by
    intro A B g i j
    unfold Problem.entry Problem.terms
    have : (problem At Bt M N 0 batch).K = 0 := rfl
    rw [this]
    have : ∀ n, (List.range n).flatMap (fun q => (List.range 0).map (fun k => (q, k))) = ([] : List (Nat × Nat)) := by
      intro n
      simp
    rw [this]
    rfl
  refine ⟨by funext A B g i j; exact h A B g i j, ?_⟩
  have : batchedGemm e c junkA junk fuel maxDims type At Bt M N 0 batch = .ok [] 0 0 := by
    unfold batchedGemm
    rw [if_pos (.inr (.inr rfl))]
  rw [this]
  exact not_achieves hg hm hn (fun A B => by rw [h]; exact hv)

/-- **Finding.**  If a reduction dimension is empty, the entries of the product are empty sums, but
nothing is written. -/
theorem C28_empty_sum (junkA : Nat → V) (junk : Nat → Nat → V) {fuel maxDims M N K sa sb : Nat} {Bt : Bool} {v : V} (hv : e.store e.zero ≠ v) (hm : 0 < M) (hn : 0 < N)
    (hk : 0 < K) (hd : 1 ≤ maxDims) :
    ¬ Achieves (problem false Bt M N K (some ⟨0, 1, fun _ => 0, fun _ => sa, fun _ => sb⟩)) e
      (batchedGemm e c junkA junk fuel maxDims .f32 false Bt M N K (some ⟨0, 1, fun _ => 0, fun _ => sa, fun _ => sb⟩)) (fun _ => v) := by
  have : batchedGemm e c junkA junk fuel maxDims .f32 false Bt M N K (some ⟨0, 1, fun _ => 0, fun _ => sa, fun _ => sb⟩) = .ok [] 0 0 := by
    unfold batchedGemm
    rw [if_neg (by omega), if_neg (by simp; omega), if_neg (by decide)]
    have e1 : dropOnes ⟨0, 1, fun _ => 0, fun _ => sa, fun _ => sb⟩ 0 = ⟨0, 1, fun _ => 0, fun _ => sa, fun _ => sb⟩ := by
      rw [dropOnes, dif_pos (by simp), if_neg (by simp), dropOnes, dif_neg (by simp)]
    have e2 : foldM false M K ⟨0, 1, fun _ => 0, fun _ => sa, fun _ => sb⟩ = (M, ⟨0, 1, fun _ => 0, fun _ => sa, fun _ => sb⟩) := by
      rw [foldM, dif_neg (by simp)]
    have e3 : foldK false Bt M N K ⟨0, 1, fun _ => 0, fun _ => sa, fun _ => sb⟩ = (K, ⟨0, 1, fun _ => 0, fun _ => sa, fun _ => sb⟩) := by
      rw [foldK, dif_neg (by simp)]
    simp only [Option.getD_some, e1, e2, e3]
    unfold llvmGemm
    have e4 : countPoints (Batch.mk 0 1 (fun _ => 0) (fun _ => sa) (fun _ => sb)).grid 1 = some 1 := rfl
    have e5 : countPoints (Batch.mk 0 1 (fun _ => 0) (fun _ => sa) (fun _ => sb)).red 1 = none := rfl
    rw [Bool.false_and, if_neg (by decide), e4, e5]
  rw [this]
  have hg : 0 < points (problem false Bt M N K (some ⟨0, 1, fun _ => 0, fun _ => sa, fun _ => sb⟩)).grid := Nat.one_pos
  refine not_achieves hg hm hn (fun A B => ?_)
  exact hv

/-- In contrast, the result is filled with zeros if the strides are such that the dimension is folded: here,
folding changes the result. -/
theorem C28_empty_sum_folded (junkA : Nat → V) (junk : Nat → Nat → V) {fuel maxDims M N K : Nat} (hm : 0 < M) (hn : 0 < N) (hk : 0 < K) (hd : 1 ≤ maxDims) :
    batchedGemm e c junkA junk fuel maxDims .f32 true false M N K (some ⟨0, 1, fun _ => 0, fun _ => K * M, fun _ => K * N⟩) =
      .ok [(1, fun _ => forLt 0 (1 * M * N) fun i => Prog.put (.c, i) e.zero)] 0 0 := by
  unfold batchedGemm
  rw [if_neg (by omega), if_neg (by simp; omega), if_neg (by decide)]
  have e1 : dropOnes ⟨0, 1, fun _ => 0, fun _ => K * M, fun _ => K * N⟩ 0 = ⟨0, 1, fun _ => 0, fun _ => K * M, fun _ => K * N⟩ := by
    rw [dropOnes, dif_pos (by simp), if_neg (by simp), dropOnes, dif_neg (by simp)]
  have e2 : foldM true M K ⟨0, 1, fun _ => 0, fun _ => K * M, fun _ => K * N⟩ = (M, ⟨0, 1, fun _ => 0, fun _ => K * M, fun _ => K * N⟩) := by
    rw [foldM, dif_neg (by simp)]
  have e3 : foldK true false M N K ⟨0, 1, fun _ => 0, fun _ => K * M, fun _ => K * N⟩ =
      (0, (Batch.mk 0 1 (fun _ => 0) (fun _ => K * M) (fun _ => K * N)).drop 0) := by
    rw [foldK, dif_pos (by simp), foldK, dif_neg (by simp [Batch.drop])]
    rfl
  simp only [Option.getD_some, e1, e2, e3]
  have e4 : countPoints ((Batch.mk 0 1 (fun _ => 0) (fun _ => K * M) (fun _ => K * N)).drop 0).grid 1 = some 1 := rfl
  have e5 : countPoints ((Batch.mk 0 1 (fun _ => 0) (fun _ => K * M) (fun _ => K * N)).drop 0).red 1 = some 1 := rfl
  unfold llvmGemm
  rw [e4, e5]
  dsimp only
  rw [if_neg (by decide), if_neg (by omega), if_pos rfl]

/-- **Finding.**  The number of grid points is computed with 32 bits.  For instance, a grid with 65536 × 65536
points is treated like an empty one. -/
theorem C28_count_wraps : countPoints [⟨65536, 1, 1⟩, ⟨65536, 0, 0⟩] 1 = some 0 ∧ points [⟨65536, 1, 1⟩, ⟨65536, 0, 0⟩] = 2 ^ 32 ∧
    countPoints [⟨65536, 1, 1⟩, ⟨65537, 0, 0⟩] 1 = some 65536 := by decide

theorem steps_none {n d : Nat} (hd : d ∣ 2 ^ 32) (h0 : 0 < d) (hn : 2 ^ 32 < n + d) : ∀ fuel x, d ∣ x → x < 2 ^ 32 → steps n d fuel x = none := by
  intro fuel
  induction fuel with
  | zero => intro x _ _; rfl
  | succ fuel ih =>
    intro x hx hl
    have hlt : x + d ≤ 2 ^ 32 := by
      obtain ⟨a, ha⟩ := hx
      obtain ⟨b, hb⟩ := hd
      rw [ha] at hl ⊢
      rw [hb] at hl ⊢
      have := Nat.lt_of_mul_lt_mul_left hl
      rw [← Nat.mul_succ]
      exact Nat.mul_le_mul_left _ this
    have hs : steps n d (fuel + 1) x = if x < n then (steps n d fuel (add32 x d)).map (x :: ·) else some [] := rfl
    rw [hs, if_pos (by omega)]
    have : d ∣ add32 x d := by
      unfold add32
      exact (Nat.dvd_mod_iff hd).2 (Nat.dvd_add hx (Nat.dvd_refl d))
    rw [ih _ this (Nat.mod_lt _ (by decide))]
    rfl

/-- **Finding.**  If the inner dimension exceeds `2^32 - KC` (where `KC` is 1024), the variable of the loop over segments
wraps around, and `jit_batched_gemm()` never returns. -/
theorem C28_diverges (junkA : Nat → V) (junk : Nat → Nat → V) {maxDims M N K : Nat} {type : FType} {At Bt : Bool} (ht : type ≠ .other)
    (hT : ¬ (At = true ∧ Bt = true)) (hm : 0 < M) (hn : 0 < N) (hkc : c.KC ∣ 2 ^ 32) (hk : 2 ^ 32 < K + c.KC) (fuel : Nat) :
    batchedGemm e c junkA junk fuel maxDims type At Bt M N K none = .diverge := by
  have hk0 : 0 < c.KC := Nat.pos_of_dvd_of_pos hkc (by decide)
  have hkle := Nat.le_of_dvd (by decide) hkc
  unfold batchedGemm
  rw [if_neg (by omega), if_neg (by simp), if_neg ht]
  have e1 : dropOnes .none 0 = .none := by rw [dropOnes, dif_neg (by decide)]
  have e2 : foldM At M K .none = (M, .none) := by rw [foldM, dif_neg (by simp [Batch.none])]
  have e3 : foldK At Bt M N K .none = (K, .none) := by rw [foldK, dif_neg (by simp [Batch.none])]
  simp only [Option.getD_none, e1, e2, e3]
  unfold llvmGemm
  rw [show (At && Bt) = false by simpa using hT, if_neg (by decide)]
  have e4 : countPoints Batch.none.grid 1 = some 1 := rfl
  have e5 : countPoints Batch.none.red 1 = some 1 := rfl
  rw [e4, e5]
  dsimp only
  rw [if_neg (by omega), if_neg (by omega), steps_none hkc hk0 hk fuel 0 (Nat.dvd_zero _) (by decide)]
  cases steps N (panelWidth c N) fuel 0 <;> rfl

/-! ### Examples -/

/-- The constants of a machine with AVX512 and 8 threads, for single precision -/
def avx512 : Cfg := ⟨6, 16, 1024, 4096, 8⟩

theorem avx512_ok : avx512.OK := ⟨by decide, by decide, by decide, by decide, by decide⟩

/-- Batches of 3 × 5 products of 7 × 4 and 4 × 20 matrices, where the dimension of extent 3 shares
the second operand, and one dimension has extent one; the sum has two terms. -/
def batch1 : Batch :=
  ⟨3, 1, fun d => if d = 0 then 3 else if d = 1 then 1 else if d = 2 then 5 else 2, fun d => if d = 0 then 28 else if d = 2 then 84 else 420,
    fun d => if d = 0 then 0 else if d = 2 then 80 else 400⟩

/-- The hypotheses of `C28_batched_gemm_partial` hold for this batch. -/
theorem batch1_limits : Limits avx512 (problem false false 7 20 4 (some batch1)) :=
  ⟨by decide, by decide, by decide, by decide, by decide, by decide, by decide, by decide⟩

/-- Dimensions are removed and folded: the first dimension becomes part of the rows. -/
example : (foldM false 7 4 (dropOnes batch1 0)).1 = 21 ∧ (foldM false 7 4 (dropOnes batch1 0)).2.grid = [⟨5, 84, 80⟩] ∧
    (foldM false 7 4 (dropOnes batch1 0)).2.red = [⟨2, 420, 400⟩] := by decide +kernel

example (m : Loc → Int) : Achieves (problem false false 7 20 4 (some batch1)) (exact Int)
    (batchedGemm (exact Int) avx512 (fun _ => 0) (fun _ _ => 0) 1000 6 .f32 false false 7 20 4 (some batch1)) m :=
  C28_batched_gemm_partial avx512_ok _ _ (by decide) (by decide) (fun b hb => by cases hb; decide) batch1_limits (by decide) (by decide)

/-- An entry of the result -/
example : (problem false false 7 20 4 (some batch1)).entry (exact Int) (fun x => x) (fun x => 1000 * x) 14 6 19 = 3192580000 := by decide +kernel

/-- The inner dimension is folded: transposed first operand. -/
def batch2 : Batch := ⟨0, 2, fun d => if d = 0 then 3 else 2, fun d => if d = 0 then 4 * 5 else 1000, fun d => if d = 0 then 4 * 6 else 500⟩

example : (foldK true false 5 6 4 (dropOnes batch2 0)).1 = 12 ∧ (foldK true false 5 6 4 (dropOnes batch2 0)).2.red = [⟨2, 1000, 500⟩] := by decide +kernel

example (m : Loc → Int) : Achieves (problem true false 5 6 4 (some batch2)) (exact Int)
    (batchedGemm (exact Int) avx512 (fun _ => 0) (fun _ _ => 0) 1000 6 .f64 true false 5 6 4 (some batch2)) m :=
  C28_batched_gemm_partial avx512_ok _ _ (by decide) (by decide) (fun b hb => by cases hb; decide)
    ⟨by decide, by decide, by decide, by decide, by decide, by decide, by decide, by decide⟩ (by decide) (by decide)

/-- Half precision: sums are accumulated with conversions (here modelled by shifts). -/
example (m : Loc → Int) : Achieves (problem false true 6 16 2000 none) ⟨true, 0, fun acc a b => acc + a * b, (· * 4), (· / 16)⟩
    (batchedGemm ⟨true, 0, fun acc a b => acc + a * b, (· * 4), (· / 16)⟩ avx512 (fun _ => 0) (fun _ _ => 0) 5000 6 .f16 false true 6 16 2000 none) m :=
  C28_batched_gemm_partial avx512_ok _ _ (by decide) (by decide) (fun b hb => by cases hb)
    ⟨by decide, by decide, by decide, by decide, by decide, by decide, by decide, by decide⟩ (by decide) (by decide)

end Verif.Gemm
