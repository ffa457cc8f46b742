import Verif.Gemm.Fold
import Mathlib.Algebra.BigOperators.Fin
import Mathlib.Data.Matrix.Mul
/-!
# C28: batched matrix products
-/
namespace Verif.Gemm
open Verif.Par
open Verif.Llvm (mul32 mul32_eq cdiv cdiv_mul_lt)

variable {V : Type} {e : Elem V} {c : Cfg} {m : Loc → V}

/-- Sizes for which no arithmetic on 32-bit integers wraps around -/
structure Limits (c : Cfg) (p : Problem) : Prop where
  m : 0 < p.M
  n : 0 < p.N
  k : 0 < p.K
  size : p.size < 2 ^ 32
  rows : p.M * points p.grid + c.MR ≤ 2 ^ 32
  grid : points p.grid < 2 ^ 32
  cols : p.N + (c.NC0 + c.NR) ≤ 2 ^ 32
  inner : p.K * points p.red + c.KC ≤ 2 ^ 32

theorem panelWidth_le (hc : c.OK) {N : Nat} : panelWidth c N ≤ c.NC0 + c.NR := by
  unfold panelWidth
  have h1 : (c.NC0 + c.NR - 1) / c.NR * c.NR < c.NC0 + c.NR := cdiv_mul_lt hc.nr
  have h2 : min (Verif.Llvm.ceilDiv32 N c.NR) ((c.NC0 + c.NR - 1) / c.NR) * c.NR ≤ (c.NC0 + c.NR - 1) / c.NR * c.NR :=
    Nat.mul_le_mul_right _ (Nat.min_le_right _ _)
  exact le_of_lt (lt_of_le_of_lt h2 h1)

theorem achieves_none {p : Problem} (h : points p.grid = 0) : Achieves p e (.ok [] 0 0) m := by
  refine ⟨[], 0, 0, rfl, trivial, ?_⟩
  intro m' he
  rw [show m' = m from he]
  refine ⟨?_, rfl, rfl, fun _ _ => rfl⟩
  intro g i j hg
  omega

/-- **C28.**  For every element type, every shape, every batch description (within the limits above) and
every schedule of the parallel tasks, `jit_batched_gemm()` computes the product that the batch description
asks for: the removal and folding of batch dimensions, the division into panels, slabs, tiles and
segments, and the content of uninitialised memory do not change a single bit of the result.  Only entries of the
operands are read, only the result and temporary memory are written.

Missing: empty sums (`C28_inner_zero`, `C28_empty_sum`), sizes beyond the limits (`C28_diverges`, `C28_count_wraps`), and the
backends other than LLVM. -/
theorem C28_batched_gemm_partial (hc : c.OK) (junkA : Nat → V) (junk : Nat → Nat → V) {fuel maxDims : Nat} {type : FType} {At Bt : Bool}
    {M N K : Nat} {batch : Option Batch}
    (htype : type ≠ .other) (hT : ¬ (At = true ∧ Bt = true)) (hd : ∀ b, batch = some b → b.nb + b.nr ≤ maxDims)
    (hl : Limits c (problem At Bt M N K batch)) (hred : 0 < points (problem At Bt M N K batch).red)
    (hf : M * points (problem At Bt M N K batch).grid + N + K * points (problem At Bt M N K batch).red < fuel) :
    Achieves (problem At Bt M N K batch) e (batchedGemm e c junkA junk fuel maxDims type At Bt M N K batch) m := by
  have lm := hl.m
  have ln := hl.n
  have lk := hl.k
  have lsize := hl.size
  have lrows := hl.rows
  have lgrid := hl.grid
  have lcols := hl.cols
  have linner := hl.inner
  clear hl
  unfold Problem.size at lsize
  unfold problem at *
  dsimp only at *
  unfold batchedGemm
  rw [if_neg (by omega), if_neg ?hd, if_neg htype]
  case hd =>
    cases batch with
    | none => simp
    | some b =>
      have := hd b rfl
      simp; omega
  generalize batch.getD .none = b at *
  dsimp only
  obtain ⟨s1, s2⟩ := dropOnes_same b 0
  generalize dropOnes b 0 = b0 at *
  -- folding
  have hred0 : ∀ d ∈ b0.red, 0 < d.extent := extents_pos (by rw [s2.points]; exact hred)
  have r1 := foldM_red (At := At) (K := K) M b0
  have z1 := foldM_size (At := At) (K := K) M b0
  have c1 : (∀ d ∈ b0.grid, 0 < d.extent) →
      Covers ⟨At, Bt, (foldM At M K b0).1, N, K, (foldM At M K b0).2.grid, b0.red⟩ ⟨At, Bt, M, N, K, b0.grid, b0.red⟩ := foldM_covers M b0
  rw [← r1] at c1 hred0
  rw [s1.points] at z1
  generalize foldM At M K b0 = fm at *
  have g2 := foldK_grid (At := At) (Bt := Bt) (M := fm.1) (N := N) K fm.2
  have z2 := foldK_size (At := At) (Bt := Bt) (M := fm.1) (N := N) K fm.2
  have c2 : Covers ⟨At, Bt, fm.1, N, (foldK At Bt fm.1 N K fm.2).1, fm.2.grid, (foldK At Bt fm.1 N K fm.2).2.red⟩ ⟨At, Bt, fm.1, N, K, fm.2.grid, fm.2.red⟩ :=
    foldK_covers K fm.2 hred0 lk
  have p2 := foldK_pos (At := At) (Bt := Bt) (M := fm.1) (N := N) K fm.2 hred0
  rw [r1, s2.points] at z2
  rw [r1] at c2
  generalize foldK At Bt fm.1 N K fm.2 = fk at *
  rw [g2]
  by_cases hg0 : points b.grid = 0
  · -- an empty grid
    have hz : fm.1 = 0 ∨ points fm.2.grid = 0 := by
      rw [hg0, Nat.mul_zero] at z1
      exact Nat.mul_eq_zero.1 z1
    have hr0 := points_pos p2
    have : llvmGemm e c junkA junk fuel At Bt fm.1 N fk.1 fm.2.grid fk.2.red = .ok [] 0 0 := by
      unfold llvmGemm
      rw [show (At && Bt) = false by simpa using hT, if_neg (by decide)]
      split
      · rename_i gc rc e1 e2
        rcases hz with h | h
        · rw [if_pos (.inl h)]
        · have : ∃ d ∈ fm.2.grid, d.extent = 0 := by
            by_contra hne
            push Not at hne
            have := points_pos (l := fm.2.grid) (fun d hd => Nat.pos_of_ne_zero (hne d hd))
            omega
          rw [countPoints_none _ _ this] at e1
          cases e1
      · rfl
    rw [this]
    exact achieves_none hg0
  · have hg0' : 0 < points b.grid := Nat.pos_of_ne_zero hg0
    have c1' := c1 (extents_pos (by rw [s1.points]; exact hg0'))
    rw [r1] at c1'
    refine Achieves.covers ?_ ((c2.trans c1').trans (Covers.same s1 s2))
    have m1 : 0 < fm.1 ∧ 0 < points fm.2.grid := by
      have : 0 < fm.1 * points fm.2.grid := by rw [z1]; exact Nat.mul_pos lm hg0'
      exact ⟨Nat.pos_of_mul_pos_right this, Nat.pos_of_mul_pos_left this⟩
    have k1 : 0 < fk.1 ∧ 0 < points fk.2.red := by
      refine ⟨?_, points_pos p2⟩
      have : 0 < fk.1 * points fk.2.red := by rw [z2]; exact Nat.mul_pos lk hred
      rcases Nat.eq_zero_or_pos fk.1 with h | h
      · rw [h, Nat.zero_mul] at this; omega
      · exact h
    have m2 : fm.1 ≤ M * points b.grid := by rw [← z1]; exact Nat.le_mul_of_pos_right _ m1.2
    have k2 : fk.1 ≤ K * points b.red := by rw [← z2]; exact Nat.le_mul_of_pos_right _ k1.2
    have m3 : points fm.2.grid ≤ M * points b.grid := by rw [← z1]; exact Nat.le_mul_of_pos_left _ m1.1
    have k3 : points fk.2.red ≤ K * points b.red := by rw [← z2]; exact Nat.le_mul_of_pos_left _ k1.1
    have mr := hc.mr
    have kc := hc.kc
    refine achieves_llvm hc ⟨m1.1, ln, k1.1, ?_, by omega, by omega, by omega⟩ hT ?_ p2 (by omega) (by omega) (by omega)
    · calc fm.1 * N ≤ M * points b.grid * N := Nat.mul_le_mul_right _ m2
        _ = points b.grid * (M * N) := by ring
        _ < 2 ^ 32 := lsize
    · have := panelWidth_le hc (N := N)
      omega

/-- Every such call ends: there is an execution, and all executions agree on the result. -/
theorem C28_deterministic {p : Problem} {plan : Plan V} (h : Achieves p e plan m) :
    ∃ phases packed scratch, plan = .ok phases packed scratch ∧ (∃ m', Ends phases m m') ∧
      ∀ m1 m2, Ends phases m m1 → Ends phases m m2 → ∀ g i j, g < points p.grid → i < p.M → j < p.N →
        arr m1 .c (p.addrC g i j) = arr m2 .c (p.addrC g i j) := by
  obtain ⟨ph, a, b, h1, _, h3⟩ := h
  refine ⟨ph, a, b, h1, ends_exists ph m, ?_⟩
  intro m1 m2 e1 e2 g i j hg hi hj
  rw [(h3 m1 e1).1 g i j hg hi hj, (h3 m2 e2).1 g i j hg hi hj]

/-! ### Exact arithmetic -/

/-- Exact arithmetic in a semiring -/
def exact (S : Type) [Semiring S] : Elem S := ⟨false, 0, fun acc a b => acc + a * b, id, id⟩

theorem foldl_sum {S : Type} [Semiring S] {α : Type} (f : α → S) : ∀ (l : List α) (x : S), l.foldl (fun acc t => acc + f t) x = x + (l.map f).sum
  | [], x => by simp
  | t :: l, x => by simp [foldl_sum f l, add_assoc]

theorem range_sum {S : Type} [Semiring S] (n : Nat) (f : Nat → S) : ((List.range n).map f).sum = ∑ k ∈ Finset.range n, f k := by
  induction n with
  | zero => simp
  | succ n ih => rw [List.range_succ, List.map_append, List.sum_append, ih, Finset.sum_range_succ]; simp

/-- **C28.**  In exact arithmetic, entries of the result are sums of products over all reduction points
and the inner dimension. -/
theorem C28_exact {S : Type} [Semiring S] {p : Problem} {A B C : Nat → S} (h : p.IsProduct (exact S) A B C)
    {g i j : Nat} (hg : g < points p.grid) (hi : i < p.M) (hj : j < p.N) :
    C (p.addrC g i j) = ∑ q ∈ Finset.range (points p.red), ∑ k ∈ Finset.range p.K, A (p.addrA g q i k) * B (p.addrB g q k j) := by
  rw [h g i j hg hi hj]
  have h0 : p.entry (exact S) A B g i j = p.terms.foldl (fun acc t => acc + A (p.addrA g t.1 i t.2) * B (p.addrB g t.1 t.2 j)) 0 := rfl
  rw [h0, foldl_sum (fun t : Nat × Nat => A (p.addrA g t.1 i t.2) * B (p.addrB g t.1 t.2 j)), zero_add]
  unfold Problem.terms
  have : ∀ n, (((List.range n).flatMap (fun q => (List.range p.K).map (fun k => (q, k)))).map
      (fun t : Nat × Nat => A (p.addrA g t.1 i t.2) * B (p.addrB g t.1 t.2 j))).sum =
      ∑ q ∈ Finset.range n, ∑ k ∈ Finset.range p.K, A (p.addrA g q i k) * B (p.addrB g q k j) := by
    intro n
    induction n with
    | zero => simp
    | succ n ih =>
      rw [List.range_succ, List.flatMap_append, List.map_append, List.sum_append, ih, Finset.sum_range_succ, ← range_sum p.K]
      simp [Function.comp_def]
  exact this _

/-- **C28.**  Without batch dimensions, the result is the matrix product of the (possibly transposed) operands. -/
theorem C28_matrix {S : Type} [Semiring S] {At Bt : Bool} {M N K : Nat} {A B C : Nat → S}
    (h : (problem At Bt M N K none).IsProduct (exact S) A B C) :
    (Matrix.of fun (i : Fin M) (j : Fin N) => C (i * N + j)) =
      (Matrix.of fun (i : Fin M) (k : Fin K) => A (if At then k * M + i else i * K + k)) *
      (Matrix.of fun (k : Fin K) (j : Fin N) => B (if Bt then j * K + k else k * N + j)) := by
  ext i j
  have := C28_exact h (g := 0) (i := i) (j := j) (show 0 < 1 by decide) i.2 j.2
  rw [Matrix.mul_apply]
  simp only [Matrix.of_apply]
  have e1 : (problem At Bt M N K none).addrC 0 i j = i * N + j := by
    simp [Problem.addrC, problem]
  rw [e1] at this
  rw [this]
  have e2 : points (problem At Bt M N K none).red = 1 := rfl
  rw [e2, Finset.sum_range_one, Finset.sum_range (n := (problem At Bt M N K none).K)]
  refine Finset.sum_congr rfl fun k _ => ?_
  simp [Problem.addrA, Problem.addrB, problem, Batch.none, Batch.grid, Batch.red, Batch.dims, offset]

end Verif.Gemm
