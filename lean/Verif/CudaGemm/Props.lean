import Verif.CudaGemm.Host
import Verif.Gemm.Props

/-!
# C87: batched matrix products on CUDA devices
-/
namespace Verif.CudaGemm
open Verif.Gemm (Elem Dim Problem Batch FType points offset decode countPoints dropOnes foldM foldK problem)
open Verif.Llvm (add32 mul32 add32_eq mul32_eq cdiv ceilDiv32 ceilDiv32_eq lt_cdiv)

variable {V : Type}

/-- Sizes for which no arithmetic on 32-bit integers wraps around.  Grid points may become rows, and
reduction points may become part of the inner dimension. -/
structure Limits (p : Problem) : Prop where
  m : 0 < p.M
  n : 0 < p.N
  k : 0 < p.K
  rows : p.M * points p.grid + 64 < 2 ^ 32
  cols : p.N + 64 < 2 ^ 32
  inner : p.K * points p.red + 16 < 2 ^ 32
  opA : (if p.At then p.M * (p.K * points p.red) else p.M * points p.grid * p.K) ≤ 2 ^ 32
  opB : (if p.At then p.K * points p.red * p.N else p.K * p.N) ≤ 2 ^ 32
  result : p.M * points p.grid * p.N ≤ 2 ^ 32

/-- What a call achieves: it launches a kernel with a valid grid.  Every execution of the kernel stores the
product and nothing else, and there is an execution.  Threads only read entries of the operands. -/
def Achieves (p : Problem) (e : Elem V) : Plan → Prop
  | .raise => False
  | .nothing => False
  | .launch l g =>
    (0 < g.x ∧ 0 < g.y ∧ 0 < g.z ∧ g.y ≤ 65535 ∧ g.z ≤ 65535) ∧
    (∀ A B C : Nat → V, ∃ C', l.Exec e g A B C C') ∧
    (∀ A B C C' : Nat → V, l.Exec e g A B C C' → p.IsProduct e A B C' ∧ ∀ x, p.size ≤ x → C' x = C x) ∧
    ∀ b ∈ g.blocks, ∀ st ∈ l.steps b.2.2,
      (∀ q ∈ (l.slabA (mul32 b.2.1 l.tile.BM) st).reads, ∀ x, q.1 ≤ x → x < q.1 + q.2 → p.InA x) ∧
      (∀ q ∈ (l.slabB (mul32 b.1 l.tile.BM) st).reads, ∀ x, q.1 ≤ x → x < q.1 + q.2 → p.InB x)

theorem foldl_pad {e : Elem V} (hz : PadLaw e) {K n : Nat} (hn : K ≤ n) {f g : Nat → V} (x : V) :
    (List.range n).foldl (fun acc k => e.fma acc (e.load (if k < K then f k else e.zero)) (e.load (if k < K then g k else e.zero))) x =
      (List.range K).foldl (fun acc k => e.fma acc (e.load (f k)) (e.load (g k))) x := by
  induction n, hn using Nat.le_induction with
  | base =>
    refine foldl_congr_range ?_ _
    intro x k hk
    rw [if_pos hk, if_pos hk]
  | succ n hn ih =>
    rw [List.range_succ, List.foldl_append, ih]
    simp only [List.foldl_cons, List.foldl_nil]
    rw [if_neg (by omega), if_neg (by omega), hz]

theorem padded_eq {e : Elem V} (hz : PadLaw e) (p : Problem) (A B : Nat → V) (g i j : Nat) :
    paddedEntry p e A B g i j = p.entry e A B g i j := by
  unfold paddedEntry Problem.entry Problem.terms
  rw [List.foldl_flatMap]
  congr 1
  congr 1
  funext x q
  rw [foldl_pad hz (by omega), List.foldl_map]

/-- The conditions under which a launch is correct -/
theorem launch_ok {p : Launch} {g : Grid} (hh : FromHost p g) (hl : p.Limits) (hg : ∀ d ∈ p.grid, 0 < d.extent) (hr : ∀ d ∈ p.red, 0 < d.extent)
    (hp : points p.red < 2 ^ 32) (hpg : points p.grid < 2 ^ 32) : p.gridOK g := by
  have hbm : 0 < p.tile.BM := by have := hh.tile.tm; rw [hh.tile.bm]; omega
  have h1 := hl.m
  have h2 := hl.n
  have h3 := hh.tile.le
  have hz : g.z = points p.grid := by
    have := hh.z.2
    rw [Verif.Gemm.countPoints_eq _ _ hg (by omega)] at this
    injection this with this
    omega
  unfold Launch.gridOK
  rw [hh.grid, hz, ceilDiv32_eq hbm (by omega), ceilDiv32_eq hbm (by omega)]

/-- **C87.**  Every launch by `CUDAThreadState::batched_gemm`, bit by bit: for every element type, shape and batch
description (within the limits), and for every order in which the threads store to shared memory and to the
result, the result consists of the sums of the specification, including the padding. -/
theorem C87_kernel {sm : Nat} {avail : Nat → Bool} {type : FType} {At Bt : Bool} {M N K : Nat} {grid red : List Dim} {p : Launch} {g : Grid}
    (h : cudaGemm sm avail type At Bt M N K grid red = .launch p g) (hl : p.Limits)
    (hg : 0 < points grid) (hr : 0 < points red) (hpg : points grid < 2 ^ 32) (hp : points red < 2 ^ 32) {e : Elem V} {A B C C' : Nat → V}
    (hx : p.Exec e g A B C C') :
    (∀ z i j, z < points grid → i < M → j < N →
      C' (Problem.addrC ⟨At, Bt, M, N, K, grid, red⟩ z i j) = paddedEntry ⟨At, Bt, M, N, K, grid, red⟩ e A B z i j) ∧
    ∀ x, points grid * (M * N) ≤ x → C' x = C x := by
  obtain ⟨hh, e1, _⟩ := fromHost h
  have e2 : p.grid = grid := congrArg Problem.grid e1
  have e3 : p.red = red := congrArg Problem.red e1
  have e4 : p.M = M := congrArg Problem.M e1
  have e5 : p.N = N := congrArg Problem.N e1
  rw [← e2] at hg hpg
  rw [← e3] at hr hp
  have g1 := launch_ok hh hl (Verif.Gemm.extents_pos hg) (Verif.Gemm.extents_pos hr) hp hpg
  have := exec_spec hh.tile hl (Verif.Gemm.extents_pos hr) hp g1 hx
  rw [e1, e2, e4, e5] at this
  exact this

theorem foldM_true {M K : Nat} {b : Batch} : foldM true M K b = (M, b) := by
  rw [foldM, dif_neg (by simp)]
theorem foldK_false {Bt : Bool} {M N K : Nat} {b : Batch} : foldK false Bt M N K b = (K, b) := by
  rw [foldK, dif_neg (by simp)]

/-- **C87.**  For every element type, every shape and every batch description (within the limits above), on every
CUDA device and for every schedule of the threads, a call of `jit_batched_gemm()` that does not raise an
exception computes the product that the batch description asks for, reads nothing but entries of the
operands and changes nothing but the result.

Missing: alignment of vector accesses (`C87_aligned`, `C87_misaligned_counterexample`), empty grids and sums
(`C87_empty_grid_counterexample`, `C28_inner_zero`), exceptions (`C87_accepted`, `C87_tall_counterexample`), sizes
beyond the limits (`C87_large_operand_counterexample`), element types for which adding `0 * 0` changes a sum
(`C87_kernel`). -/
theorem C87_batched_gemm_partial {sm maxDims : Nat} {avail : Nat → Bool} {type : FType} {At Bt : Bool} {M N K : Nat} {batch : Option Batch}
    (hl : Limits (problem At Bt M N K batch)) (hg : 0 < points (problem At Bt M N K batch).grid)
    (hr : 0 < points (problem At Bt M N K batch).red) {e : Elem V} (hz : PadLaw e)
    (hn : batchedGemm sm avail maxDims type At Bt M N K batch ≠ .raise) :
    Achieves (problem At Bt M N K batch) e (batchedGemm sm avail maxDims type At Bt M N K batch) := by
  have lm := hl.m
  have ln := hl.n
  have lk := hl.k
  have lrows := hl.rows
  have lcols := hl.cols
  have linner := hl.inner
  have la := hl.opA
  have lb := hl.opB
  have lc := hl.result
  clear hl
  unfold problem at *
  dsimp only at *
  unfold batchedGemm at hn ⊢
  rw [if_neg (by omega)] at hn ⊢
  split at hn
  · exact absurd rfl hn
  rename_i hd
  rw [if_neg hd]
  split at hn
  · exact absurd rfl hn
  rename_i ht
  rw [if_neg ht]
  generalize batch.getD .none = b at *
  dsimp only at hn ⊢
  obtain ⟨s1, s2⟩ := Verif.Gemm.dropOnes_same b 0
  generalize dropOnes b 0 = b0 at *
  have hred0 : ∀ d ∈ b0.red, 0 < d.extent := Verif.Gemm.extents_pos (by rw [s2.points]; exact hr)
  have hgrid0 : ∀ d ∈ b0.grid, 0 < d.extent := Verif.Gemm.extents_pos (by rw [s1.points]; exact hg)
  have r1 := Verif.Gemm.foldM_red (At := At) (K := K) M b0
  have z1 := Verif.Gemm.foldM_size (At := At) (K := K) M b0
  have p1 := Verif.Gemm.foldM_pos (At := At) (K := K) M b0 hgrid0
  have c1 : Verif.Gemm.Covers ⟨At, Bt, (foldM At M K b0).1, N, K, (foldM At M K b0).2.grid, b0.red⟩ ⟨At, Bt, M, N, K, b0.grid, b0.red⟩ :=
    Verif.Gemm.foldM_covers M b0 hgrid0
  have t1 : At = true → (foldM At M K b0).1 = M := by rintro rfl; rw [foldM_true]
  rw [← r1] at c1 hred0
  rw [s1.points] at z1
  generalize foldM At M K b0 = fm at *
  have g2 := Verif.Gemm.foldK_grid (At := At) (Bt := Bt) (M := fm.1) (N := N) K fm.2
  have z2 := Verif.Gemm.foldK_size (At := At) (Bt := Bt) (M := fm.1) (N := N) K fm.2
  have c2 : Verif.Gemm.Covers ⟨At, Bt, fm.1, N, (foldK At Bt fm.1 N K fm.2).1, fm.2.grid, (foldK At Bt fm.1 N K fm.2).2.red⟩
      ⟨At, Bt, fm.1, N, K, fm.2.grid, fm.2.red⟩ := Verif.Gemm.foldK_covers K fm.2 hred0 lk
  have p2 := Verif.Gemm.foldK_pos (At := At) (Bt := Bt) (M := fm.1) (N := N) K fm.2 hred0
  have t2 : At = false → (foldK At Bt fm.1 N K fm.2).1 = K := by rintro rfl; rw [foldK_false]
  rw [r1, s2.points] at z2
  rw [r1] at c1
  rw [r1] at c2
  generalize foldK At Bt fm.1 N K fm.2 = fk at *
  rw [g2] at hn ⊢
  have hcov : Verif.Gemm.Covers ⟨At, Bt, fm.1, N, fk.1, fm.2.grid, fk.2.red⟩ ⟨At, Bt, M, N, K, b.grid, b.red⟩ :=
    (c2.trans c1).trans (Verif.Gemm.Covers.same s1 s2)
  have m1 : 0 < fm.1 ∧ 0 < points fm.2.grid := by
    have : 0 < fm.1 * points fm.2.grid := by rw [z1]; exact Nat.mul_pos lm hg
    exact ⟨Nat.pos_of_mul_pos_right this, Nat.pos_of_mul_pos_left this⟩
  have k1 : 0 < fk.1 ∧ 0 < points fk.2.red := by
    have : 0 < fk.1 * points fk.2.red := by rw [z2]; exact Nat.mul_pos lk hr
    exact ⟨Nat.pos_of_mul_pos_right this, Nat.pos_of_mul_pos_left this⟩
  have m2 : fm.1 ≤ M * points b.grid := by rw [← z1]; exact Nat.le_mul_of_pos_right _ m1.2
  have k2 : fk.1 ≤ K * points b.red := by rw [← z2]; exact Nat.le_mul_of_pos_right _ k1.2
  have m3 : points fm.2.grid ≤ M * points b.grid := by rw [← z1]; exact Nat.le_mul_of_pos_left _ m1.1
  have k3 : points fk.2.red ≤ K * points b.red := by rw [← z2]; exact Nat.le_mul_of_pos_left _ k1.1
  generalize hP : cudaGemm sm avail type At Bt fm.1 N fk.1 fm.2.grid fk.2.red = plan at *
  have hlim : ∀ l g, plan = .launch l g → l.Limits := by
    intro l g he
    rw [he] at hP
    obtain ⟨hh, e1, _⟩ := fromHost hP
    have eM : l.M = fm.1 := congrArg Problem.M e1
    have eN : l.N = N := congrArg Problem.N e1
    have eK : l.K = fk.1 := congrArg Problem.K e1
    refine ⟨by omega, by omega, by omega, ?_, ?_, ?_⟩
    · rw [eM, eK]
      cases hA : At with
      | true =>
        rw [if_pos hA] at la
        rw [t1 hA]
        exact le_trans (Nat.mul_le_mul_left _ k2) la
      | false =>
        rw [if_neg (by simp [hA])] at la
        rw [t2 hA]
        exact le_trans (Nat.mul_le_mul_right _ m2) la
    · rw [eN, eK]
      cases hA : At with
      | true =>
        rw [if_pos hA] at lb
        exact le_trans (Nat.mul_le_mul_right _ k2) lb
      | false =>
        rw [if_neg (by simp [hA])] at lb
        rw [t2 hA]
        exact lb
    · rw [eM, eN]
      exact le_trans (Nat.mul_le_mul_right _ m2) lc
  cases plan with
  | raise => exact absurd rfl hn
  | nothing =>
    exfalso
    unfold cudaGemm at hP
    rw [Verif.Gemm.countPoints_eq _ _ p1 (by omega), Verif.Gemm.countPoints_eq _ _ p2 (by omega)] at hP
    dsimp only at hP
    repeat' split at hP
    all_goals simp at hP
  | launch l g =>
    have hll := hlim l g rfl
    obtain ⟨hh, e1, _⟩ := fromHost hP
    have eM : l.M = fm.1 := congrArg Problem.M e1
    have eN : l.N = N := congrArg Problem.N e1
    have eG : l.grid = fm.2.grid := congrArg Problem.grid e1
    have eR : l.red = fk.2.red := congrArg Problem.red e1
    have hgo := launch_ok hh hll (by rw [eG]; exact p1) (by rw [eR]; exact p2) (by rw [eR]; omega) (by rw [eG]; omega)
    have hbm : 0 < l.tile.BM := by have := hh.tile.tm; rw [hh.tile.bm]; omega
    have hbl := hh.tile.le
    refine ⟨⟨?_, ?_, ?_, hh.y, hh.z.1⟩, fun A B C => exec_exists e l g A B C, ?_, ?_⟩
    · rw [hgo]; exact Verif.Llvm.cdiv_pos (by omega) hbm
    · rw [hgo]; exact Verif.Llvm.cdiv_pos (by omega) hbm
    · rw [hgo]; dsimp only; rw [eG]; exact m1.2
    · intro A B C C' hx
      have hk := C87_kernel hP hll m1.2 k1.2 (by omega) (by omega) hx
      refine ⟨hcov.product e A B C' ?_, ?_⟩
      · intro z i j hz' hi hj
        rw [← padded_eq hz]
        exact hk.1 z i j hz' hi hj
      · intro x hx'
        rw [← hcov.size] at hx'
        exact hk.2 x hx'
    · intro b hb st hst
      rw [hgo] at hb
      obtain ⟨b1, b2, b3⟩ := mem_blocks.1 hb
      have q1 := (lt_cdiv hbm).1 b1
      have q2 := (lt_cdiv hbm).1 b2
      rw [mul32_eq (a := b.2.1) (by omega), mul32_eq (a := b.1) (by omega)]
      refine ⟨fun q hq x h1 h2 => hcov.inA x ?_, fun q hq x h1 h2 => hcov.inB x ?_⟩
      · rw [← e1]
        exact (readsA hh hll (by rw [eR]; exact p2) (by rw [eR]; omega) q2 (Dvd.intro_left _ rfl) b3 hst hq).1 x h1 h2
      · rw [← e1]
        exact (readsB hh hll (by rw [eR]; exact p2) (by rw [eR]; omega) q1 (Dvd.intro_left _ rfl) b3 hst hq).1 x h1 h2

/-- **C87.**  If the strides of batch dimensions are multiples of the width of vector accesses, then all vector accesses
(to the operands and to the result) are aligned. -/
theorem C87_aligned {sm : Nat} {avail : Nat → Bool} {type : FType} {At Bt : Bool} {M N K : Nat} {grid red : List Dim} {p : Launch} {g : Grid}
    (h : cudaGemm sm avail type At Bt M N K grid red = .launch p g) (hl : p.Limits)
    (hg : 0 < points grid) (hr : 0 < points red) (hpg : points grid < 2 ^ 32) (hp : points red < 2 ^ 32)
    (hal : Aligned p.tile.W ⟨At, Bt, M, N, K, grid, red⟩) :
    ∀ b ∈ g.blocks,
      (∀ st ∈ p.steps b.2.2,
        (∀ q ∈ (p.slabA (mul32 b.2.1 p.tile.BM) st).reads, q.2 ≠ 1 → p.tile.W ∣ q.1) ∧
        (∀ q ∈ (p.slabB (mul32 b.1 p.tile.BM) st).reads, q.2 ≠ 1 → p.tile.W ∣ q.1)) ∧
      ∀ x ∈ p.vecStores (mul32 b.2.1 p.tile.BM) (mul32 b.1 p.tile.BM) b.2.2, p.tile.W ∣ x := by
  obtain ⟨hh, e1, _⟩ := fromHost h
  have e2 : p.grid = grid := congrArg Problem.grid e1
  have e3 : p.red = red := congrArg Problem.red e1
  rw [← e2] at hg hpg
  rw [← e3] at hr hp
  rw [← e1] at hal
  have hg' := Verif.Gemm.extents_pos hg
  have hr' := Verif.Gemm.extents_pos hr
  have hgo := launch_ok hh hl hg' hr' hp hpg
  have hbm : 0 < p.tile.BM := by have := hh.tile.tm; rw [hh.tile.bm]; omega
  intro b hb
  rw [hgo] at hb
  obtain ⟨b1, b2, b3⟩ := mem_blocks.1 hb
  have q1 := (lt_cdiv hbm).1 b1
  have q2 := (lt_cdiv hbm).1 b2
  have g1 := hl.m
  have g2 := hl.n
  rw [mul32_eq (a := b.2.1) (by omega), mul32_eq (a := b.1) (by omega)]
  refine ⟨fun st hst => ⟨fun q hq => (readsA hh hl hr' hp q2 (Dvd.intro_left _ rfl) b3 hst hq).2 hal,
    fun q hq => (readsB hh hl hr' hp q1 (Dvd.intro_left _ rfl) b3 hst hq).2 hal⟩, fun x hx => storesC hh hl q2 q1 (Dvd.intro_left _ rfl) hx⟩

/-- **C87.**  No two stores to shared memory between two barriers go to the same place. -/
theorem C87_no_race {sm : Nat} {avail : Nat → Bool} {type : FType} {At Bt : Bool} {M N K : Nat} {grid red : List Dim} {p : Launch} {g : Grid}
    (h : cudaGemm sm avail type At Bt M N K grid red = .launch p g) (m0 : Nat) (st : Step) (s : Slab)
    (hs : s = p.slabA m0 st ∨ s = p.slabB m0 st) {tid l v tid' l' v' : Nat} (ht : tid < 64) (hl : l < s.iterations) (hv : v < s.W)
    (ht' : tid' < 64) (hl' : l' < s.iterations) (hv' : v' < s.W) (he : s.pos tid l v = s.pos tid' l' v') :
    tid = tid' ∧ l = l' ∧ v = v' := by
  obtain ⟨hh, _, _⟩ := fromHost h
  have h1 := hh.tile.shape
  have h2 := hh.tile.divBM
  have h3 := hh.tile.tm
  have h4 := hh.tile.bm
  have h5 := hh.tile.sb
  rcases hs with rfl | rfl
  · refine Slab.pos_inj ?_ ?_ ht hl hv ht' hl' hv' he
    · unfold Launch.slabA mkSlab
      split
      · exact ⟨hh.tile.w, h2, h1.2, by dsimp only; omega⟩
      · exact ⟨hh.tile.w, hh.tile.d16, h1.1, by dsimp only; omega⟩
    · unfold Launch.slabA mkSlab Tile.SA
      split <;> simp
  · refine Slab.pos_inj ?_ ?_ ht hl hv ht' hl' hv' he
    · unfold Launch.slabB mkSlab
      split
      · exact ⟨hh.tile.w, hh.tile.d16, h1.1, by dsimp only; omega⟩
      · exact ⟨hh.tile.w, h2, h1.2, by dsimp only; omega⟩
    · unfold Launch.slabB mkSlab
      split <;> simpa using h5

theorem selectTile_avail {sm ts M N a b gc : Nat} {avail : Nat → Bool} : ∀ (ls : List Nat) (sel : Nat), (∀ l ∈ ls, l ≤ 3) →
    (sel = 0 ∨ ∃ l ≤ 3, sel = 8 * 2 ^ l ∧ avail l = true) → selectTile sm ts M N a b gc avail ls sel = 0 ∨
      ∃ l ≤ 3, selectTile sm ts M N a b gc avail ls sel = 8 * 2 ^ l ∧ avail l = true
  | [], _, _, h => h
  | l :: ls, sel, hl, h => by
    have ih := fun sel => selectTile_avail (sm := sm) (gc := gc) (avail := avail) (ts := ts) (M := M) (N := N) (a := a) (b := b) ls sel
      (fun l' h' => hl l' (List.mem_cons_of_mem _ h'))
    unfold selectTile
    dsimp only
    generalize (if 8 * 2 ^ l = 64 then mul32 3 sm else sm) = T
    split
    · exact ih sel h
    · split
      · exact ih sel h
      · split
        · exact ih sel h
        · rename_i h2
          have good : ∃ l' ≤ 3, 8 * 2 ^ l = 8 * 2 ^ l' ∧ avail l' = true := ⟨l, hl l List.mem_cons_self, rfl, by simpa using h2⟩
          have h3 : (if sel = 0 then 8 * 2 ^ l else sel) = 0 ∨ ∃ l' ≤ 3, (if sel = 0 then 8 * 2 ^ l else sel) = 8 * 2 ^ l' ∧ avail l' = true := by
            by_cases hs : sel = 0
            · simp only [if_pos hs]; exact .inr good
            · simp only [if_neg hs]; exact h
          split
          · exact ih _ h3
          · split
            · exact ih _ (.inr good)
            · exact ih _ h3

/-- **C87.**  Only kernels that exist are launched. -/
theorem C87_available {sm : Nat} {avail : Nat → Bool} {type : FType} {At Bt : Bool} {M N K : Nat} {grid red : List Dim} {p : Launch} {g : Grid}
    (h : cudaGemm sm avail type At Bt M N K grid red = .launch p g) : ∃ l ≤ 3, p.tile.BM = 8 * 2 ^ l ∧ avail l = true := by
  unfold cudaGemm at h
  split at h
  · simp at h
  · split at h
    · rename_i gc rc e1 e2
      have sel := selectTile_avail (sm := sm) (gc := gc) (avail := avail) (ts := tsize type) (M := M) (N := N) (a := if At then M else K)
        (b := if Bt then K else N) [0, 1, 2, 3] 0 (by decide) (.inl rfl)
      dsimp only at h
      generalize selectTile sm (tsize type) M N (if At then M else K) (if Bt then K else N) gc avail [0, 1, 2, 3] 0 = bm at *
      by_cases h0 : bm = 0
      · rw [if_pos h0] at h; simp at h
      · rw [if_neg h0] at h
        by_cases hz : gc > 65535
        · rw [if_pos hz] at h; simp at h
        · rw [if_neg hz] at h
          rcases sel with h1 | h1
          · exact absurd h1 h0
          · injection h with hp hg
            subst hp
            exact h1
    · simp at h

example : ∃ p g, cudaGemm 128 (fun l => l == 1) .f32 false false 64 64 64 [] [] = .launch p g ∧ p.tile.BM = 16 := ⟨_, _, rfl, rfl⟩

/-- **C87.**  Products without entries or without terms neither raise an exception nor launch a kernel. -/
theorem C87_empty {sm maxDims : Nat} {avail : Nat → Bool} {type : FType} {At Bt : Bool} {M N K : Nat} {batch : Option Batch}
    (h : M = 0 ∨ N = 0 ∨ K = 0) : batchedGemm sm avail maxDims type At Bt M N K batch = .nothing := by
  unfold batchedGemm
  rw [if_pos h]

/-- A kernel is found if the smallest tile is available and the grid is not too large. -/
theorem accepted {sm : Nat} {avail : Nat → Bool} (ha : avail 0 = true) {type : FType} {At Bt : Bool} (hT : ¬ (At = true ∧ Bt = true)) {M N K : Nat}
    {grid red : List Dim} (hM : M ≤ 524280) (hg : 0 < points grid) (hgm : points grid ≤ 65535) :
    cudaGemm sm avail type At Bt M N K grid red ≠ .raise := by
  unfold cudaGemm
  rw [if_neg (by simpa using hT), Verif.Gemm.countPoints_eq _ _ (Verif.Gemm.extents_pos hg) (by omega)]
  split
  · rename_i gc rc e1 _
    injection e1 with e1
    have hv : vecWidth (tsize type) 8 = 1 := by cases type <;> rfl
    have hc : ceilDiv32 M 8 ≤ 65535 := by
      rw [ceilDiv32_eq (by decide) (by omega)]
      exact Verif.Llvm.cdiv_le (by decide) (by omega)
    have hsel : selectTile sm (tsize type) M N (if At then M else K) (if Bt then K else N) gc avail [0, 1, 2, 3] 0 ≠ 0 := by
      unfold selectTile
      dsimp only
      rw [show 8 * 2 ^ 0 = 8 from rfl, hv, if_neg (by simp [Nat.mod_one]), if_neg (by omega), if_neg (by simp [ha]), if_pos rfl]
      generalize (if 8 = 64 then mul32 3 sm else sm) = T
      repeat' split
      all_goals exact selectTile_ne _ _ (by decide)
    dsimp only
    rw [if_neg hsel, if_neg (by omega)]
    simp
  · simp

theorem foldM_le {At : Bool} {K : Nat} (M : Nat) (b : Batch) (hb : ∀ d ∈ b.grid, 0 < d.extent) : M ≤ (foldM At M K b).1 := by
  fun_induction foldM At M K b with
  | case1 M b h ih =>
    obtain ⟨h1, h2, h3, h4, h5⟩ := h
    rw [Verif.Gemm.grid_cons h2] at hb
    have h6 := ih (fun d hd => hb d (by simp [hd]))
    have h7 := hb _ List.mem_cons_self
    rw [mul32_eq (by omega)] at h6 ⊢
    exact le_trans (Nat.le_mul_of_pos_right _ h7) h6
  | case2 M b h => exact Nat.le_refl _

/-- **C87.**  Matrix products are not rejected if there are at most 524280 rows and 65535 grid points (rows of all grid points
are counted, because grid points may become rows). -/
theorem C87_accepted {sm maxDims : Nat} {avail : Nat → Bool} (ha : avail 0 = true) {type : FType} (ht : type ≠ .other) {At Bt : Bool}
    (hT : ¬ (At = true ∧ Bt = true)) {M N K : Nat} {batch : Option Batch} (hd : ∀ b, batch = some b → b.nb + b.nr ≤ maxDims)
    (hm : 0 < M) (hg : 0 < points (problem At Bt M N K batch).grid) (hM : M * points (problem At Bt M N K batch).grid ≤ 524280)
    (hgm : points (problem At Bt M N K batch).grid ≤ 65535) :
    batchedGemm sm avail maxDims type At Bt M N K batch ≠ .raise := by
  unfold problem at *
  dsimp only at *
  unfold batchedGemm
  split
  · simp
  have hb : ¬ (batch.any (fun b => decide (b.nb + b.nr > maxDims)) = true) := by
    cases batch with
    | none => simp
    | some b => have := hd b rfl; simp; omega
  rw [if_neg hb]
  generalize batch.getD .none = b at *
  dsimp only
  obtain ⟨s1, s2⟩ := Verif.Gemm.dropOnes_same b 0
  generalize dropOnes b 0 = b0 at *
  have z1 := Verif.Gemm.foldM_size (At := At) (K := K) M b0
  have l1 := foldM_le (At := At) (K := K) M b0 (Verif.Gemm.extents_pos (by rw [s1.points]; exact hg))
  rw [s1.points] at z1
  generalize foldM At M K b0 = fm at *
  have g2 := Verif.Gemm.foldK_grid (At := At) (Bt := Bt) (M := fm.1) (N := N) K fm.2
  rw [g2]
  have m1 : 0 < fm.1 ∧ 0 < points fm.2.grid := by
    have : 0 < fm.1 * points fm.2.grid := by rw [z1]; exact Nat.mul_pos hm hg
    exact ⟨Nat.pos_of_mul_pos_right this, Nat.pos_of_mul_pos_left this⟩
  have m2 : fm.1 ≤ M * points b.grid := by rw [← z1]; exact Nat.le_mul_of_pos_right _ m1.2
  have m3 : points fm.2.grid ≤ points b.grid := by
    have h1 : M * points fm.2.grid ≤ M * points b.grid := by rw [← z1]; exact Nat.mul_le_mul_right _ l1
    exact Nat.le_of_mul_le_mul_left h1 hm
  exact accepted ha hT (by omega) m1.2 (by omega)

/-! ### Findings -/

/-- **Finding.**  Products with many rows are rejected unless N and the lengths of rows of the operands are even: for instance, the product of
a 640000 × 7 and a 7 × 7 matrix, on every device. -/
theorem C87_tall_counterexample (sm maxDims : Nat) (avail : Nat → Bool) :
    batchedGemm sm avail maxDims .f32 false false 640000 7 7 none = .raise := by
  unfold batchedGemm
  rw [if_neg (by decide), if_neg (by simp), if_neg (by decide)]
  have e1 : dropOnes Batch.none 0 = Batch.none := by rw [dropOnes, dif_neg (by simp [Batch.none])]
  have e2 : foldM false 640000 7 Batch.none = (640000, Batch.none) := by rw [foldM, dif_neg (by simp [Batch.none])]
  simp only [Option.getD_none, e1, e2, foldK_false]
  rfl

/-- A grid of 40000 products of 16 × 7 and 7 × 7 matrices with the same second operand -/
def tallBatch : Batch := ⟨1, 0, fun _ => 40000, fun _ => 112, fun _ => 0⟩

/-- **Finding.**  Such products are also rejected if they result from grid points that have been turned into rows.  Without
this transformation, the product would have been computed: there are 40000 grid points and 16 rows. -/
theorem C87_folding_counterexample (sm maxDims : Nat) (hd : 1 ≤ maxDims) (avail : Nat → Bool) (ha : avail 0 = true) :
    batchedGemm sm avail maxDims .f32 false false 16 7 7 (some tallBatch) = .raise ∧
    cudaGemm sm avail .f32 false false 16 7 7 tallBatch.grid tallBatch.red ≠ .raise := by
  constructor
  · unfold batchedGemm
    rw [if_neg (by decide), if_neg (by simp [tallBatch]; omega), if_neg (by decide)]
    have e1 : dropOnes tallBatch 0 = tallBatch := by
      rw [dropOnes, dif_pos (by simp [tallBatch]), if_neg (by simp [tallBatch]), dropOnes, dif_neg (by simp [tallBatch])]
    have e2 : foldM false 16 7 tallBatch = (640000, tallBatch.drop 0) := by
      rw [foldM, dif_pos (by simp [tallBatch]), foldM, dif_neg (by simp [tallBatch, Batch.drop])]
      rfl
    simp only [Option.getD_some, e1, e2, foldK_false]
    rfl
  · exact accepted ha (by decide) (by decide) (by decide) (by decide)

/-- **Finding.**  An empty grid dimension can be turned into zero rows.  Then, a kernel is launched with zero thread blocks in one
direction, which CUDA does not permit. -/
theorem C87_empty_grid_counterexample (sm maxDims : Nat) (hd : 1 ≤ maxDims) (avail : Nat → Bool) (ha : avail 0 = true) :
    points (problem false false 16 8 8 (some ⟨1, 0, fun _ => 0, fun _ => 128, fun _ => 0⟩)).grid = 0 ∧
    ∃ p g, batchedGemm sm avail maxDims .f32 false false 16 8 8 (some ⟨1, 0, fun _ => 0, fun _ => 128, fun _ => 0⟩) = .launch p g ∧ g.y = 0 := by
  refine ⟨rfl, ?_⟩
  have hne : cudaGemm sm avail .f32 false false 0 8 8 [] [] ≠ .raise := accepted ha (by decide) (by decide) (by decide) (by decide)
  have e0 : batchedGemm sm avail maxDims .f32 false false 16 8 8 (some ⟨1, 0, fun _ => 0, fun _ => 128, fun _ => 0⟩) =
      cudaGemm sm avail .f32 false false 0 8 8 [] [] := by
    unfold batchedGemm
    rw [if_neg (by decide), if_neg (by simp; omega), if_neg (by decide)]
    have e1 : dropOnes ⟨1, 0, fun _ => 0, fun _ => 128, fun _ => 0⟩ 0 = ⟨1, 0, fun _ => 0, fun _ => 128, fun _ => 0⟩ := by
      rw [dropOnes, dif_pos (by simp), if_neg (by simp), dropOnes, dif_neg (by simp)]
    have e2 : foldM false 16 8 ⟨1, 0, fun _ => 0, fun _ => 128, fun _ => 0⟩ = (0, (Batch.mk 1 0 (fun _ => 0) (fun _ => 128) (fun _ => 0)).drop 0) := by
      rw [foldM, dif_pos (by simp), foldM, dif_neg (by simp [Batch.drop])]
      rfl
    simp only [Option.getD_some, e1, e2, foldK_false]
    rfl
  rw [e0]
  generalize hP : cudaGemm sm avail .f32 false false 0 8 8 [] [] = plan at *
  cases plan with
  | raise => exact absurd rfl hne
  | nothing =>
    exfalso
    unfold cudaGemm at hP
    simp only [countPoints] at hP
    repeat' split at hP
    all_goals simp at hP
  | launch p g =>
    refine ⟨p, g, rfl, ?_⟩
    obtain ⟨hh, e1, _⟩ := fromHost hP
    have eM : p.M = 0 := congrArg Problem.M e1
    obtain ⟨⟨BM, W⟩, _⟩ := p
    have h1 := hh.tile.le
    have h2 := hh.tile.tm
    have h3 := hh.tile.bm
    rw [hh.grid]
    dsimp only at *
    rw [eM, ceilDiv32_eq (by omega) (by omega)]
    unfold cdiv
    exact Nat.div_eq_of_lt (by omega)

/-- **Finding.**  Strides of batch dimensions are not taken into account when the width of vector accesses is chosen.  Here, 1000 matrices
(windows of an array, shifted by one element) are multiplied on a device with 128 multiprocessors.  Threads
that belong to the second grid point read four elements at an address that is not a multiple of four. -/
theorem C87_misaligned_counterexample :
    ∃ p g, cudaGemm 128 (fun _ => true) .f32 false false 64 64 64 [⟨1000, 1, 0⟩] [] = .launch p g ∧
      (0, 0, 1) ∈ g.blocks ∧ ∃ st ∈ p.steps 1, (1, 4) ∈ (p.slabA 0 st).reads := by
  refine ⟨⟨⟨64, 4⟩, false, false, 64, 64, 64, [⟨1000, 1, 0⟩], []⟩, ⟨1, 1, 1000⟩, rfl, mem_blocks.2 (by decide), ⟨1, 0, 0, false⟩, by decide, ?_⟩
  exact Slab.mem_reads.2 ⟨0, 0, by decide, by decide, .inl ⟨by decide, by decide⟩⟩

/-- **Finding.**  Indices of elements are computed with 32 bits.  Here, the first operand has 65600 rows of 65536 elements
(more than `2 ^ 32`).  In place of row 65536, the threads read row 0. -/
theorem C87_large_operand_counterexample :
    ∃ p g, cudaGemm 128 (fun _ => true) .f16 false false 65600 8 65536 [] [] = .launch p g ∧
      (∃ y, y < g.y ∧ mul32 y p.tile.BM = 65536) ∧
      ∃ st ∈ p.steps 0, st.a = 0 ∧ st.k0 = 0 ∧ (p.slabA 65536 st).rG 0 0 = 65536 ∧ (p.slabA 65536 st).cG 0 0 = 0 ∧
        ((p.slabA 65536 st).vecAddr 0 0, p.tile.W) ∈ (p.slabA 65536 st).reads ∧
        (p.slabA 65536 st).vecAddr 0 0 = 0 ∧ Problem.addrA ⟨false, false, 65600, 8, 65536, [], []⟩ 0 0 65536 0 = 65536 * 65536 := by
  refine ⟨⟨⟨8, 1⟩, false, false, 65600, 8, 65536, [], []⟩, ⟨1, 8200, 1⟩, ?_, ⟨8192, by decide, by decide⟩, ⟨0, 0, 0, false⟩, ?_, rfl, rfl, by decide, by decide, ?_, by decide, by decide⟩
  · rfl
  · unfold Launch.steps
    simp only [List.mem_flatMap, List.mem_append, List.mem_map, List.mem_range]
    exact ⟨0, by decide, .inl ⟨0, by decide, rfl⟩⟩
  · exact Slab.mem_reads.2 ⟨0, 0, by decide, by decide, .inl ⟨by decide, rfl⟩⟩

/-! ### The hypotheses can be met -/

/-- 5 × 3 products of 40 × 50 and 50 × 24 matrices; groups of three are added. -/
def batch1 : Batch := ⟨1, 1, fun d => if d = 0 then 5 else 3, fun d => if d = 0 then 6000 else 2000, fun d => if d = 0 then 0 else 1200⟩

example : Limits (problem false false 40 24 50 (some batch1)) ∧ 0 < points (problem false false 40 24 50 (some batch1)).grid ∧
    0 < points (problem false false 40 24 50 (some batch1)).red ∧
    batchedGemm 1 (fun _ => true) 6 .f32 false false 40 24 50 (some batch1) ≠ .raise := by
  refine ⟨⟨by decide, by decide, by decide, by decide, by decide, by decide, by decide, by decide, by decide⟩, by decide, by decide, ?_⟩
  exact C87_accepted rfl (by decide) (by decide) (by rintro b h; injection h with h; subst h; decide) (by decide) (by decide) (by decide) (by decide)

/-- Exact arithmetic satisfies the law about padding. -/
theorem C87_exact_padding (S : Type) [Semiring S] : PadLaw (Verif.Gemm.exact S) := by
  intro acc
  simp [Verif.Gemm.exact, Elem.load]

/-- A launch with larger tiles, vector accesses, a partial slab and an edge -/
example : ∃ p g, cudaGemm 1 (fun _ => true) .f32 true false 40 24 50 [⟨5, 6000, 0⟩] [⟨3, 2000, 1200⟩, ⟨1, 0, 0⟩] = .launch p g ∧
    p.tile = ⟨32, 4⟩ ∧ p.Limits ∧ Aligned p.tile.W ⟨true, false, 40, 24, 50, [⟨5, 6000, 0⟩], [⟨3, 2000, 1200⟩, ⟨1, 0, 0⟩]⟩ := by
  refine ⟨_, _, rfl, rfl, ⟨by decide, by decide, by decide, by decide, by decide, by decide⟩, ?_⟩
  unfold Aligned
  simp only [List.mem_cons, List.not_mem_nil, or_false]
  rintro d (rfl | rfl | rfl) <;> decide

end Verif.CudaGemm
