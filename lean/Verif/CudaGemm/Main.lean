import Verif.CudaGemm.Block

/-!
# Sums and stores of the result
-/
namespace Verif.CudaGemm
open Verif.Gemm (Elem Dim Problem points offset decode)
open Verif.Llvm (add32 mul32 add32_eq mul32_eq cdiv ceilDiv32 ceilDiv32_eq lt_cdiv)

variable {V : Type}

/-- The product that belongs to a launch -/
def Launch.problem (p : Launch) : Problem := ⟨p.At, p.Bt, p.M, p.N, p.K, p.grid, p.red⟩

/-! ### Sums -/

theorem rCount_eq : ∀ (l : List Dim) (n : Nat), (∀ d ∈ l, 0 < d.extent) → n * points l < 2 ^ 32 → rCount l n = n * points l
  | [], n, _, _ => by simp [rCount, points]
  | d :: l, n, h, hn => by
    unfold rCount
    have hp : 0 < points l := Verif.Gemm.points_pos (fun x hx => h x (List.mem_cons_of_mem _ hx))
    have e : n * points (d :: l) = n * d.extent * points l := by simp only [points]; ring
    rw [e] at hn ⊢
    have : n * d.extent ≤ n * d.extent * points l := Nat.le_mul_of_pos_right _ hp
    rw [mul32_eq (by omega)]
    exact rCount_eq l _ (fun x hx => h x (List.mem_cons_of_mem _ hx)) hn

theorem redOffset_eq {l : List Dim} {r : Nat} (hr : r < points l) :
    redOffset l r = (offset Dim.aStride l r, offset Dim.bStride l r) := by
  match l with
  | [] => rfl
  | [d] =>
    simp only [points, Nat.mul_one] at hr
    simp [redOffset, offset, Nat.mod_eq_of_lt hr]
  | d :: d' :: l => simp only [redOffset]; exact Verif.Gemm.decode_eq _ _

theorem steps_ok {p : Launch} (hk : p.K < 2 ^ 32) {z : Nat} : ∀ st ∈ p.steps z, p.StepOK st := by
  intro st hst
  unfold Launch.steps at hst
  simp only [List.mem_flatMap, List.mem_append, List.mem_map, List.mem_range] at hst
  obtain ⟨r, _, ⟨t, h1, rfl⟩ | h1⟩ := hst
  · unfold Launch.bulk at h1
    exact ⟨by dsimp only; omega, fun _ => by dsimp only; omega, Dvd.intro_left _ rfl⟩
  · split at h1
    · rename_i h
      simp only [List.mem_singleton] at h1
      subst h1
      exact ⟨h, fun h => (by simp at h), by unfold Launch.bulk; dsimp only; omega⟩
    · simp at h1

theorem foldl_blocks {α : Type} (f : α → Nat → α) (n : Nat) (x : α) :
    (List.range n).foldl (fun x t => (List.range 16).foldl (fun x kk => f x (t * 16 + kk)) x) x = (List.range (n * 16)).foldl f x := by
  rw [Nat.mul_comm, Verif.Gemm.range_mul, List.foldl_flatMap]
  simp only [List.foldl_map, Nat.mul_comm 16]

theorem steps_foldl {α : Type} {p : Launch} {z : Nat} (f : α → Nat → Nat → Nat → α) (x : α) :
    (p.steps z).foldl (fun x st => f x st.a st.b st.k0) x =
      (List.range (rCount p.red 1)).foldl (fun x r => (List.range ((p.K + 15) / 16)).foldl (fun x t =>
        f x ((decode p.grid z).1 + (redOffset p.red r).1) ((decode p.grid z).2 + (redOffset p.red r).2) (t * 16)) x) x := by
  unfold Launch.steps
  rw [List.foldl_flatMap]
  congr 1
  funext x r
  dsimp only
  rw [List.foldl_append, List.foldl_map]
  unfold Launch.bulk
  by_cases h : p.K % 16 = 0
  · rw [if_neg (by omega), show (p.K + 15) / 16 = (p.K - p.K % 16) / 16 by omega]
    rfl
  · rw [if_pos (by omega), show (p.K + 15) / 16 = (p.K - p.K % 16) / 16 + 1 by omega, List.range_succ, List.foldl_append]
    simp only [List.foldl_cons, List.foldl_nil]
    rw [show (p.K - p.K % 16) / 16 * 16 = p.K - p.K % 16 by omega]

/-- The sums in registers are those of the specification. -/
theorem steps_sum {e : Elem V} {p : Launch} (hr : ∀ d ∈ p.red, 0 < d.extent) (hp : points p.red < 2 ^ 32) {A B : Nat → V} {z i j : Nat}
    (hi : i < p.M) (hj : j < p.N) :
    e.store ((p.steps z).foldl (fun x st => acc16 e (fun kk => p.aVal e.zero A st.a i (st.k0 + kk))
        (fun kk => p.bVal e.zero B st.b (st.k0 + kk) j) x) e.zero) = paddedEntry p.problem e A B z i j := by
  rw [steps_foldl (fun x a b k0 => acc16 e (fun kk => p.aVal e.zero A a i (k0 + kk)) (fun kk => p.bVal e.zero B b (k0 + kk) j) x),
    rCount_eq _ _ hr (by omega), Nat.one_mul]
  unfold paddedEntry
  congr 1
  refine foldl_congr_range ?_ _
  intro x r hr'
  rw [← foldl_blocks]
  refine foldl_congr_range ?_ _
  intro x t _
  unfold acc16
  refine foldl_congr_range ?_ _
  intro x kk _
  rw [redOffset_eq hr', Verif.Gemm.decode_eq]
  have e1 : p.problem.addrA z r i (t * 16 + kk) = offset Dim.aStride p.grid z + offset Dim.aStride p.red r +
      if p.At then (t * 16 + kk) * p.M + i else i * p.K + (t * 16 + kk) := rfl
  have e2 : p.problem.addrB z r (t * 16 + kk) j = offset Dim.bStride p.grid z + offset Dim.bStride p.red r +
      if p.Bt then j * p.K + (t * 16 + kk) else (t * 16 + kk) * p.N + j := rfl
  have e3 : p.problem.K = p.K := rfl
  unfold Launch.aVal Launch.bVal
  rw [e1, e2, e3]
  by_cases h : t * 16 + kk < p.K
  · simp only [hi, hj, h, and_self, if_true]
  · simp only [h, and_false, false_and, if_false]

/-! ### Stores -/

/-- What a thread block stores -/
theorem mem_out {e : Elem V} {p : Launch} (ht : p.tile.OK) (hl : p.Limits) {m0 n0 z : Nat} (hm : m0 < p.M) (hn : n0 < p.N)
    {acc : Nat → Nat → Nat → V} {w : Nat × V} :
    w ∈ p.out e m0 n0 z acc ↔ ∃ tid i j, tid < 64 ∧ i < p.tile.TM ∧ j < p.tile.TM ∧
      m0 + (p.tile.ty tid * p.tile.TM + i) < p.M ∧ n0 + p.tile.col (p.tile.tx tid) j < p.N ∧
      w = (z * p.M * p.N + ((m0 + (p.tile.ty tid * p.tile.TM + i)) * p.N + (n0 + p.tile.col (p.tile.tx tid) j)), e.store (acc tid i j)) := by
  have g1 := hl.m
  have g2 := hl.n
  have g3 := hl.cmn
  have g4 := ht.le
  have hrow : ∀ tid i, tid < 64 → i < p.tile.TM → p.tile.ty tid * p.tile.TM + i < p.tile.BM := by
    intro tid i htid hi
    have hty : p.tile.ty tid < 8 := by unfold Tile.ty; rw [ht.ntn]; omega
    rw [ht.bm]; exact mul_add_lt hty hi
  have hcol : ∀ tid j, tid < 64 → j < p.tile.TM → p.tile.col (p.tile.tx tid) j < p.tile.BM := by
    intro tid j htid hj
    have htx : p.tile.tx tid < 8 := by unfold Tile.tx; rw [ht.ntn]; omega
    exact ht.col_lt htx hj
  have em : ∀ tid i, tid < 64 → i < p.tile.TM → p.mG m0 tid i = m0 + (p.tile.ty tid * p.tile.TM + i) := by
    intro tid i htid hi
    have := hrow tid i htid hi
    unfold Launch.mG
    rw [add32_eq (a := m0) (by omega), add32_eq (by omega)]
    omega
  have en : ∀ tid j, tid < 64 → j < p.tile.TM → p.nG n0 tid j + j % p.tile.W = n0 + p.tile.col (p.tile.tx tid) j := by
    intro tid j htid hj
    have := hcol tid j htid hj
    unfold Tile.col at this ⊢
    unfold Launch.nG
    rw [add32_eq (a := n0) (by omega), add32_eq (by omega)]
    omega
  have ead : ∀ tid i j, tid < 64 → i < p.tile.TM → j < p.tile.TM → m0 + (p.tile.ty tid * p.tile.TM + i) < p.M →
      n0 + p.tile.col (p.tile.tx tid) j < p.N →
      mul32 (p.mG m0 tid i) p.N = (m0 + (p.tile.ty tid * p.tile.TM + i)) * p.N ∧
      add32 (mul32 (p.mG m0 tid i) p.N) (p.nG n0 tid j) = (m0 + (p.tile.ty tid * p.tile.TM + i)) * p.N + p.nG n0 tid j := by
    intro tid i j htid hi hj h1 h2
    have := mul_add_lt h1 h2
    have h3 := en tid j htid hj
    have e1 : mul32 (p.mG m0 tid i) p.N = (m0 + (p.tile.ty tid * p.tile.TM + i)) * p.N := by
      rw [em tid i htid hi]; exact mul32_eq (by omega)
    exact ⟨e1, by rw [e1]; exact add32_eq (by omega)⟩
  unfold Launch.out
  simp only [List.mem_flatMap, List.mem_range]
  by_cases hin : p.interior m0 n0 = true
  · simp only [if_pos hin, List.mem_map, List.mem_range]
    unfold Launch.interior at hin
    rw [add32_eq (by omega), add32_eq (by omega)] at hin
    simp only [Bool.and_eq_true, decide_eq_true_eq] at hin
    have key : ∀ tid i j, tid < 64 → i < p.tile.TM → j < p.tile.TM →
        m0 + (p.tile.ty tid * p.tile.TM + i) < p.M ∧ n0 + p.tile.col (p.tile.tx tid) j < p.N := by
      intro tid i j a b c
      have := hrow tid i a b
      have := hcol tid j a c
      omega
    constructor
    · rintro ⟨tid, h1, i, h2, j, h3, rfl⟩
      obtain ⟨k1, k2⟩ := key tid i j h1 h2 h3
      refine ⟨tid, i, j, h1, h2, h3, k1, k2, ?_⟩
      rw [(ead tid i j h1 h2 h3 k1 k2).2, ← en tid j h1 h3]
      simp only [Nat.add_assoc]
    · rintro ⟨tid, i, j, h1, h2, h3, k1, k2, rfl⟩
      refine ⟨tid, h1, i, h2, j, h3, ?_⟩
      rw [(ead tid i j h1 h2 h3 k1 k2).2, ← en tid j h1 h3]
      simp only [Nat.add_assoc]
  · simp only [if_neg hin]
    constructor
    · rintro ⟨tid, h1, i, h2, h3⟩
      rw [em tid i h1 h2] at h3
      split at h3
      · simp at h3
      · rename_i k1
        simp only [List.mem_map, List.mem_filter, List.mem_range, decide_eq_true_eq] at h3
        obtain ⟨j, ⟨h4, h5⟩, rfl⟩ := h3
        have hc := hcol tid j h1 h4
        have hnn := en tid j h1 h4
        rw [add32_eq (by omega), hnn] at h5
        obtain ⟨a1, a2⟩ := ead tid i j h1 h2 h4 (by omega) h5
        have := mul_add_lt (show m0 + (p.tile.ty tid * p.tile.TM + i) < p.M by omega) h5
        rw [em tid i h1 h2] at a2
        refine ⟨tid, i, j, h1, h2, h4, by omega, h5, ?_⟩
        rw [a2, add32_eq (by omega), Nat.add_assoc _ (p.nG n0 tid j), hnn]
    · rintro ⟨tid, i, j, h1, h2, h3, k1, k2, rfl⟩
      refine ⟨tid, h1, i, h2, ?_⟩
      rw [em tid i h1 h2, if_neg (by omega)]
      simp only [List.mem_map, List.mem_filter, List.mem_range, decide_eq_true_eq]
      have hnn := en tid j h1 h3
      obtain ⟨a1, a2⟩ := ead tid i j h1 h2 h3 k1 k2
      have := mul_add_lt k1 k2
      rw [em tid i h1 h2] at a2
      refine ⟨j, ⟨h3, by rw [add32_eq (by omega)]; omega⟩, ?_⟩
      rw [a2, add32_eq (by omega), Nat.add_assoc _ (p.nG n0 tid j), hnn]

theorem div8 {y x : Nat} (h : x < 8) : (y * 8 + x) / 8 = y ∧ (y * 8 + x) % 8 = x := by omega

/-- Every entry of a tile belongs to a thread. -/
theorem tile_cover {t : Tile} (ht : t.OK) {r c : Nat} (hr : r < t.BM) (hc : c < t.BM) :
    ∃ tid i j, tid < 64 ∧ i < t.TM ∧ j < t.TM ∧ t.ty tid * t.TM + i = r ∧ t.col (t.tx tid) j = c := by
  have hw := ht.w
  have htm := ht.tm
  obtain ⟨a, ha⟩ := ht.div
  have hx : c % (8 * t.W) / t.W < 8 := by
    rw [Nat.div_lt_iff_lt_mul hw]; exact Nat.mod_lt _ (by omega)
  have hy : r / t.TM < 8 := by
    rw [Nat.div_lt_iff_lt_mul htm, ← ht.bm]; exact hr
  have hq : c / (8 * t.W) < a := by
    rw [Nat.div_lt_iff_lt_mul (by omega)]
    have : a * (8 * t.W) = t.BM := by rw [ht.bm, ha]; ring
    omega
  have hv : c % t.W < t.W := Nat.mod_lt _ hw
  refine ⟨r / t.TM * 8 + c % (8 * t.W) / t.W, r % t.TM, c / (8 * t.W) * t.W + c % t.W, by omega, Nat.mod_lt _ htm, ?_, ?_, ?_⟩
  · rw [ha, Nat.mul_comm t.W a]; exact mul_add_lt hq hv
  · unfold Tile.ty
    rw [ht.ntn, (div8 hx).1, Nat.mul_comm]
    exact Nat.div_add_mod _ _
  · unfold Tile.col Tile.tx
    rw [ht.ntn, (div8 hx).2]
    have e1 : (c / (8 * t.W) * t.W + c % t.W) / t.W = c / (8 * t.W) := by
      rw [Nat.mul_comm, Nat.mul_add_div hw, Nat.div_eq_of_lt hv, Nat.add_zero]
    have e2 : (c / (8 * t.W) * t.W + c % t.W) % t.W = c % t.W := by
      rw [Nat.mul_comm, Nat.mul_add_mod, Nat.mod_mod]
    rw [e1, e2]
    have e3 : c % t.W = c % (8 * t.W) % t.W := (Nat.mod_mul_left_mod _ _ _).symm
    have d1 := Nat.div_add_mod (c % (8 * t.W)) t.W
    have d2 := Nat.div_add_mod c (8 * t.W)
    rw [e3]
    rw [Nat.mul_comm t.W] at d1
    rw [Nat.mul_comm (8 * t.W)] at d2
    omega

theorem mem_blocks {g : Grid} {b : Nat × Nat × Nat} : b ∈ g.blocks ↔ b.1 < g.x ∧ b.2.1 < g.y ∧ b.2.2 < g.z := by
  obtain ⟨x, y, z⟩ := b
  unfold Grid.blocks
  simp only [List.mem_flatMap, List.mem_map, List.mem_range, Prod.mk.injEq]
  constructor
  · rintro ⟨z', h1, y', h2, x', h3, rfl, rfl, rfl⟩; exact ⟨h3, h2, h1⟩
  · rintro ⟨h1, h2, h3⟩; exact ⟨z, h3, y, h2, x, h1, rfl, rfl, rfl⟩

theorem addrC_inj {M N g i j g' i' j' : Nat} (hi : i < M) (hj : j < N) (hi' : i' < M) (hj' : j' < N)
    (h : g * M * N + (i * N + j) = g' * M * N + (i' * N + j')) : g = g' ∧ i = i' ∧ j = j' := by
  have e1 : g * M * N + (i * N + j) = (g * M + i) * N + j := by ring
  have e2 : g' * M * N + (i' * N + j') = (g' * M + i') * N + j' := by ring
  rw [e1, e2] at h
  obtain ⟨h1, h2⟩ := mul_add_inj hj hj' h
  obtain ⟨h3, h4⟩ := mul_add_inj hi hi' h1
  exact ⟨h3, h4, h2⟩

/-- The number of thread blocks that the host chooses -/
def Launch.gridOK (p : Launch) (g : Grid) : Prop := g = ⟨cdiv p.N p.tile.BM, cdiv p.M p.tile.BM, points p.grid⟩

/-- Every execution of a kernel computes the product (with padding), and changes nothing else. -/
theorem exec_spec {e : Elem V} {p : Launch} (ht : p.tile.OK) (hl : p.Limits) (hr : ∀ d ∈ p.red, 0 < d.extent)
    (hp : points p.red < 2 ^ 32) {g : Grid} (hg : p.gridOK g) {A B C C' : Nat → V} (h : p.Exec e g A B C C') :
    (∀ z i j, z < points p.grid → i < p.M → j < p.N → C' (p.problem.addrC z i j) = paddedEntry p.problem e A B z i j) ∧
    ∀ x, p.problem.size ≤ x → C' x = C x := by
  subst hg
  obtain ⟨init, final, ws, h1, h2, h3, rfl⟩ := h
  have hbm : 0 < p.tile.BM := by have := ht.tm; rw [ht.bm]; omega
  have hK := hl.k
  have hM := hl.m
  have hN := hl.n
  -- the blocks
  have hb : ∀ b : Nat × Nat × Nat, b ∈ Grid.blocks ⟨cdiv p.N p.tile.BM, cdiv p.M p.tile.BM, points p.grid⟩ →
      b.2.1 * p.tile.BM < p.M ∧ b.1 * p.tile.BM < p.N ∧ mul32 b.2.1 p.tile.BM = b.2.1 * p.tile.BM ∧
      mul32 b.1 p.tile.BM = b.1 * p.tile.BM ∧ b.2.2 < points p.grid := by
    intro b hb
    obtain ⟨k1, k2, k3⟩ := mem_blocks.1 hb
    have k4 := (lt_cdiv hbm).1 k1
    have k5 := (lt_cdiv hbm).1 k2
    exact ⟨k5, k4, mul32_eq (by omega), mul32_eq (by omega), k3⟩
  -- the stores
  have hw : ∀ w, w ∈ ws ↔ ∃ x y z tid i j, x * p.tile.BM < p.N ∧ y * p.tile.BM < p.M ∧ z < points p.grid ∧ tid < 64 ∧
      i < p.tile.TM ∧ j < p.tile.TM ∧ y * p.tile.BM + (p.tile.ty tid * p.tile.TM + i) < p.M ∧
      x * p.tile.BM + p.tile.col (p.tile.tx tid) j < p.N ∧
      w = (z * p.M * p.N + ((y * p.tile.BM + (p.tile.ty tid * p.tile.TM + i)) * p.N + (x * p.tile.BM + p.tile.col (p.tile.tx tid) j)),
        paddedEntry p.problem e A B z (y * p.tile.BM + (p.tile.ty tid * p.tile.TM + i)) (x * p.tile.BM + p.tile.col (p.tile.tx tid) j)) := by
    intro w
    have val : ∀ b : Nat × Nat × Nat, b ∈ Grid.blocks ⟨cdiv p.N p.tile.BM, cdiv p.M p.tile.BM, points p.grid⟩ → ∀ tid i j, tid < 64 → i < p.tile.TM →
        j < p.tile.TM → b.2.1 * p.tile.BM + (p.tile.ty tid * p.tile.TM + i) < p.M → b.1 * p.tile.BM + p.tile.col (p.tile.tx tid) j < p.N →
        e.store ((final b).acc tid i j) = paddedEntry p.problem e A B b.2.2 (b.2.1 * p.tile.BM + (p.tile.ty tid * p.tile.TM + i))
          (b.1 * p.tile.BM + p.tile.col (p.tile.tx tid) j) := by
      intro b hb' tid i j t1 t2 t3 t4 t5
      obtain ⟨q1, q2, q3, q4, q5⟩ := hb b hb'
      have hrun := h2 b hb'
      rw [q3, q4] at hrun
      rw [runs_spec ht hl q1 q2 _ _ _ (steps_ok (by omega)) hrun tid i j t1 t2 t3, h1 b]
      exact steps_sum hr hp t4 t5
    rw [h3.mem_iff, List.mem_flatMap]
    constructor
    · rintro ⟨b, k1, k2⟩
      obtain ⟨q1, q2, q3, q4, q5⟩ := hb b k1
      rw [q3, q4, mem_out ht hl q1 q2] at k2
      obtain ⟨tid, i, j, t1, t2, t3, t4, t5, rfl⟩ := k2
      exact ⟨b.1, b.2.1, b.2.2, tid, i, j, q2, q1, q5, t1, t2, t3, t4, t5, by rw [val b k1 tid i j t1 t2 t3 t4 t5]⟩
    · rintro ⟨x, y, z, tid, i, j, q2, q1, q5, t1, t2, t3, t4, t5, rfl⟩
      have k1 : (x, y, z) ∈ Grid.blocks ⟨cdiv p.N p.tile.BM, cdiv p.M p.tile.BM, points p.grid⟩ :=
        mem_blocks.2 ⟨(lt_cdiv hbm).2 q2, (lt_cdiv hbm).2 q1, q5⟩
      refine ⟨(x, y, z), k1, ?_⟩
      obtain ⟨_, _, q3, q4, _⟩ := hb _ k1
      rw [q3, q4, mem_out ht hl q1 q2]
      exact ⟨tid, i, j, t1, t2, t3, t4, t5, by rw [val (x, y, z) k1 tid i j t1 t2 t3 t4 t5]⟩
  have addr : ∀ z i j, p.problem.addrC z i j = z * p.M * p.N + (i * p.N + j) := by
    intro z i j
    unfold Problem.addrC Launch.problem
    dsimp only
    ring
  refine ⟨?_, ?_⟩
  · intro z i j hz hi hj
    rw [addr]
    apply apply_mem
    · obtain ⟨tid, i', j', t1, t2, t3, t4, t5⟩ := tile_cover ht (Nat.mod_lt i hbm) (Nat.mod_lt j hbm)
      have d1 : i / p.tile.BM * p.tile.BM + (p.tile.ty tid * p.tile.TM + i') = i := by rw [t4, Nat.mul_comm]; exact Nat.div_add_mod _ _
      have d2 : j / p.tile.BM * p.tile.BM + p.tile.col (p.tile.tx tid) j' = j := by rw [t5, Nat.mul_comm]; exact Nat.div_add_mod _ _
      refine ⟨_, (hw _).2 ⟨j / p.tile.BM, i / p.tile.BM, z, tid, i', j', by omega, by omega, hz, t1, t2, t3, by omega, by omega, rfl⟩, ?_⟩
      dsimp only
      rw [d1, d2]
    · intro w hw' ha
      obtain ⟨x, y, z', tid, i', j', _, _, _, _, _, _, t4, t5, rfl⟩ := (hw w).1 hw'
      dsimp only at ha ⊢
      obtain ⟨rfl, e2, e3⟩ := addrC_inj t4 t5 hi hj ha
      rw [e2, e3]
  · intro x hx
    apply apply_not
    rintro w hw' rfl
    obtain ⟨x, y, z, tid, i, j, _, _, hz, _, _, _, t4, t5, rfl⟩ := (hw w).1 hw'
    have h1 := mul_add_lt t4 t5
    have h2 : z * (p.M * p.N) + p.M * p.N ≤ points p.grid * (p.M * p.N) := by
      rw [← Nat.succ_mul]; exact Nat.mul_le_mul_right _ hz
    have h3 : p.problem.size = points p.grid * (p.M * p.N) := rfl
    rw [h3] at hx
    rw [Nat.mul_assoc z] at hx
    dsimp only at hx
    omega

end Verif.CudaGemm
