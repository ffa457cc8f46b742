import Verif.Gemm.Loops
import Mathlib.Tactic.Ring
/-!
# Simplification of batch dimensions
-/
namespace Verif.Gemm
open Verif.Par
open Verif.Llvm (mul32 mul32_eq)

variable {V : Type} {e : Elem V} {c : Cfg} {m : Loc → V}

theorem safe_mono {ok ok' : Bool → Loc → Prop} (h : ∀ w l, ok w l → ok' w l) : ∀ {ps : List (Phase Loc V)} {m : Loc → V}, Safe ok ps m → Safe ok' ps m
  | [], _, _ => trivial
  | _ :: _, _, ⟨h1, h2⟩ =>
    ⟨fun m' q i hs => ⟨fun l k hr => h _ _ ((h1 m' q i hs).1 l k hr), fun l v k hr => h _ _ ((h1 m' q i hs).2 l v k hr)⟩,
     fun m1 he => safe_mono h (h2 m1 he)⟩

/-- Every solution of `p` is a solution of `p'`, and it uses the same entries. -/
structure Covers (p p' : Problem) : Prop where
  product : ∀ {V : Type} (e : Elem V) (A B C : Nat → V), p.IsProduct e A B C → p'.IsProduct e A B C
  inA : ∀ x, p.InA x → p'.InA x
  inB : ∀ x, p.InB x → p'.InB x
  size : p.size = p'.size

theorem Covers.refl (p : Problem) : Covers p p := ⟨fun _ _ _ _ h => h, fun _ h => h, fun _ h => h, rfl⟩

theorem Covers.trans {p q r : Problem} (h1 : Covers p q) (h2 : Covers q r) : Covers p r :=
  ⟨fun e A B C h => h2.product e A B C (h1.product e A B C h), fun x h => h2.inA x (h1.inA x h), fun x h => h2.inB x (h1.inB x h),
   h1.size.trans h2.size⟩

theorem Achieves.covers {p p' : Problem} {plan : Plan V} (h : Achieves p e plan m) (hc : Covers p p') : Achieves p' e plan m := by
  obtain ⟨ph, a, b, h1, h2, h3⟩ := h
  refine ⟨ph, a, b, h1, ?_, ?_⟩
  · have hok : ∀ w l, Allowed p a b w l → Allowed p' a b w l := by
      rintro w ⟨bf, x⟩ hl
      cases bf with
      | a => exact ⟨hl.1, hc.inA x hl.2⟩
      | b => exact ⟨hl.1, hc.inB x hl.2⟩
      | c => exact lt_of_lt_of_eq hl hc.size
      | packed => exact hl
      | scratch => exact hl
      | null => exact hl
    exact safe_mono hok h2
  · intro m' he
    obtain ⟨g1, g2, g3, g4⟩ := h3 m' he
    exact ⟨hc.product _ _ _ _ g1, g2, g3, fun x hx => g4 x (by rw [hc.size]; exact hx)⟩

/-! ### Dimensions of extent one -/

/-- Two lists of dimensions that describe the same grid -/
structure SameDims (l l' : List Dim) : Prop where
  points : points l = points l'
  a : ∀ x, offset Dim.aStride l x = offset Dim.aStride l' x
  b : ∀ x, offset Dim.bStride l x = offset Dim.bStride l' x

theorem SameDims.refl (l : List Dim) : SameDims l l := ⟨rfl, fun _ => rfl, fun _ => rfl⟩

theorem SameDims.erase : ∀ (l : List Dim) (d : Nat) (hd : d < l.length), (l[d]).extent = 1 → SameDims (l.eraseIdx d) l
  | [], d, hd, _ => absurd hd (Nat.not_lt_zero _)
  | x :: l, 0, _, h => by
    simp only [List.getElem_cons_zero] at h
    refine ⟨?_, fun y => ?_, fun y => ?_⟩
    · show Gemm.points l = x.extent * Gemm.points l
      rw [h, Nat.one_mul]
    · simp [offset, h, Nat.mod_one]
    · simp [offset, h, Nat.mod_one]
  | x :: l, d + 1, hd, h => by
    simp only [List.getElem_cons_succ] at h
    obtain ⟨h1, h2, h3⟩ := SameDims.erase l d (by simpa using hd) h
    refine ⟨?_, fun y => ?_, fun y => ?_⟩
    · show x.extent * Gemm.points (l.eraseIdx d) = x.extent * Gemm.points l
      rw [h1]
    · simp [offset, h2]
    · simp [offset, h3]

theorem Covers.same {At Bt : Bool} {M N K : Nat} {grid grid' red red' : List Dim} (h1 : SameDims grid grid') (h2 : SameDims red red') :
    Covers ⟨At, Bt, M, N, K, grid, red⟩ ⟨At, Bt, M, N, K, grid', red'⟩ := by
  have eA : ∀ g q i k, (Problem.mk At Bt M N K grid red).addrA g q i k = (Problem.mk At Bt M N K grid' red').addrA g q i k := by
    intro g q i k; simp only [Problem.addrA, h1.a, h2.a]
  have eB : ∀ g q i k, (Problem.mk At Bt M N K grid red).addrB g q i k = (Problem.mk At Bt M N K grid' red').addrB g q i k := by
    intro g q i k; simp only [Problem.addrB, h1.b, h2.b]
  have eT : (Problem.mk At Bt M N K grid red).terms = (Problem.mk At Bt M N K grid' red').terms := by
    simp only [Problem.terms, h2.points]
  refine ⟨?_, ?_, ?_, ?_⟩
  · intro V e A B C h g i j hg hi hj
    have := h g i j (by simpa only [h1.points] using hg) hi hj
    unfold Problem.entry at this ⊢
    rw [eT] at this
    simp only [eA, eB] at this
    exact this
  · rintro x ⟨g, q, i, k, a1, a2, a3, a4, rfl⟩
    exact ⟨g, q, i, k, by simpa only [h1.points] using a1, by simpa only [h2.points] using a2, a3, a4, eA _ _ _ _⟩
  · rintro x ⟨g, q, i, k, a1, a2, a3, a4, rfl⟩
    exact ⟨g, q, i, k, by simpa only [h1.points] using a1, by simpa only [h2.points] using a2, a3, a4, eB _ _ _ _⟩
  · simp only [Problem.size, h1.points]

/-! ### Removal of a dimension -/

theorem shift_eq {n d i : Nat} {f : Nat → Nat} (hi : i + 1 < n) : shift n d f i = if i < d then f i else f (i + 1) := by
  unfold shift
  have key : ∀ t, ((List.range t).foldl (fun (f : Nat → Nat) (t i : Nat) => if i = d + t then f (d + t + 1) else f i) f) =
      fun i => if d ≤ i ∧ i < d + t then f (i + 1) else f i := by
    intro t
    induction t with
    | zero => funext i; rw [if_neg (by omega)]; rfl
    | succ t ih =>
      rw [List.range_succ, List.foldl_append, ih]
      funext i
      simp only [List.foldl_cons, List.foldl_nil]
      by_cases h : i = d + t
      · subst h
        rw [if_pos rfl, if_neg (by omega), if_pos (by omega)]
      · rw [if_neg h]
        split_ifs <;> first | rfl | omega
  rw [key]
  dsimp only
  split_ifs <;> first | rfl | omega

theorem dims_length {b : Batch} {lo n : Nat} : (b.dims lo n).length = n := by simp [Batch.dims]

theorem dims_get {b : Batch} {lo n i : Nat} (h : i < (b.dims lo n).length) :
    (b.dims lo n)[i] = ⟨b.extent (lo + i), b.aStride (lo + i), b.bStride (lo + i)⟩ := by
  simp [Batch.dims]

theorem drop_grid {b : Batch} {d : Nat} (hd : d < b.nb) :
    (b.drop d).grid = b.grid.eraseIdx d ∧ (b.drop d).red = b.red ∧ (b.drop d).nb = b.nb - 1 ∧ (b.drop d).nr = b.nr := by
  have hnb : (b.drop d).nb = b.nb - 1 := by simp [Batch.drop, hd]
  have hnr : (b.drop d).nr = b.nr := by simp [Batch.drop, hd]
  refine ⟨?_, ?_, hnb, hnr⟩
  · unfold Batch.grid
    refine List.ext_getElem ?_ ?_
    · rw [List.length_eraseIdx, dims_length, dims_length, hnb, if_pos hd]
    · intro i h1 h2
      have h1' := h1
      rw [dims_length, hnb] at h1'
      rw [dims_get, List.getElem_eraseIdx]
      simp only [Batch.drop, Nat.zero_add]
      rw [shift_eq (by omega), shift_eq (by omega), shift_eq (by omega)]
      split
      · rw [dims_get]; simp
      · rw [dims_get]; simp
  · unfold Batch.red
    refine List.ext_getElem ?_ ?_
    · rw [dims_length, dims_length, hnr]
    · intro i h1 h2
      have h1' := h1
      rw [dims_length, hnr] at h1'
      rw [dims_get, dims_get, hnb]
      simp only [Batch.drop]
      rw [shift_eq (by omega), shift_eq (by omega), shift_eq (by omega), if_neg (by omega), if_neg (by omega), if_neg (by omega)]
      rw [show b.nb - 1 + i + 1 = b.nb + i by omega]

theorem drop_red {b : Batch} {d : Nat} (hd : d < b.nr) :
    (b.drop (b.nb + d)).red = b.red.eraseIdx d ∧ (b.drop (b.nb + d)).grid = b.grid ∧ (b.drop (b.nb + d)).nb = b.nb ∧ (b.drop (b.nb + d)).nr = b.nr - 1 := by
  have hnb : (b.drop (b.nb + d)).nb = b.nb := by simp [Batch.drop]
  have hnr : (b.drop (b.nb + d)).nr = b.nr - 1 := by simp [Batch.drop]
  refine ⟨?_, ?_, hnb, hnr⟩
  · unfold Batch.red
    refine List.ext_getElem ?_ ?_
    · rw [List.length_eraseIdx, dims_length, dims_length, hnr, if_pos hd]
    · intro i h1 h2
      have h1' := h1
      rw [dims_length, hnr] at h1'
      rw [dims_get, List.getElem_eraseIdx, hnb]
      simp only [Batch.drop]
      rw [shift_eq (by omega), shift_eq (by omega), shift_eq (by omega)]
      by_cases hid : i < d
      · rw [dif_pos hid, dims_get, if_pos (by omega), if_pos (by omega), if_pos (by omega)]
      · rw [dif_neg hid, dims_get, if_neg (by omega), if_neg (by omega), if_neg (by omega)]; rfl
  · unfold Batch.grid
    refine List.ext_getElem ?_ ?_
    · rw [dims_length, dims_length, hnb]
    · intro i h1 h2
      have h1' := h1
      rw [dims_length, hnb] at h1'
      rw [dims_get, dims_get]
      simp only [Batch.drop, Nat.zero_add]
      rw [shift_eq (by omega), shift_eq (by omega), shift_eq (by omega), if_pos (by omega), if_pos (by omega), if_pos (by omega)]

theorem dropOnes_same (b : Batch) (d : Nat) : SameDims (dropOnes b d).grid b.grid ∧ SameDims (dropOnes b d).red b.red := by
  fun_induction dropOnes b d with
  | case1 b d h h1 ih =>
    by_cases hd : d < b.nb
    · obtain ⟨g1, g2, _⟩ := drop_grid hd
      rw [g1, g2] at ih
      refine ⟨?_, ih.2⟩
      have hl : d < b.grid.length := by unfold Batch.grid; rw [dims_length]; exact hd
      have := SameDims.erase b.grid d hl ((congrArg Dim.extent (dims_get (b := b) (lo := 0) (n := b.nb) hl)).trans (by rw [Nat.zero_add]; exact h1))
      exact ⟨ih.1.points.trans this.points, fun x => (ih.1.a x).trans (this.a x), fun x => (ih.1.b x).trans (this.b x)⟩
    · obtain ⟨k, rfl⟩ := Nat.exists_eq_add_of_le (Nat.le_of_not_lt hd)
      have hk : k < b.nr := by omega
      obtain ⟨g1, g2, _⟩ := drop_red hk
      rw [g1, g2] at ih
      refine ⟨ih.1, ?_⟩
      have hl : k < b.red.length := by unfold Batch.red; rw [dims_length]; exact hk
      have := SameDims.erase b.red k hl ((congrArg Dim.extent (dims_get (b := b) (lo := b.nb) (n := b.nr) hl)).trans h1)
      exact ⟨ih.2.points.trans this.points, fun x => (ih.2.a x).trans (this.a x), fun x => (ih.2.b x).trans (this.b x)⟩
  | case2 b d h h1 ih => exact ih
  | case3 b d h => exact ⟨SameDims.refl _, SameDims.refl _⟩

/-! ### Batch dimensions that extend the first operand -/

theorem covers_foldM {Bt : Bool} {M N K E : Nat} {grid red : List Dim} (hE : 0 < E) :
    Covers ⟨false, Bt, M * E, N, K, grid, red⟩ ⟨false, Bt, M, N, K, ⟨E, M * K, 0⟩ :: grid, red⟩ := by
  -- a point of the grid
  have hpt : ∀ g, g < E * points grid → g % E < E ∧ g / E < points grid := by
    intro g hg
    exact ⟨Nat.mod_lt _ hE, Nat.div_lt_of_lt_mul hg⟩
  have hrow : ∀ x i, x < E → i < M → x * M + i < M * E := by
    intro x i hx hi
    have : (x + 1) * M ≤ E * M := Nat.mul_le_mul_right _ hx
    rw [Nat.succ_mul] at this
    rw [Nat.mul_comm M E]; omega
  have eC : ∀ g i j, (Problem.mk false Bt (M * E) N K grid red).addrC (g / E) (g % E * M + i) j =
      (Problem.mk false Bt M N K (⟨E, M * K, 0⟩ :: grid) red).addrC g i j := by
    intro g i j
    unfold Problem.addrC
    simp only
    have h1 : g = E * (g / E) + g % E := (Nat.div_add_mod g E).symm
    generalize g / E = y at *
    generalize g % E = x at *
    subst h1
    ring
  have eA : ∀ g q i k, (Problem.mk false Bt (M * E) N K grid red).addrA (g / E) q (g % E * M + i) k =
      (Problem.mk false Bt M N K (⟨E, M * K, 0⟩ :: grid) red).addrA g q i k := by
    intro g q i k
    simp only [Problem.addrA, offset, Bool.false_eq_true, if_false]
    ring
  have eB : ∀ g q k j, (Problem.mk false Bt (M * E) N K grid red).addrB (g / E) q k j =
      (Problem.mk false Bt M N K (⟨E, M * K, 0⟩ :: grid) red).addrB g q k j := by
    intro g q k j
    simp only [Problem.addrB, offset, Nat.mul_zero, Nat.zero_add]
  -- a row of the folded product
  have hun : ∀ g' i', i' < M * E → 0 < M ∧ i' % M < M ∧ i' / M < E ∧ (E * g' + i' / M) / E = g' ∧ (E * g' + i' / M) % E * M + i' % M = i' := by
    intro g' i' hi'
    have hM : 0 < M := by
      rcases Nat.eq_zero_or_pos M with rfl | h
      · rw [Nat.zero_mul] at hi'; omega
      · exact h
    have hx : i' / M < E := Nat.div_lt_of_lt_mul hi'
    refine ⟨hM, Nat.mod_lt _ hM, hx, ?_, ?_⟩
    · rw [Nat.mul_add_div (by omega), Nat.div_eq_of_lt hx]; omega
    · rw [Nat.mul_add_mod, Nat.mod_eq_of_lt hx, Nat.mul_comm]
      exact Nat.div_add_mod i' M
  have hgl : ∀ g' x, g' < points grid → x < E → E * g' + x < E * points grid := by
    intro g' x hg hx
    have : E * (g' + 1) ≤ E * points grid := Nat.mul_le_mul_left _ hg
    rw [Nat.mul_succ] at this
    omega
  refine ⟨?_, ?_, ?_, ?_⟩
  · intro V e A B C h g i j hg hi hj
    obtain ⟨hx, hg'⟩ := hpt g hg
    have := h (g / E) (g % E * M + i) j hg' (hrow _ _ hx hi) hj
    rw [eC g i j] at this
    rw [this]
    unfold Problem.entry
    simp only [eA, eB]
    rfl
  · rintro x ⟨g', q, i', k, a1, a2, a3, a4, rfl⟩
    obtain ⟨hM, h1, h2, h3, h4⟩ := hun g' i' a3
    refine ⟨E * g' + i' / M, q, i' % M, k, hgl _ _ a1 h2, a2, h1, a4, ?_⟩
    rw [← eA, h3, h4]
  · rintro x ⟨g', q, k, j, a1, a2, a3, a4, rfl⟩
    refine ⟨E * g', q, k, j, hgl g' 0 a1 hE, a2, a3, a4, ?_⟩
    rw [← eB, Nat.mul_div_cancel_left _ hE]
  · simp only [Problem.size, points]; ring

/-! ### Dimensions of the sum that extend both operands -/

theorem flatMap_congr' {α β : Type} {l : List α} {f g : α → List β} (h : ∀ x ∈ l, f x = g x) : l.flatMap f = l.flatMap g := by
  rw [List.flatMap_def, List.flatMap_def, List.map_congr_left h]

theorem range_mul (a b : Nat) : List.range (a * b) = (List.range b).flatMap (fun x => (List.range a).map (fun y => a * x + y)) := by
  induction b with
  | zero => rfl
  | succ b ih =>
    rw [Nat.mul_succ, List.range_add, ih, List.range_succ, List.flatMap_append]
    simp

theorem covers_foldK {M N K E : Nat} {grid red : List Dim} (hE : 0 < E) (hK : 0 < K) :
    Covers ⟨true, false, M, N, K * E, grid, red⟩ ⟨true, false, M, N, K, grid, ⟨E, K * M, K * N⟩ :: red⟩ := by
  have eA : ∀ g q i k, (Problem.mk true false M N (K * E) grid red).addrA g (q / E) i (K * (q % E) + k) =
      (Problem.mk true false M N K grid (⟨E, K * M, K * N⟩ :: red)).addrA g q i k := by
    intro g q i k
    simp only [Problem.addrA, offset, if_true]
    ring
  have eB : ∀ g q k j, (Problem.mk true false M N (K * E) grid red).addrB g (q / E) (K * (q % E) + k) j =
      (Problem.mk true false M N K grid (⟨E, K * M, K * N⟩ :: red)).addrB g q k j := by
    intro g q k j
    simp only [Problem.addrB, offset, Bool.false_eq_true, if_false]
    ring
  -- the same terms in the same order
  have eT : (Problem.mk true false M N (K * E) grid red).terms =
      (Problem.mk true false M N K grid (⟨E, K * M, K * N⟩ :: red)).terms.map (fun t => (t.1 / E, K * (t.1 % E) + t.2)) := by
    unfold Problem.terms
    simp only [points]
    rw [range_mul E, List.flatMap_assoc, List.map_flatMap]
    congr 1
    funext q
    rw [range_mul K, List.map_flatMap, List.flatMap_map, List.map_flatMap]
    refine flatMap_congr' fun x hx => ?_
    rw [List.map_map, List.map_map]
    refine List.map_congr_left fun k _ => ?_
    have hx' := List.mem_range.1 hx
    simp only [Function.comp]
    rw [Nat.mul_add_div hE, Nat.div_eq_of_lt hx', Nat.mul_add_mod, Nat.mod_eq_of_lt hx', Nat.add_zero]
  -- indices
  have hk : ∀ k', k' < K * E → k' % K < K ∧ k' / K < E := fun k' h => ⟨Nat.mod_lt _ hK, Nat.div_lt_of_lt_mul h⟩
  have hq : ∀ q' x, q' < points red → x < E → E * q' + x < E * points red := by
    intro q' x hg hx
    have : E * (q' + 1) ≤ E * points red := Nat.mul_le_mul_left _ hg
    rw [Nat.mul_succ] at this
    omega
  have hd : ∀ q' k', k' < K * E → (E * q' + k' / K) / E = q' ∧ K * ((E * q' + k' / K) % E) + k' % K = k' := by
    intro q' k' h
    have hx := (hk k' h).2
    refine ⟨?_, ?_⟩
    · rw [Nat.mul_add_div hE, Nat.div_eq_of_lt hx]; omega
    · rw [Nat.mul_add_mod, Nat.mod_eq_of_lt hx]
      exact Nat.div_add_mod k' K
  refine ⟨?_, ?_, ?_, ?_⟩
  · intro V e A B C h g i j hg hi hj
    have := h g i j hg hi hj
    unfold Problem.entry at this ⊢
    rw [eT, List.foldl_map] at this
    simp only [eA, eB] at this
    exact this
  · rintro x ⟨g, q', i, k', a1, a2, a3, a4, rfl⟩
    obtain ⟨h1, h2⟩ := hk k' a4
    obtain ⟨h3, h4⟩ := hd q' k' a4
    refine ⟨g, E * q' + k' / K, i, k' % K, a1, hq _ _ a2 h2, a3, h1, ?_⟩
    rw [← eA, h3, h4]
  · rintro x ⟨g, q', k', j, a1, a2, a3, a4, rfl⟩
    obtain ⟨h1, h2⟩ := hk k' a3
    obtain ⟨h3, h4⟩ := hd q' k' a3
    refine ⟨g, E * q' + k' / K, k' % K, j, a1, hq _ _ a2 h2, h1, a4, ?_⟩
    rw [← eB, h3, h4]
  · rfl

/-! ### The loops of `jitc_batched_gemm()` -/

theorem grid_cons {b : Batch} (h : b.nb > 0) : b.grid = ⟨b.extent 0, b.aStride 0, b.bStride 0⟩ :: (b.drop 0).grid := by
  obtain ⟨g1, _⟩ := drop_grid (b := b) h
  rw [g1]
  unfold Batch.grid Batch.dims
  obtain ⟨n, hn⟩ : ∃ n, b.nb = n + 1 := ⟨b.nb - 1, by omega⟩
  rw [hn, List.range_succ_eq_map]
  simp

theorem red_cons {b : Batch} (h : b.nr > 0) : b.red = ⟨b.extent b.nb, b.aStride b.nb, b.bStride b.nb⟩ :: (b.drop b.nb).red := by
  obtain ⟨g1, _⟩ := drop_red (b := b) (d := 0) h
  rw [Nat.add_zero] at g1
  rw [g1]
  unfold Batch.red Batch.dims
  obtain ⟨n, hn⟩ : ∃ n, b.nr = n + 1 := ⟨b.nr - 1, by omega⟩
  rw [hn, List.range_succ_eq_map]
  simp

theorem foldM_red {At : Bool} {K : Nat} (M : Nat) (b : Batch) : (foldM At M K b).2.red = b.red := by
  fun_induction foldM At M K b with
  | case1 M b h ih => rw [ih, (drop_grid h.2.1).2.1]
  | case2 M b h => rfl

theorem foldK_grid {At Bt : Bool} {M N : Nat} (K : Nat) (b : Batch) : (foldK At Bt M N K b).2.grid = b.grid := by
  fun_induction foldK At Bt M N K b with
  | case1 K b h ih =>
    have := (drop_red (d := 0) h.2.1).2.1
    rw [Nat.add_zero] at this
    rw [ih, this]
  | case2 K b h => rfl

theorem foldM_size {At : Bool} {K : Nat} (M : Nat) (b : Batch) :
    (foldM At M K b).1 * points (foldM At M K b).2.grid = M * points b.grid := by
  fun_induction foldM At M K b with
  | case1 M b h ih =>
    have h5 := h.2.2.2.2
    rw [ih, mul32_eq (by omega), grid_cons h.2.1]
    simp only [points]
    rw [Nat.mul_assoc]
  | case2 M b h => rfl

theorem foldK_size {At Bt : Bool} {M N : Nat} (K : Nat) (b : Batch) :
    (foldK At Bt M N K b).1 * points (foldK At Bt M N K b).2.red = K * points b.red := by
  fun_induction foldK At Bt M N K b with
  | case1 K b h ih =>
    have h5 := h.2.2.2.2
    rw [ih, mul32_eq (by omega), red_cons h.2.1]
    simp only [points]
    rw [Nat.mul_assoc]
  | case2 K b h => rfl

theorem foldM_covers {At Bt : Bool} {N K : Nat} {red : List Dim} (M : Nat) (b : Batch) (hb : ∀ d ∈ b.grid, 0 < d.extent) :
    Covers ⟨At, Bt, (foldM At M K b).1, N, K, (foldM At M K b).2.grid, red⟩ ⟨At, Bt, M, N, K, b.grid, red⟩ := by
  fun_induction foldM At M K b with
  | case1 M b h ih =>
    obtain ⟨h1, h2, h3, h4, h5⟩ := h
    have hA : At = false := by simpa using h1
    rw [mul32_eq (by omega)] at ih ⊢
    rw [grid_cons h2] at hb ⊢
    refine (ih (fun d hd => hb d (by simp [hd]))).trans ?_
    rw [h3, h4, hA]
    exact covers_foldM (hb _ List.mem_cons_self)
  | case2 M b h => exact Covers.refl _

theorem foldM_pos {At : Bool} {K : Nat} (M : Nat) (b : Batch) (hb : ∀ d ∈ b.grid, 0 < d.extent) : ∀ d ∈ (foldM At M K b).2.grid, 0 < d.extent := by
  fun_induction foldM At M K b with
  | case1 M b h ih =>
    rw [grid_cons h.2.1] at hb
    exact ih (fun d hd => hb d (by simp [hd]))
  | case2 M b h => exact hb

theorem foldK_covers {At Bt : Bool} {M N : Nat} {grid : List Dim} (K : Nat) (b : Batch) (hb : ∀ d ∈ b.red, 0 < d.extent) (hK : 0 < K) :
    Covers ⟨At, Bt, M, N, (foldK At Bt M N K b).1, grid, (foldK At Bt M N K b).2.red⟩ ⟨At, Bt, M, N, K, grid, b.red⟩ := by
  fun_induction foldK At Bt M N K b with
  | case1 K b h ih =>
    obtain ⟨h1, h2, h3, h4, h5⟩ := h
    have hA : At = true := h1.1
    have hB : Bt = false := by simpa using h1.2
    rw [mul32_eq (by omega)] at ih ⊢
    rw [red_cons h2] at hb ⊢
    have hE := hb _ (List.mem_cons_self)
    refine (ih (fun d hd => hb d (by simp [hd])) (Nat.mul_pos hK hE)).trans ?_
    rw [h3, h4, hA, hB]
    exact covers_foldK hE hK
  | case2 K b h => exact Covers.refl _

theorem foldK_pos {At Bt : Bool} {M N : Nat} (K : Nat) (b : Batch) (hb : ∀ d ∈ b.red, 0 < d.extent) : ∀ d ∈ (foldK At Bt M N K b).2.red, 0 < d.extent := by
  fun_induction foldK At Bt M N K b with
  | case1 K b h ih =>
    rw [red_cons h.2.1] at hb
    exact ih (fun d hd => hb d (by simp [hd]))
  | case2 K b h => exact hb

theorem extents_pos {l : List Dim} (h : 0 < points l) : ∀ d ∈ l, 0 < d.extent := by
  intro d hd
  rcases Nat.eq_zero_or_pos d.extent with h0 | h0
  · have := points_zero ⟨d, hd, h0⟩
    omega
  · exact h0

end Verif.Gemm
