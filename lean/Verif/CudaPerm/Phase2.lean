import Verif.CudaPerm.Lemmas

/-! Transpose and prefix sum -/

namespace Verif.CudaPerm

theorem mul_add_inj {s z z' a b : Nat} (ha : a < s) (hb : b < s) (h : z * s + a = z' * s + b) : z = z' ∧ a = b := by
  have h1 : (z * s + a) / s = z := by
    rw [Nat.mul_comm z s, Nat.mul_add_div (by omega), Nat.div_eq_of_lt ha, Nat.add_zero]
  have h2 : (z' * s + b) / s = z' := by
    rw [Nat.mul_comm z' s, Nat.mul_add_div (by omega), Nat.div_eq_of_lt hb, Nat.add_zero]
  have h3 : z = z' := by rw [← h1, ← h2, h]
  subst h3
  exact ⟨rfl, by omega⟩

theorem mul_add_lt {s n z a : Nat} (hz : z < n) (ha : a < s) : z * s + a < n * s := by
  have := Nat.mul_le_mul_right s (show z + 1 ≤ n from hz)
  rw [Nat.add_mul, Nat.one_mul] at this
  omega

theorem mem_threads16 {t : Nat × Nat} : t ∈ threads16 ↔ t.1 < 16 ∧ t.2 < 16 := by
  unfold threads16
  simp only [List.mem_flatMap, List.mem_range, List.mem_map]
  constructor
  · rintro ⟨a, ha, b, hb, rfl⟩
    exact ⟨ha, hb⟩
  · intro h
    exact ⟨t.1, h.1, t.2, h.2, rfl⟩

theorem tile_spec (inp : Nat → Nat) (rows cols stride x y z : Nat) (order : List (Nat × Nat)) (garbage : Nat → Nat)
    (ho : order.Perm threads16) {a b : Nat} (ha : a < 16) (hb : b < 16) (hr : y * 16 + a < rows) (hc : x * 16 + b < cols) :
    tile inp rows cols stride x y z order garbage (a * 17 + b) = inp (z * stride + ((y * 16 + a) * cols + (x * 16 + b))) := by
  unfold tile
  apply applyWrites_mem
  · rw [List.mem_map]
    refine ⟨(b, a), ?_, rfl⟩
    rw [List.mem_filter]
    exact ⟨ho.mem_iff.2 (mem_threads16.2 ⟨hb, ha⟩), by simp [hr, hc]⟩
  · intro w hw e
    rw [List.mem_map] at hw
    obtain ⟨⟨b', a'⟩, ht, rfl⟩ := hw
    rw [List.mem_filter] at ht
    have h16 := mem_threads16.1 (ho.mem_iff.1 ht.1)
    simp only at e h16 ⊢
    have h1 : a' = a := by omega
    have h2 : b' = b := by omega
    subst h1 h2
    rfl

theorem transposeOut_inv {inp : Nat → Nat} {rows cols n stride : Nat} {order : Nat → Nat → Nat → List (Nat × Nat)}
    {garbage : Nat → Nat → Nat → Nat → Nat} (ho : ∀ x y z, (order x y z).Perm threads16) {w : Nat × Nat}
    (h : w ∈ transposeOut inp rows cols n stride order garbage) :
    ∃ z r c, z < n ∧ r < rows ∧ c < cols ∧ w = (z * stride + (c * rows + r), inp (z * stride + (r * cols + c))) := by
  unfold transposeOut tileOut at h
  simp only [List.mem_flatMap, List.mem_range, List.mem_map, List.mem_filter, decide_eq_true_eq] at h
  obtain ⟨z, hz, y, _, x, _, t, ⟨ht, hc, hr⟩, rfl⟩ := h
  have h16 := mem_threads16.1 ht
  refine ⟨z, y * 16 + t.1, x * 16 + t.2, hz, hr, hc, ?_⟩
  rw [tile_spec inp rows cols stride x y z _ _ (ho x y z) h16.1 h16.2 hr hc]

theorem transposeOut_mem {inp : Nat → Nat} {rows cols n stride : Nat} {order : Nat → Nat → Nat → List (Nat × Nat)}
    {garbage : Nat → Nat → Nat → Nat → Nat} (ho : ∀ x y z, (order x y z).Perm threads16)
    {z r c : Nat} (hz : z < n) (hr : r < rows) (hc : c < cols)
    (hx : c < (transposeGrid rows cols).1 * 16) (hy : r < (transposeGrid rows cols).2 * 16) :
    (z * stride + (c * rows + r), inp (z * stride + (r * cols + c))) ∈ transposeOut inp rows cols n stride order garbage := by
  unfold transposeOut tileOut
  simp only [List.mem_flatMap, List.mem_range, List.mem_map, List.mem_filter, decide_eq_true_eq]
  have e1 : r / 16 * 16 + r % 16 = r := by omega
  have e2 : c / 16 * 16 + c % 16 = c := by omega
  refine ⟨z, hz, r / 16, by omega, c / 16, by omega, (r % 16, c % 16), ⟨mem_threads16.2 ⟨by omega, by omega⟩, ?_, ?_⟩, ?_⟩
  · simp only; omega
  · simp only; omega
  · simp only
    rw [tile_spec inp rows cols stride (c / 16) (r / 16) z _ _ (ho _ _ _) (by omega) (by omega) (by omega) (by omega), e1, e2]

/-- The transpose kernel, if the number of thread blocks suffices. -/
theorem transpose_spec {inp out out' : Nat → Nat} {rows cols n : Nat} (h : Transpose inp out out' rows cols n (rows * cols))
    (hx : cols ≤ (transposeGrid rows cols).1 * 16) (hy : rows ≤ (transposeGrid rows cols).2 * 16) :
    (∀ z r c, z < n → r < rows → c < cols → out' (z * (rows * cols) + (c * rows + r)) = inp (z * (rows * cols) + (r * cols + c))) ∧
    ∀ a, n * (rows * cols) ≤ a → out' a = out a := by
  obtain ⟨order, garbage, ws, ho, hw, rfl⟩ := h
  have hlt : ∀ r c, r < rows → c < cols → c * rows + r < rows * cols := by
    intro r c hr hc
    have := mul_add_lt hc hr
    rw [Nat.mul_comm rows cols]
    exact this
  constructor
  · intro z r c hz hr hc
    apply applyWrites_mem
    · exact hw.mem_iff.2 (transposeOut_mem ho hz hr hc (by omega) (by omega))
    · intro w hm e
      obtain ⟨z', r', c', hz', hr', hc', rfl⟩ := transposeOut_inv ho (hw.mem_iff.1 hm)
      obtain ⟨e1, e2⟩ := mul_add_inj (hlt r' c' hr' hc') (hlt r c hr hc) e
      obtain ⟨e3, e4⟩ := mul_add_inj hr' hr e2
      subst e1 e3 e4
      rfl
  · intro a ha
    apply applyWrites_not
    intro w hm
    obtain ⟨z', r', c', hz', hr', hc', rfl⟩ := transposeOut_inv ho (hw.mem_iff.1 hm)
    have := mul_add_lt hz' (hlt r' c' hr' hc')
    simp only
    omega

theorem transpose_exists (inp out : Nat → Nat) (rows cols n stride : Nat) : ∃ out', Transpose inp out out' rows cols n stride :=
  ⟨_, fun _ _ _ => threads16, fun _ _ _ _ => 0, _, fun _ _ _ => .refl _, .refl _, rfl⟩

theorem transposeGrid_ok {rows cols : Nat} (hr : rows ≤ 1048560) (hc : cols ≤ 1048560) :
    cols ≤ (transposeGrid rows cols).1 * 16 ∧ rows ≤ (transposeGrid rows cols).2 * 16 := by
  unfold transposeGrid u32
  simp only
  omega

/-- Offsets after phase 2 -/
theorem phase2_spec {p : Plan} {m m' : Nat → Nat} (h : p.Phase2 m m') (hR : 0 < p.R) (hb : 0 < p.bc)
    (h32 : p.R * p.bc < 2 ^ 32) (hB : p.psumBlock = p.R * p.bc) (hS : p.psum = p.n * (p.R * p.bc))
    (hg : 1 < p.R → p.R ≤ 1048560 ∧ p.bc ≤ 1048560) {g r v : Nat} (h1 : g < p.n) (h2 : r < p.R) (h3 : v < p.bc) :
    m' (g * (p.R * p.bc) + (r * p.bc + v)) =
      ((List.range (v * p.R + r)).map fun t => m (g * (p.R * p.bc) + (t % p.R * p.bc + t / p.R))).sum := by
  have hu : u32 (p.R * p.bc) = p.R * p.bc := Nat.mod_eq_of_lt h32
  unfold Plan.Phase2 at h
  rw [hu] at h
  by_cases h1R : 1 < p.R
  · rw [if_pos h1R] at h
    obtain ⟨b₀, b₁, t1, t2⟩ := h
    obtain ⟨g1, g2⟩ := hg h1R
    obtain ⟨x1, y1⟩ := transposeGrid_ok g1 g2
    obtain ⟨x2, y2⟩ := transposeGrid_ok g2 g1
    obtain ⟨s1, _⟩ := transpose_spec t1 x1 y1
    rw [Nat.mul_comm p.R p.bc] at t2
    obtain ⟨s2, _⟩ := transpose_spec t2 x2 y2
    have e := s2 g v r h1 h3 h2
    rw [Nat.mul_comm p.bc p.R] at e
    rw [e]
    have hlt : v * p.R + r < p.R * p.bc := by
      have := mul_add_lt h3 h2
      rw [Nat.mul_comm p.R p.bc]
      exact this
    have hd : (g * (p.R * p.bc) + (v * p.R + r)) / (p.R * p.bc) = g := by
      rw [Nat.mul_comm g, Nat.mul_add_div (by omega), Nat.div_eq_of_lt hlt, Nat.add_zero]
    have hm : (g * (p.R * p.bc) + (v * p.R + r)) % (p.R * p.bc) = v * p.R + r := by
      rw [Nat.mul_comm g, Nat.mul_add_mod, Nat.mod_eq_of_lt hlt]
    unfold prefixSum
    rw [hS, hB, if_pos (mul_add_lt h1 hlt), hd, hm]
    congr 1
    apply List.map_congr_left
    intro t ht
    have ht := List.mem_range.1 ht
    have hv : t / p.R < p.bc := by
      rw [Nat.div_lt_iff_lt_mul hR, Nat.mul_comm]
      omega
    have hk := s1 g (t % p.R) (t / p.R) h1 (Nat.mod_lt _ hR) hv
    have e2 : t / p.R * p.R + t % p.R = t := by
      rw [Nat.mul_comm]
      exact Nat.div_add_mod t p.R
    rw [e2] at hk
    exact hk
  · rw [if_neg h1R] at h
    have hR1 : p.R = 1 := by omega
    have hr0 : r = 0 := by omega
    subst hr0
    rw [h, hR1]
    have hlt : v < 1 * p.bc := by omega
    rw [hR1] at hS hB
    have hd : (g * (1 * p.bc) + (0 * p.bc + v)) / (1 * p.bc) = g := by
      rw [Nat.zero_mul, Nat.zero_add, Nat.mul_comm g, Nat.mul_add_div (by omega), Nat.div_eq_of_lt hlt, Nat.add_zero]
    have hm : (g * (1 * p.bc) + (0 * p.bc + v)) % (1 * p.bc) = v := by
      rw [Nat.zero_mul, Nat.zero_add, Nat.mul_comm g, Nat.mul_add_mod, Nat.mod_eq_of_lt hlt]
    have hl : g * (1 * p.bc) + (0 * p.bc + v) < p.n * (1 * p.bc) := by
      rw [Nat.zero_mul, Nat.zero_add]
      exact mul_add_lt h1 hlt
    unfold prefixSum
    rw [hS, hB, if_pos hl, hd, hm]
    simp [Nat.mod_one]

theorem phase2_exists (p : Plan) (m : Nat → Nat) : ∃ m', p.Phase2 m m' := by
  unfold Plan.Phase2
  by_cases h : 1 < p.R
  · simp only [if_pos h]
    obtain ⟨b₁, h1⟩ := transpose_exists m (fun _ => 0) p.R p.bc p.n (u32 (p.R * p.bc))
    obtain ⟨m', h2⟩ := transpose_exists (prefixSum p.psum p.psumBlock b₁) m p.bc p.R p.n (u32 (p.R * p.bc))
    exact ⟨m', _, _, h1, h2⟩
  · simp only [if_neg h]
    exact ⟨_, rfl⟩

end Verif.CudaPerm
