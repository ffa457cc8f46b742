import Verif.CudaPerm.Rows

/-! Phases 1, 2 and 4 together -/

namespace Verif.CudaPerm

/-! ### Histograms in memory -/

theorem Good.rpos {p : Plan} (h : Good p) : 0 < p.R := by
  have := h.gpos
  have := Nat.mul_pos h.gpos h.wpos
  rw [h.rows]
  split <;> omega

/-- Where a histogram entry in shared memory is stored in global memory -/
theorem Good.slot_addr {p : Plan} (h : Good p) (hl : p.variant ≠ .large) {g r b : Nat} (hg : g < p.n) (hr : r < p.R) (hb : b < p.bc) :
    (p.slotOf g r b).1 < p.n * p.G ∧ (p.slotOf g r b).2 < p.slots ∧
    (p.slotOf g r b).1 * p.slots + (p.slotOf g r b).2 = g * (p.R * p.bc) + (r * p.bc + b) := by
  unfold Plan.slotOf Plan.slot Plan.slots
  rw [h.rows] at hr ⊢
  cases hv : p.variant with
  | large => exact absurd hv hl
  | tiny =>
    rw [if_pos hv] at hr
    have hrG : r / p.W < p.G := by
      rw [Nat.div_lt_iff_lt_mul h.wpos]
      exact hr
    have hm := Nat.mod_lt r h.wpos
    simp only [if_true]
    refine ⟨mul_add_lt hg hrG, ?_, ?_⟩
    · rw [Nat.mul_comm p.bc p.W]
      exact mul_add_lt hm hb
    · have e : r * p.bc = (r / p.W) * (p.bc * p.W) + (r % p.W) * p.bc := by
        have e1 := Nat.div_add_mod r p.W
        conv => lhs; rw [← e1]
        rw [Nat.add_mul, Nat.mul_comm p.bc p.W, ← Nat.mul_assoc, Nat.mul_comm (r / p.W) p.W]
      have e2 : g * (p.G * p.W * p.bc) = g * p.G * (p.bc * p.W) := by
        rw [Nat.mul_assoc p.G, Nat.mul_comm p.W p.bc, ← Nat.mul_assoc]
      rw [e, Nat.add_mul, e2]
      omega
  | small =>
    rw [if_neg (by rw [hv]; simp)] at hr
    simp only [if_neg (show ¬ Variant.small = Variant.tiny by simp)]
    refine ⟨mul_add_lt hg hr, hb, ?_⟩
    rw [Nat.add_mul, Nat.mul_assoc]
    omega

theorem Good.slot_large {p : Plan} (h : Good p) (hl : p.variant = .large) {g r b : Nat} :
    p.slotOf g r b = (0, g * (p.R * p.bc) + (r * p.bc + b)) := by
  unfold Plan.slotOf Plan.slot
  rw [h.rows, hl]
  simp only [if_neg (show ¬ Variant.large = Variant.tiny by simp), Prod.mk.injEq, true_and]
  rw [Nat.add_mul, Nat.mul_assoc]
  omega

theorem Good.addr_lt {p : Plan} (h : Good p) {g r b : Nat} (hg : g < p.n) (hr : r < p.R) (hb : b < p.bc) :
    g * (p.R * p.bc) + (r * p.bc + b) < p.psum := by
  rw [h.entries]
  exact mul_add_lt hg (mul_add_lt hr hb)

theorem Good.phase1 {p : Plan} (h : Good p) {v m m' : Nat → Nat} (h1 : p.Phase1 v m m') {g r b : Nat} (hg : g < p.n) (hr : r < p.R)
    (hb : b < p.bc) : m' (g * (p.R * p.bc) + (r * p.bc + b)) = (p.E (p.events v) (p.slotOf g r b)).length := by
  have hW : 0 < 32 * p.W := by have := h.wpos; omega
  unfold Plan.Phase1 at h1
  by_cases hl : p.variant = .large
  · rw [hl] at h1
    obtain ⟨σ, hσ, rfl⟩ := h1
    simp only
    rw [count_spec, if_pos (h.addr_lt hg hr hb), Nat.zero_add, (p.E_perm hσ _).length_eq, h.slot_large hl]
  · have h1 : ∃ (garbage : Nat × Nat → Nat) (zs : List ((Nat × Nat) × Nat)) (σ : List Ev) (ws : List (Nat × Nat)),
      zs.Perm p.zeros ∧ σ.Perm (p.events v) ∧ ws.Perm (p.copyOut (σ.foldl p.count (applyWrites zs garbage))) ∧
      m' = applyWrites ws m := by
      cases hc : p.variant <;> rw [hc] at h1
      · exact h1
      · exact h1
      · exact absurd hc hl
    obtain ⟨garbage, zs, σ, ws, hz, hσ, hws, rfl⟩ := h1
    obtain ⟨a1, a2, a3⟩ := h.slot_addr hl hg hr hb
    have hz0 : applyWrites zs garbage (p.slotOf g r b) = 0 := by
      apply applyWrites_mem
      · exact hz.mem_iff.2 (copy_mem hW (fun b i => ((b, i), 0)) a1 a2)
      · intro w hw _
        obtain ⟨_, _, _, _, rfl⟩ := copy_inv hW _ (hz.mem_iff.1 hw)
        rfl
    have hc : σ.foldl p.count (applyWrites zs garbage) (p.slotOf g r b) = (p.E (p.events v) (p.slotOf g r b)).length := by
      rw [count_spec, hz0, Nat.zero_add, (p.E_perm hσ _).length_eq]
    rw [← hc, ← a3]
    apply applyWrites_mem
    · exact hws.mem_iff.2 (copy_mem hW (fun b i => (b * p.slots + i, _)) a1 a2)
    · intro w hw e
      obtain ⟨b', i', _, hi', rfl⟩ := copy_inv hW _ (hws.mem_iff.1 hw)
      obtain ⟨e1, e2⟩ := mul_add_inj hi' a2 e
      subst e1 e2
      rfl

/-- Initial contents of the histograms in phase 4 -/
theorem Good.phase4 {p : Plan} (h : Good p) {v m perm perm' : Nat → Nat} (h4 : p.Phase4 v m perm perm') :
    ∃ (σ : List Ev) (h0 : Nat × Nat → Nat), p.Order4 v σ ∧ perm' = (σ.foldl p.place (h0, perm)).2 ∧
      ∀ g r b, g < p.n → r < p.R → b < p.bc → h0 (p.slotOf g r b) = m (g * (p.R * p.bc) + (r * p.bc + b)) := by
  have hW : 0 < 32 * p.W := by have := h.wpos; omega
  obtain ⟨σ, ho, h4⟩ := h4
  by_cases hl : p.variant = .large
  · rw [hl] at h4
    exact ⟨σ, _, ho, h4, fun g r b _ _ _ => by rw [h.slot_large hl]⟩
  · have h4 : ∃ (garbage : Nat × Nat → Nat) (ws : List ((Nat × Nat) × Nat)),
        ws.Perm (p.copyIn m) ∧ perm' = (σ.foldl p.place (applyWrites ws garbage, perm)).2 := by
      cases hc : p.variant <;> rw [hc] at h4
      · exact h4
      · exact h4
      · exact absurd hc hl
    obtain ⟨garbage, ws, hw, h4⟩ := h4
    refine ⟨σ, _, ho, h4, fun g r b hg hr hb => ?_⟩
    obtain ⟨a1, a2, a3⟩ := h.slot_addr hl hg hr hb
    rw [← a3]
    apply applyWrites_mem
    · exact hw.mem_iff.2 (copy_mem hW (fun b i => ((b, i), m (b * p.slots + i))) a1 a2)
    · intro w hm e
      obtain ⟨b', i', _, hi', rfl⟩ := copy_inv hW _ (hw.mem_iff.1 hm)
      simp only at e ⊢
      rw [← e]

/-! ### Steps -/

theorem mem_events {p : Plan} {v : Nat → Nat} {e : Ev} (he : e ∈ p.events v) :
    e.g < p.n ∧ e.sub < p.G ∧ e.w < p.W ∧ e.base ∈ p.bases e.g e.sub e.w ∧
    e.lanes = (p.active e.g e.sub e.base).filter (fun k => v (e.base + k) = e.val) ∧
    ∃ l ∈ e.lanes, v (e.base + l) = e.val ∧ e.base + l < p.size := by
  unfold Plan.events Plan.iter at he
  simp only [List.mem_flatMap, List.mem_range, List.mem_map, List.mem_filter, decide_eq_true_eq] at he
  obtain ⟨g, hg, sub, hs, w, hw, base, hb, l, ⟨hl, hh⟩, rfl⟩ := he
  refine ⟨hg, hs, hw, hb, rfl, l, List.mem_of_head? hh, rfl, ?_⟩
  exact act_lt (List.mem_map.2 ⟨l, hl, rfl⟩)

theorem Good.event_slot {p : Plan} (h : Good p) {v : Nat → Nat} (hv : ∀ i, i < p.size → v i < p.bc) {e : Ev} (he : e ∈ p.events v) :
    ∃ r, r < p.R ∧ e.val < p.bc ∧ p.slotE e = p.slotOf e.g r e.val := by
  obtain ⟨_, hs, hw, _, _, l, _, h1, h2⟩ := mem_events he
  have hb : e.val < p.bc := by rw [← h1]; exact hv _ h2
  rw [h.rows]
  by_cases ht : p.variant = .tiny
  · refine ⟨e.sub * p.W + e.w, by rw [if_pos ht]; exact mul_add_lt hs hw, hb, ?_⟩
    unfold Plan.slotE Plan.slotOf
    rw [if_pos ht, show (e.sub * p.W + e.w) / p.W = e.sub by rw [Nat.mul_comm, Nat.mul_add_div h.wpos, Nat.div_eq_of_lt hw, Nat.add_zero],
      show (e.sub * p.W + e.w) % p.W = e.w by rw [Nat.mul_comm, Nat.mul_add_mod, Nat.mod_eq_of_lt hw]]
  · refine ⟨e.sub, by rw [if_neg ht]; exact hs, hb, ?_⟩
    unfold Plan.slotE Plan.slotOf Plan.slot
    rw [if_neg ht]
    cases hc : p.variant with
    | tiny => exact absurd hc ht
    | small => rfl
    | large => rfl

theorem slotOf_inj {p : Plan} (h : Good p) {g r b g' r' b' : Nat} (hr : r < p.R) (hb : b < p.bc) (hr' : r' < p.R)
    (hb' : b' < p.bc) (e : p.slotOf g r b = p.slotOf g' r' b') : g = g' ∧ r = r' ∧ b = b' := by
  by_cases ht : p.variant = .tiny
  · have e' : p.slot g (r / p.W) (r % p.W) b = p.slotOf g' r' b' := by
      rw [← e]
      unfold Plan.slotOf
      rw [if_pos ht]
    have hrG : r / p.W < p.G := by
      rw [Nat.div_lt_iff_lt_mul h.wpos]
      rw [h.rows, if_pos ht] at hr
      exact hr
    obtain ⟨e1, e2, e3, e4⟩ := h.slot_tiny ht hrG hb hr' hb' e'
    refine ⟨e1, ?_, e4⟩
    rw [← Nat.div_add_mod r p.W, ← Nat.div_add_mod r' p.W, e2, e3]
  · have e' : p.slot g r 0 b = p.slotOf g' r' b' := by
      rw [← e]
      unfold Plan.slotOf
      rw [if_neg ht]
    have hrG : r < p.G := by
      rw [h.rows, if_neg ht] at hr
      exact hr
    obtain ⟨e1, e2, e3⟩ := h.slot_other ht hrG hb hr' hb' e'
    exact ⟨e1, e2, e3⟩

/-! ### Sums and lists -/

theorem length_flatMap_range {α : Type} (N : Nat) (F : Nat → List α) :
    ((List.range N).flatMap F).length = ((List.range N).map fun t => (F t).length).sum := by
  rw [List.length_flatMap]

theorem sum_range_succ' (f : Nat → Nat) (t : Nat) : ((List.range (t + 1)).map f).sum = ((List.range t).map f).sum + f t := by
  rw [List.range_succ, List.map_append, List.sum_append]
  simp

theorem sum_range_mono (f : Nat → Nat) {t t' : Nat} (h : t ≤ t') : ((List.range t).map f).sum ≤ ((List.range t').map f).sum := by
  induction t' with
  | zero => rw [show t = 0 by omega]; exact Nat.le_refl _
  | succ n ih =>
    by_cases e : t = n + 1
    · rw [e]; exact Nat.le_refl _
    · have := ih (by omega)
      rw [sum_range_succ']
      omega

theorem slice_concat (f : Nat → Nat) (A : Nat) (F : Nat → List Nat) (N : Nat)
    (h : ∀ t j (_ : t < N) (hj : j < (F t).length), f (A + ((List.range t).map fun k => (F k).length).sum + j) = (F t)[j]) :
    (List.range' A ((List.range N).map fun k => (F k).length).sum).map f = (List.range N).flatMap F := by
  induction N with
  | zero => simp
  | succ N ih =>
    rw [sum_range_succ', ← List.range'_append_1, List.map_append, ih (fun t j ht hj => h t j (by omega) hj), List.range_succ,
      List.flatMap_append]
    congr 1
    simp only [List.flatMap_cons, List.flatMap_nil, List.append_nil]
    apply List.ext_getElem
    · simp
    · intro j h1 h2
      rw [List.getElem_map, List.getElem_range']
      rw [Nat.one_mul]
      exact h N j (by omega) h2

theorem sum_indicator (bc x : Nat) (h : x < bc) : ((List.range bc).map fun b => if x = b then 1 else 0).sum = 1 := by
  have h0 : ∀ n, n ≤ x → ((List.range n).map fun b => if x = b then 1 else 0).sum = 0 := by
    intro n
    induction n with
    | zero => intro _; rfl
    | succ n ih => intro hn; rw [sum_range_succ', ih (by omega), if_neg (by omega)]
  induction bc with
  | zero => omega
  | succ n ih =>
    rw [sum_range_succ']
    by_cases e : x = n
    · rw [h0 n (by omega), if_pos e]
    · rw [ih (by omega), if_neg e]

theorem sum_map_add' (l : List Nat) (f g : Nat → Nat) : (l.map fun x => f x + g x).sum = (l.map f).sum + (l.map g).sum := by
  induction l with
  | nil => rfl
  | cons a l ih => simp only [List.map_cons, List.sum_cons, ih]; omega

/-- The sizes of all buckets add up. -/
theorem sum_buckets (bc : Nat) (v : Nat → Nat) (l : List Nat) (h : ∀ i ∈ l, v i < bc) :
    ((List.range bc).map fun b => (l.filter fun i => v i = b).length).sum = l.length := by
  induction l with
  | nil => simp
  | cons a l ih =>
    have e : ∀ b, ((a :: l).filter fun i => v i = b).length = (l.filter fun i => v i = b).length + if v a = b then 1 else 0 := by
      intro b
      rw [List.filter_cons]
      by_cases hb : v a = b <;> simp [hb]
    simp only [e]
    rw [sum_map_add', ih (fun i hi => h i (List.mem_cons_of_mem _ hi)), sum_indicator bc (v a) (h a List.mem_cons_self), List.length_cons]

/-! ### Groups -/

/-- Elements of a group -/
def Plan.group (p : Plan) (g : Nat) : List Nat := List.range' (g * p.bs) (min p.bs (p.size - g * p.bs))

theorem mem_group {p : Plan} {g i : Nat} (h : i ∈ p.group g) : i < p.size := by
  unfold Plan.group at h
  rw [List.mem_range'_1] at h
  omega

/-- List of elements of the `t`-th histogram entry of a group (bucket by bucket, and row by row within a bucket) -/
def Plan.F (p : Plan) (σ : List Ev) (g t : Nat) : List Nat := p.E σ (p.slotOf g (t % p.R) (t / p.R))

theorem Good.F_index {p : Plan} (h : Good p) (σ : List Ev) (g : Nat) {r b : Nat} (hr : r < p.R) : p.F σ g (b * p.R + r) = p.E σ (p.slotOf g r b) := by
  unfold Plan.F
  rw [show (b * p.R + r) / p.R = b by rw [Nat.mul_comm, Nat.mul_add_div h.rpos, Nat.div_eq_of_lt hr, Nat.add_zero],
    show (b * p.R + r) % p.R = r by rw [Nat.mul_comm, Nat.mul_add_mod, Nat.mod_eq_of_lt hr]]

theorem Good.F_flat {p : Plan} (h : Good p) (σ : List Ev) (g : Nat) (bc : Nat) :
    (List.range (bc * p.R)).flatMap (p.F σ g) = (List.range bc).flatMap fun b => (List.range p.R).flatMap fun r => p.E σ (p.slotOf g r b) := by
  rw [flatMap_range_mul]
  simp only [List.flatMap_def]
  congr 1
  apply List.map_congr_left
  intro b _
  congr 1
  apply List.map_congr_left
  intro r hr
  exact h.F_index σ g (List.mem_range.1 hr)

theorem Good.bucket {p : Plan} (h : Good p) {v : Nat → Nat} (hv : ∀ i, i < p.size → v i < p.bc) {σ : List Ev} (hσ : σ.Perm (p.events v))
    {g b : Nat} (hg : g < p.n) (hb : b < p.bc) :
    ((List.range p.R).flatMap fun r => p.E σ (p.slotOf g r b)).Perm ((p.group g).filter fun i => v i = b) := by
  refine (perm_flatMap_congr _ _ (fun r => (p.rowElems g r).filter fun i => v i = b) ?_).trans ?_
  · intro r hr
    rw [← h.E_events hv hg (List.mem_range.1 hr) hb]
    exact p.E_perm hσ _
  · rw [← flatMap_filter]
    exact (h.group_perm hg).filter _

/-- Offset of the first element of bucket `b` (of row 0) of a group -/
theorem Good.sum_before {p : Plan} (h : Good p) {v : Nat → Nat} (hv : ∀ i, i < p.size → v i < p.bc) {σ : List Ev} (hσ : σ.Perm (p.events v))
    {g b : Nat} (hg : g < p.n) (hb : b ≤ p.bc) :
    ((List.range (b * p.R)).map fun t => (p.F σ g t).length).sum =
      ((List.range b).map fun b => ((p.group g).filter fun i => v i = b).length).sum := by
  rw [← length_flatMap_range, h.F_flat, List.length_flatMap]
  congr 1
  apply List.map_congr_left
  intro c hc
  have hc := List.mem_range.1 hc
  exact (h.bucket hv hσ hg (by omega)).length_eq

theorem Good.sum_total {p : Plan} (h : Good p) {v : Nat → Nat} (hv : ∀ i, i < p.size → v i < p.bc) {σ : List Ev} (hσ : σ.Perm (p.events v))
    {g : Nat} (hg : g < p.n) :
    ((List.range (p.bc * p.R)).map fun t => (p.F σ g t).length).sum = min p.bs (p.size - g * p.bs) := by
  rw [h.sum_before hv hσ hg (Nat.le_refl _), sum_buckets p.bc v (p.group g) (fun i hi => hv i (mem_group hi))]
  unfold Plan.group
  rw [List.length_range']

/-! ### Placement -/

/-- Group of a histogram entry -/
def Plan.slotGroup (p : Plan) (s : Nat × Nat) : Nat := match p.variant with | .large => s.2 / p.bc / p.G | _ => s.1 / p.G

theorem Good.slotGroup {p : Plan} (h : Good p) {g sub w val : Nat} (hs : sub < p.G) (hv : val < p.bc) :
    p.slotGroup (p.slot g sub w val) = g := by
  have e : (g * p.G + sub) / p.G = g := by rw [Nat.mul_comm, Nat.mul_add_div h.gpos, Nat.div_eq_of_lt hs, Nat.add_zero]
  unfold Plan.slotGroup Plan.slot
  cases hc : p.variant
  · exact e
  · exact e
  · simp only
    rw [show ((g * p.G + sub) * p.bc + val) / p.bc = g * p.G + sub by
      rw [Nat.mul_comm, Nat.mul_add_div h.cpos, Nat.div_eq_of_lt hv, Nat.add_zero], e]

theorem E_ne {p : Plan} {σ : List Ev} {s : Nat × Nat} {j : Nat} (hj : j < (p.E σ s).length) : ∃ e ∈ σ, p.slotE e = s := by
  unfold Plan.E at hj
  cases hc : σ.filter fun e => p.slotE e = s with
  | nil => rw [hc] at hj; simp at hj
  | cons e l =>
    have : e ∈ σ.filter fun e => p.slotE e = s := by rw [hc]; exact List.mem_cons_self
    rw [List.mem_filter] at this
    exact ⟨e, this.1, by simpa using this.2⟩

/-- Phases 1, 2 and 4 -/
theorem Good.main {p : Plan} (h : Good p) {v m₀ m₁ m₂ perm perm' : Nat → Nat} (hv : ∀ i, i < p.size → v i < p.bc)
    (h1 : p.Phase1 v m₀ m₁) (h2 : p.Phase2 m₁ m₂) (h4 : p.Phase4 v m₂ perm perm') :
    ∃ σ, p.Order4 v σ ∧ (∀ g, g < p.n → (p.group g).map perm' = (List.range p.bc).flatMap fun b => (List.range p.R).flatMap fun r => p.E σ (p.slotOf g r b)) ∧
      ∀ a, p.size ≤ a → perm' a = perm a := by
  obtain ⟨σ, h0, ho, rfl, hh⟩ := h.phase4 h4
  have hσ := ho.1
  -- initial offsets
  have hoff : ∀ g r b, g < p.n → r < p.R → b < p.bc → h0 (p.slotOf g r b) = ((List.range (b * p.R + r)).map fun t => (p.F σ g t).length).sum := by
    intro g r b hg hr hb
    rw [hh g r b hg hr hb, phase2_spec h2 h.rpos h.cpos h.b32 h.block h.entries h.grid hg hr hb]
    congr 1
    apply List.map_congr_left
    intro t ht
    have ht := List.mem_range.1 ht
    have htb : t / p.R < p.bc := by
      rw [Nat.div_lt_iff_lt_mul h.rpos]
      have := mul_add_lt hb hr
      omega
    rw [h.phase1 h1 hg (Nat.mod_lt _ h.rpos) htb, Plan.F, (p.E_perm hσ _).length_eq]
  -- steps and their entries
  have hev : ∀ s j, j < (p.E σ s).length → ∃ g r b, g < p.n ∧ r < p.R ∧ b < p.bc ∧ s = p.slotOf g r b ∧ p.slotGroup s = g := by
    intro s j hj
    obtain ⟨e, he, rfl⟩ := E_ne hj
    have he := hσ.mem_iff.1 he
    obtain ⟨r, hr, hb, hs⟩ := h.event_slot hv he
    exact ⟨e.g, r, e.val, (mem_events he).1, hr, hb, hs, h.slotGroup (mem_events he).2.1 hb⟩
  have hrange : ∀ g r b j, g < p.n → r < p.R → b < p.bc → j < (p.E σ (p.slotOf g r b)).length →
      ((List.range (b * p.R + r)).map fun t => (p.F σ g t).length).sum + j <
        ((List.range (b * p.R + r + 1)).map fun t => (p.F σ g t).length).sum ∧
      ((List.range (b * p.R + r)).map fun t => (p.F σ g t).length).sum + j < min p.bs (p.size - g * p.bs) := by
    intro g r b j hg hr hb hj
    have hs := sum_range_succ' (fun t => (p.F σ g t).length) (b * p.R + r)
    rw [h.F_index σ g hr] at hs
    have hm := sum_range_mono (fun t => (p.F σ g t).length) (show b * p.R + r + 1 ≤ p.bc * p.R from mul_add_lt hb hr)
    rw [h.sum_total hv hσ hg] at hm
    omega
  have hst : ∀ g, g < p.n → p.groupStart g = g * p.bs := fun g hg => (h.starts hg h.gpos).1
  obtain ⟨q1, q2⟩ := place_spec p σ h0 perm (fun s => p.groupStart (p.slotGroup s))
    (fun e he => by
      rw [(mem_events (hσ.mem_iff.1 he)).2.2.2.2.1]
      exact (active_sorted p e.g e.sub e.base).filter _)
    (fun e he => by
      obtain ⟨r, _, hb, _⟩ := h.event_slot hv (hσ.mem_iff.1 he)
      rw [Plan.slotE, h.slotGroup (mem_events (hσ.mem_iff.1 he)).2.1 hb])
    (by
      intro s s' j j' hj hj' e
      obtain ⟨g, r, b, hg, hr, hb, rfl, hgr⟩ := hev s j hj
      obtain ⟨g', r', b', hg', hr', hb', rfl, hgr'⟩ := hev s' j' hj'
      simp only [hgr, hgr', hst g hg, hst g' hg', hoff g r b hg hr hb, hoff g' r' b' hg' hr' hb'] at e
      obtain ⟨a1, a2⟩ := hrange g r b j hg hr hb hj
      obtain ⟨a3, a4⟩ := hrange g' r' b' j' hg' hr' hb' hj'
      rw [Nat.add_assoc, Nat.add_assoc] at e
      obtain ⟨e1, e2⟩ := mul_add_inj (by omega) (by omega) e
      subst e1
      have ht : b * p.R + r = b' * p.R + r' := by
        rcases Nat.lt_trichotomy (b * p.R + r) (b' * p.R + r') with hlt | heq | hgt
        · have := sum_range_mono (fun t => (p.F σ g t).length) (show b * p.R + r + 1 ≤ b' * p.R + r' from hlt)
          omega
        · exact heq
        · have := sum_range_mono (fun t => (p.F σ g t).length) (show b' * p.R + r' + 1 ≤ b * p.R + r from hgt)
          omega
      obtain ⟨e3, e4⟩ := mul_add_inj hr hr' ht
      rw [e3, e4])
  refine ⟨σ, ho, fun g hg => ?_, fun a ha => ?_⟩
  · rw [← h.F_flat, ← slice_concat (σ.foldl p.place (h0, perm)).2 (g * p.bs) (p.F σ g)]
    · rw [h.sum_total hv hσ hg]
      rfl
    · intro t j ht hj
      have hr := Nat.mod_lt t h.rpos
      have hb : t / p.R < p.bc := by
        rw [Nat.div_lt_iff_lt_mul h.rpos]
        exact ht
      have htt : t / p.R * p.R + t % p.R = t := by
        rw [Nat.mul_comm]
        exact Nat.div_add_mod t p.R
      obtain ⟨g', r', b', hg', hr', hb', e, hgr⟩ := hev (p.slotOf g (t % p.R) (t / p.R)) j hj
      obtain ⟨e1, _, _⟩ := slotOf_inj h hr hb hr' hb' e
      have := q1 (p.slotOf g (t % p.R) (t / p.R)) j hj
      simp only [hgr, ← e1, hst g hg, hoff g _ _ hg hr hb, htt] at this
      exact this
  · apply q2
    intro s j hj
    obtain ⟨g, r, b, hg, hr, hb, rfl, hgr⟩ := hev s j hj
    simp only [hgr, hst g hg, hoff g r b hg hr hb]
    obtain ⟨a1, a2⟩ := hrange g r b j hg hr hb hj
    omega

/-! ### The tiny variant is stable -/

theorem Good.stable {p : Plan} (h : Good p) (ht : p.variant = .tiny) {v : Nat → Nat} (hv : ∀ i, i < p.size → v i < p.bc) {σ : List Ev}
    (ho : p.Order4 v σ) {g r b : Nat} (hg : g < p.n) (hr : r < p.R) (hb : b < p.bc) :
    p.E σ (p.slotOf g r b) = (p.rowElems g r).filter fun i => v i = b := by
  have hrG : r / p.W < p.G := by
    rw [Nat.div_lt_iff_lt_mul h.wpos]
    have hr := hr
    rw [h.rows, if_pos ht] at hr
    exact hr
  have hw := Nat.mod_lt r h.wpos
  obtain ⟨q, hq, _, q2⟩ := h.perWarp hg hrG
  have hbases := h.bases_tiny ht hg hrG hw hq q2
  have hp := p.E_perm ho.1 (p.slotOf g r b)
  rw [h.E_events hv hg hr hb] at hp
  have hY : ((p.rowElems g r).filter fun i => v i = b).Pairwise (· < ·) := by
    apply List.Pairwise.filter
    unfold Plan.rowElems
    rw [if_pos ht, hbases, act_chunks]
    apply List.Pairwise.filter
    exact List.pairwise_lt_range'
  have hnd : (p.E σ (p.slotOf g r b)).Nodup := hp.nodup_iff.2 (hY.imp Nat.ne_of_lt)
  refine List.Perm.eq_of_pairwise (le := (· < ·)) (fun x y _ _ h1 h2 => by omega) ?_ hY hp
  have hmem : ∀ e ∈ σ.filter (fun e => p.slotE e = p.slotOf g r b), e ∈ p.events v ∧ e.g = g ∧ e.sub = r / p.W ∧ e.w = r % p.W ∧ e.val = b := by
    intro e he
    rw [List.mem_filter] at he
    have he1 := ho.1.mem_iff.1 he.1
    obtain ⟨_, _, hvb, _⟩ := h.event_slot hv he1
    obtain ⟨x1, x2, x3, x4⟩ := h.slot_tiny ht (mem_events he1).2.1 hvb hr hb (of_decide_eq_true he.2)
    exact ⟨he1, x1, x2, x3, x4⟩
  have hord := (ho.2 ht).filter (fun e => p.slotE e = p.slotOf g r b)
  unfold Plan.E at hnd ⊢
  rw [List.nodup_flatMap] at hnd
  rw [List.pairwise_flatMap]
  constructor
  · intro e he
    unfold Ev.elems
    rw [List.pairwise_map, (mem_events (hmem e he).1).2.2.2.2.1]
    exact ((active_sorted p e.g e.sub e.base).filter _).imp (fun h => by omega)
  · refine List.Pairwise.imp_of_mem ?_ (hord.and hnd.2)
    intro e e' he he' hoe x hx y hy
    obtain ⟨he1, x1, x2, x3, x4⟩ := hmem e he
    obtain ⟨he1', x1', x2', x3', x4'⟩ := hmem e' he'
    obtain ⟨_, _, _, hb1, hl1, l, hl, _, _⟩ := mem_events he1
    obtain ⟨_, _, _, hb2, hl2, _⟩ := mem_events he1'
    have hle := hoe.1 (by rw [x1, x1']) (by rw [x2, x2']) (by rw [x3, x3'])
    have hne : e.base ≠ e'.base := by
      intro hbe
      have : e.elems = e'.elems := by
        unfold Ev.elems
        rw [hl1, hl2, x1, x2, x1', x2', x4, x4', hbe]
      have hd := hoe.2
      unfold Function.onFun at hd
      rw [this] at hd
      have hx' : x ∈ e'.elems := by rw [← this]; exact hx
      exact hd hx' hx'
    rw [x1, x2, x3, hbases] at hb1
    rw [x1', x2', x3', hbases] at hb2
    simp only [List.mem_map, List.mem_range] at hb1 hb2
    obtain ⟨k, _, hk⟩ := hb1
    obtain ⟨k', _, hk'⟩ := hb2
    unfold Ev.elems at hx hy
    rw [List.mem_map] at hx hy
    obtain ⟨a, ha, rfl⟩ := hx
    obtain ⟨a', _, rfl⟩ := hy
    have ha32 : a < 32 := by
      rw [hl1, List.mem_filter] at ha
      have := ha.1
      unfold Plan.active at this
      rw [List.mem_filter, List.mem_range] at this
      exact this.1
    omega

end Verif.CudaPerm
