import Verif.CudaPerm.Place
import Verif.CudaPerm.Phase2

/-! Which elements belong to which histogram entry -/

namespace Verif.CudaPerm

/-- Facts about the plan (`mkPlan_good`) -/
structure Good (p : Plan) : Prop where
  spos : 0 < p.size
  bpos : 0 < p.bs
  cpos : 0 < p.bc
  gpos : 0 < p.G
  wpos : 0 < p.W
  w32 : p.W ≤ 32
  g16 : p.G ≤ 2 ^ 16
  nle : p.size ≤ p.n * p.bs
  nlt : (p.n - 1) * p.bs < p.size
  spb : p.spb = (p.bs + p.G - 1) / p.G
  fit : p.n * p.bs + 2 ^ 20 ≤ 2 ^ 32
  rows : p.R = if p.variant = .tiny then p.G * p.W else p.G
  entries : p.psum = p.n * (p.R * p.bc)
  block : p.psumBlock = p.R * p.bc
  b32 : p.R * p.bc < 2 ^ 32
  grid : 1 < p.R → p.R ≤ 1048560 ∧ p.bc ≤ 1048560

theorem u32_eq {x : Nat} (h : x < 2 ^ 32) : u32 x = x := Nat.mod_eq_of_lt h

/-- Last element of a group -/
def Plan.groupEnd (p : Plan) (g : Nat) : Nat := min (g * p.bs + p.bs) p.size

theorem Good.npos {p : Plan} (h : Good p) : 0 < p.n := by
  have h1 := h.nle
  have h2 := h.spos
  rcases Nat.eq_zero_or_pos p.n with h0 | h0
  · rw [h0, Nat.zero_mul] at h1
    omega
  · exact h0

theorem Good.bounds {p : Plan} (h : Good p) {g sub : Nat} (hg : g < p.n) (hs : sub < p.G) :
    g * p.bs + p.bs ≤ p.n * p.bs ∧ p.bs ≤ p.G * p.spb ∧ p.G * p.spb < p.bs + p.G ∧ sub * p.spb + p.spb ≤ p.G * p.spb ∧
    g * p.bs < p.size := by
  have h1 := Nat.mul_le_mul_right p.bs (show g + 1 ≤ p.n from hg)
  rw [Nat.add_mul, Nat.one_mul] at h1
  have h2 := Nat.mul_le_mul_right p.spb (show sub + 1 ≤ p.G from hs)
  rw [Nat.add_mul, Nat.one_mul] at h2
  have h3 := Nat.div_add_mod (p.bs + p.G - 1) p.G
  have h4 := Nat.mod_lt (p.bs + p.G - 1) h.gpos
  rw [← h.spb] at h3
  have h5 := Nat.mul_le_mul_right p.bs (show g ≤ p.n - 1 by omega)
  have := h.nlt
  have := h.gpos
  refine ⟨h1, by omega, by omega, h2, by omega⟩

theorem Good.starts {p : Plan} (h : Good p) {g sub : Nat} (hg : g < p.n) (hs : sub < p.G) :
    p.groupStart g = g * p.bs ∧ p.blockStart g sub = g * p.bs + sub * p.spb ∧
    p.blockEnd g sub = min (g * p.bs + sub * p.spb + p.spb) (p.groupEnd g) := by
  obtain ⟨b1, b2, b3, b4, b5⟩ := h.bounds hg hs
  have := h.fit
  have := h.g16
  have e1 : p.groupStart g = g * p.bs := u32_eq (by omega)
  have e2 : p.blockStart g sub = g * p.bs + sub * p.spb := by
    unfold Plan.blockStart
    rw [e1, u32_eq (x := sub * p.spb) (by omega), u32_eq (by omega)]
  refine ⟨e1, e2, ?_⟩
  unfold Plan.blockEnd Plan.groupEnd
  rw [e1, e2, u32_eq (x := g * p.bs + sub * p.spb + p.spb) (by omega), u32_eq (by omega)]

theorem Good.perWarp {p : Plan} (h : Good p) {g sub : Nat} (hg : g < p.n) (hs : sub < p.G) :
    ∃ q, p.perWarp g sub = q * 32 ∧ p.blockEnd g sub - p.blockStart g sub ≤ p.W * (q * 32) ∧
      p.W * (q * 32) ≤ p.spb + 33 * 32 := by
  obtain ⟨b1, b2, b3, b4, b5⟩ := h.bounds hg hs
  obtain ⟨e1, e2, e3⟩ := h.starts hg hs
  have hfit := h.fit
  have hg16 := h.g16
  have hw := h.wpos
  have hw32 := h.w32
  have ht : (if p.blockStart g sub < p.blockEnd g sub then p.blockEnd g sub - p.blockStart g sub else 0) =
      p.blockEnd g sub - p.blockStart g sub := by
    split <;> omega
  have htl : p.blockEnd g sub - p.blockStart g sub ≤ p.spb := by omega
  unfold Plan.perWarp
  simp only
  rw [ht]
  generalize p.blockEnd g sub - p.blockStart g sub = t at *
  have d1 := Nat.div_add_mod (t + p.W - 1) p.W
  have d2 := Nat.mod_lt (t + p.W - 1) hw
  have d3 := Nat.div_le_self (t + p.W - 1) p.W
  rw [u32_eq (x := t + p.W - 1) (by omega), u32_eq (by omega)]
  refine ⟨((t + p.W - 1) / p.W + 31) / 32, rfl, ?_, ?_⟩
  · have h1 : (t + p.W - 1) / p.W ≤ ((t + p.W - 1) / p.W + 31) / 32 * 32 := by omega
    have h2 := Nat.mul_le_mul_left p.W h1
    omega
  · have h1 : ((t + p.W - 1) / p.W + 31) / 32 * 32 ≤ (t + p.W - 1) / p.W + 31 := by omega
    have h2 := Nat.mul_le_mul_left p.W h1
    rw [Nat.mul_add] at h2
    omega

/-- Elements of one iteration of a warp -/
def Plan.act (p : Plan) (g sub base : Nat) : List Nat := (p.active g sub base).map fun l => base + l

theorem act_eq (p : Plan) (g sub base : Nat) : p.act g sub base = (List.range' base 32).filter fun i => i < p.blockEnd g sub := by
  unfold Plan.act Plan.active
  rw [← map_range32, List.filter_map]
  rfl

theorem strided_mul (s q : Nat) : strided s (s + q * 32) 32 = (List.range q).map fun k => s + k * 32 := by
  unfold strided
  rw [show (s + q * 32 - s + 32 - 1) / 32 = q by omega]

theorem act_chunks (p : Plan) (g sub s q : Nat) : ((List.range q).map fun k => s + k * 32).flatMap (p.act g sub) =
    (List.range' s (q * 32)).filter fun i => i < p.blockEnd g sub := by
  rw [← flatMap_chunks, flatMap_filter, List.flatMap_map]
  simp only [act_eq]

theorem Good.bases_tiny {p : Plan} (h : Good p) (hv : p.variant = .tiny) {g sub w : Nat} (hg : g < p.n) (hs : sub < p.G) (hw : w < p.W)
    {q : Nat} (hq : p.perWarp g sub = q * 32) (hq2 : p.W * (q * 32) ≤ p.spb + 33 * 32) :
    p.bases g sub w = (List.range q).map fun k => p.blockStart g sub + w * (q * 32) + k * 32 := by
  obtain ⟨b1, b2, b3, b4, b5⟩ := h.bounds hg hs
  obtain ⟨e1, e2, e3⟩ := h.starts hg hs
  have hfit := h.fit
  have hg16 := h.g16
  have hm := Nat.mul_le_mul_right (q * 32) (show w + 1 ≤ p.W from hw)
  rw [Nat.add_mul, Nat.one_mul] at hm
  unfold Plan.bases Plan.loop
  rw [hv]
  simp only
  rw [hq, u32_eq (x := w * (q * 32)) (by omega), u32_eq (x := p.blockStart g sub + w * (q * 32)) (by omega), u32_eq (by omega), Nat.add_zero,
    strided_mul]

theorem Good.row_tiny {p : Plan} (h : Good p) (hv : p.variant = .tiny) {g sub : Nat} (hg : g < p.n) (hs : sub < p.G) :
    ((List.range p.W).flatMap fun w => (p.bases g sub w).flatMap (p.act g sub)) =
      List.range' (p.blockStart g sub) (p.blockEnd g sub - p.blockStart g sub) := by
  obtain ⟨q, hq, q1, q2⟩ := h.perWarp hg hs
  have : ((List.range p.W).flatMap fun w => (p.bases g sub w).flatMap (p.act g sub)) =
      (List.range p.W).flatMap fun w => (List.range' (p.blockStart g sub + w * (q * 32)) (q * 32)).filter fun i => i < p.blockEnd g sub := by
    rw [List.flatMap_def, List.flatMap_def]
    congr 1
    apply List.map_congr_left
    intro w hw
    rw [h.bases_tiny hv hg hs (List.mem_range.1 hw) hq q2, act_chunks]
  rw [this, ← flatMap_filter, flatMap_chunks, range'_filter_lt]
  congr 1
  omega

theorem Good.bases_other {p : Plan} (h : Good p) (hv : p.variant ≠ .tiny) {g sub w : Nat} (hg : g < p.n) (hs : sub < p.G) :
    p.bases g sub w = strided (p.blockStart g sub + 32 * w) (p.blockStart g sub + (p.spb + 31) / 32 * 32) (32 * p.W) := by
  obtain ⟨b1, b2, b3, b4, b5⟩ := h.bounds hg hs
  obtain ⟨e1, e2, e3⟩ := h.starts hg hs
  have hfit := h.fit
  have hg16 := h.g16
  unfold Plan.bases Plan.loop
  cases hc : p.variant with
  | tiny => exact absurd hc hv
  | small => simp only; rw [u32_eq (by omega), Nat.add_zero]
  | large => simp only; rw [u32_eq (by omega), Nat.add_zero]

theorem Good.row_other {p : Plan} (h : Good p) (hv : p.variant ≠ .tiny) {g sub : Nat} (hg : g < p.n) (hs : sub < p.G) :
    ((List.range p.W).flatMap fun w => (p.bases g sub w).flatMap (p.act g sub)).Perm
      (List.range' (p.blockStart g sub) (p.blockEnd g sub - p.blockStart g sub)) := by
  obtain ⟨e1, e2, e3⟩ := h.starts hg hs
  have hw := h.wpos
  have hp : ((List.range p.W).flatMap (p.bases g sub)).Perm ((List.range ((p.spb + 31) / 32)).map fun k => p.blockStart g sub + k * 32) := by
    have hmem : ∀ w i, w < p.W → (i ∈ p.bases g sub w ↔ i < p.blockStart g sub + (p.spb + 31) / 32 * 32 ∧ ∃ k, i = p.blockStart g sub + 32 * (w + p.W * k)) := by
      intro w i _
      rw [h.bases_other hv hg hs, mem_strided (by omega)]
      have : ∀ k, p.blockStart g sub + 32 * (w + p.W * k) = p.blockStart g sub + 32 * w + k * (32 * p.W) := by
        intro k
        rw [Nat.mul_add, ← Nat.mul_assoc, Nat.mul_comm (32 * p.W) k, Nat.add_assoc]
      simp only [this]
    rw [List.perm_ext_iff_of_nodup]
    · intro i
      simp only [List.mem_flatMap, List.mem_range, List.mem_map]
      constructor
      · rintro ⟨w, hw, hi⟩
        obtain ⟨h1, k, rfl⟩ := (hmem w i hw).1 hi
        exact ⟨w + p.W * k, by omega, by omega⟩
      · rintro ⟨c, hc, rfl⟩
        refine ⟨c % p.W, Nat.mod_lt _ hw, (hmem _ _ (Nat.mod_lt _ hw)).2 ⟨by omega, c / p.W, ?_⟩⟩
        rw [Nat.mod_add_div, Nat.mul_comm]
    · rw [List.nodup_flatMap]
      constructor
      · intro w hw
        rw [h.bases_other hv hg hs]
        exact nodup_strided _ _ _ (by omega)
      · refine List.Pairwise.imp_of_mem ?_ (List.nodup_range (n := p.W))
        intro a b ha hb hab
        have ha := List.mem_range.1 ha
        have hb := List.mem_range.1 hb
        intro i h1 h2
        obtain ⟨_, k, rfl⟩ := (hmem a i ha).1 h1
        obtain ⟨_, k', e⟩ := (hmem b _ hb).1 h2
        apply hab
        have e : k * p.W + a = k' * p.W + b := by
          rw [Nat.mul_comm k, Nat.mul_comm k']
          omega
        exact (mul_add_inj ha hb e).2
    · refine List.Nodup.map ?_ List.nodup_range
      intro a b e
      have e : p.blockStart g sub + a * 32 = p.blockStart g sub + b * 32 := e
      omega
  have hp2 := hp.flatMap_right (p.act g sub)
  rw [List.flatMap_assoc, act_chunks, range'_filter_lt, show min ((p.spb + 31) / 32 * 32) (p.blockEnd g sub - p.blockStart g sub) =
    p.blockEnd g sub - p.blockStart g sub by omega] at hp2
  exact hp2

theorem Good.group_blocks {p : Plan} (h : Good p) {g : Nat} (hg : g < p.n) :
    ((List.range p.G).flatMap fun sub => List.range' (p.blockStart g sub) (p.blockEnd g sub - p.blockStart g sub)) =
      List.range' (g * p.bs) (min p.bs (p.size - g * p.bs)) := by
  have : ((List.range p.G).flatMap fun sub => List.range' (p.blockStart g sub) (p.blockEnd g sub - p.blockStart g sub)) =
      (List.range p.G).flatMap fun sub => (List.range' (g * p.bs + sub * p.spb) p.spb).filter fun i => i < p.groupEnd g := by
    rw [List.flatMap_def, List.flatMap_def]
    congr 1
    apply List.map_congr_left
    intro sub hs
    obtain ⟨e1, e2, e3⟩ := h.starts hg (List.mem_range.1 hs)
    rw [range'_filter_lt, e2, e3]
    congr 1
    omega
  rw [this, ← flatMap_filter, flatMap_chunks, range'_filter_lt]
  obtain ⟨b1, b2, b3, b4, b5⟩ := h.bounds hg h.gpos
  unfold Plan.groupEnd
  congr 1
  omega

theorem flatMap_range_mul {α : Type} (G W : Nat) (f : Nat → List α) :
    (List.range (G * W)).flatMap f = (List.range G).flatMap fun sub => (List.range W).flatMap fun w => f (sub * W + w) := by
  induction G with
  | zero => simp
  | succ G ih =>
    rw [Nat.add_mul, Nat.one_mul, List.range_add, List.flatMap_append, ih, List.range_succ, List.flatMap_append, List.flatMap_map]
    simp

/-- Elements counted in row `r` of a group -/
def Plan.rowElems (p : Plan) (g r : Nat) : List Nat :=
  if p.variant = .tiny then (p.bases g (r / p.W) (r % p.W)).flatMap (p.act g (r / p.W))
  else (List.range p.W).flatMap fun w => (p.bases g r w).flatMap (p.act g r)

theorem Good.group_tiny {p : Plan} (h : Good p) (hv : p.variant = .tiny) {g : Nat} (hg : g < p.n) :
    (List.range p.R).flatMap (p.rowElems g) = List.range' (g * p.bs) (min p.bs (p.size - g * p.bs)) := by
  rw [h.rows, if_pos hv, flatMap_range_mul, ← h.group_blocks hg, List.flatMap_def, List.flatMap_def]
  congr 1
  apply List.map_congr_left
  intro sub hs
  rw [← h.row_tiny hv hg (List.mem_range.1 hs), List.flatMap_def, List.flatMap_def]
  congr 1
  apply List.map_congr_left
  intro w hw
  have hw := List.mem_range.1 hw
  unfold Plan.rowElems
  rw [if_pos hv, show (sub * p.W + w) / p.W = sub by rw [Nat.mul_comm, Nat.mul_add_div h.wpos, Nat.div_eq_of_lt hw, Nat.add_zero],
    show (sub * p.W + w) % p.W = w by rw [Nat.mul_comm, Nat.mul_add_mod, Nat.mod_eq_of_lt hw]]

theorem perm_flatMap_congr {α β : Type} (l : List α) (f g : α → List β) (h : ∀ x ∈ l, (f x).Perm (g x)) : (l.flatMap f).Perm (l.flatMap g) := by
  induction l with
  | nil => exact .refl _
  | cons a l ih =>
    rw [List.flatMap_cons, List.flatMap_cons]
    exact (h a List.mem_cons_self).append (ih fun x hx => h x (List.mem_cons_of_mem _ hx))

theorem Good.group_perm {p : Plan} (h : Good p) {g : Nat} (hg : g < p.n) :
    ((List.range p.R).flatMap (p.rowElems g)).Perm (List.range' (g * p.bs) (min p.bs (p.size - g * p.bs))) := by
  by_cases hv : p.variant = .tiny
  · rw [h.group_tiny hv hg]
  · rw [h.rows, if_neg hv, ← h.group_blocks hg]
    apply perm_flatMap_congr
    intro sub hs
    unfold Plan.rowElems
    rw [if_neg hv]
    exact h.row_other hv hg (List.mem_range.1 hs)

/-! ### Steps and histogram entries -/

theorem active_sorted (p : Plan) (g sub base : Nat) : (p.active g sub base).Pairwise (· < ·) :=
  List.pairwise_lt_range.filter _

theorem Plan.slot_inj (p : Plan) {g sub w a b : Nat} (h : p.slot g sub w a = p.slot g sub w b) : a = b := by
  unfold Plan.slot at h
  cases hv : p.variant <;> rw [hv] at h <;> simp only [Prod.mk.injEq] at h <;> omega

theorem Plan.E_flatMap {α : Type} (p : Plan) (l : List α) (f : α → List Ev) (s : Nat × Nat) :
    p.E (l.flatMap f) s = l.flatMap fun x => p.E (f x) s := by
  unfold Plan.E
  rw [flatMap_filter, List.flatMap_assoc]

theorem filter_head (L : List Nat) (h : L.Nodup) (f : Nat → Nat) :
    (L.filter fun l => L.head? = some l).flatMap (fun _ => L.map f) = L.map f := by
  cases L with
  | nil => rfl
  | cons a t =>
    have : ((a :: t).filter fun l => (a :: t).head? = some l) = [a] := by
      rw [List.filter_cons, if_pos (by simp), List.filter_eq_nil_iff.2]
      intro x hx
      have := (List.nodup_cons.1 h).1
      simp only [List.head?_cons, Option.some.injEq, decide_eq_true_eq]
      rintro rfl
      exact this hx
    rw [this]
    simp

theorem iter_E (p : Plan) (v : Nat → Nat) (g sub w base : Nat) (s : Nat × Nat) :
    p.E (p.iter v g sub w base) s = (p.act g sub base).filter fun i => p.slot g sub w (v i) = s := by
  unfold Plan.E Plan.iter
  rw [List.filter_map, List.flatMap_map, List.filter_filter]
  have hL : ∀ l ∈ p.active g sub base, p.slot g sub w (v (base + l)) = s →
      p.peers v g sub base l = (p.active g sub base).filter fun k => p.slot g sub w (v (base + k)) = s := by
    intro l _ hs
    unfold Plan.peers
    apply List.filter_congr
    intro k _
    rw [← hs]
    simp only [decide_eq_decide]
    exact ⟨fun e => by rw [e], fun e => p.slot_inj e⟩
  have hn : ((p.active g sub base).filter fun k => p.slot g sub w (v (base + k)) = s).Nodup :=
    ((active_sorted p g sub base).imp Nat.ne_of_lt).filter _
  rw [Plan.act, List.filter_map]
  change _ = List.map (fun l => base + l) ((p.active g sub base).filter fun k => p.slot g sub w (v (base + k)) = s)
  generalize hLd : ((p.active g sub base).filter fun k => p.slot g sub w (v (base + k)) = s) = L at *
  rw [← filter_head L hn]
  have h1 : ∀ F : Nat → List Nat, (∀ l ∈ L, F l = L.map fun l => base + l) →
      (L.filter fun l => L.head? = some l).flatMap F = (L.filter fun l => L.head? = some l).flatMap fun _ => L.map fun l => base + l := by
    intro F hF
    rw [List.flatMap_def, List.flatMap_def]
    congr 1
    apply List.map_congr_left
    intro l hl
    exact hF l (List.mem_filter.1 hl).1
  rw [← h1 (fun l => (p.peers v g sub base l).map fun k => base + k)]
  · have : ((p.active g sub base).filter fun a => ((fun e => decide (p.slotE e = s)) ∘ fun l => (⟨g, sub, w, base, v (base + l), p.peers v g sub base l⟩ : Ev)) a &&
        decide ((p.peers v g sub base a).head? = some a)) = L.filter fun l => L.head? = some l := by
      rw [← hLd, List.filter_filter, hLd]
      apply List.filter_congr
      intro l hl
      simp only [Function.comp, Plan.slotE]
      by_cases hs : p.slot g sub w (v (base + l)) = s
      · simp [hs, hL l hl hs]
      · simp [hs]
    rw [this]
    rfl
  · intro l hl
    rw [← hLd, List.mem_filter] at hl
    rw [hL l hl.1 (by simpa using hl.2)]

/-- Histogram entry of row `r` of group `g` and bucket `val` -/
def Plan.slotOf (p : Plan) (g r val : Nat) : Nat × Nat :=
  if p.variant = .tiny then p.slot g (r / p.W) (r % p.W) val else p.slot g r 0 val

theorem act_lt {p : Plan} {g sub base i : Nat} (h : i ∈ p.act g sub base) : i < p.size := by
  rw [act_eq, List.mem_filter] at h
  have := h.2
  simp only [decide_eq_true_eq] at this
  unfold Plan.blockEnd at this
  omega

theorem Good.slot_tiny {p : Plan} (h : Good p) (hv : p.variant = .tiny) {g sub w a g' r v : Nat} (hs : sub < p.G) (ha : a < p.bc)
    (hr : r < p.R) (hv' : v < p.bc) (e : p.slot g sub w a = p.slotOf g' r v) : g = g' ∧ sub = r / p.W ∧ w = r % p.W ∧ a = v := by
  have hrG : r / p.W < p.G := by
    rw [Nat.div_lt_iff_lt_mul h.wpos]
    rw [h.rows, if_pos hv] at hr
    exact hr
  unfold Plan.slotOf Plan.slot at e
  rw [if_pos hv, hv] at e
  simp only [Prod.mk.injEq] at e
  obtain ⟨e1, e2⟩ := mul_add_inj hs hrG e.1
  obtain ⟨e3, e4⟩ := mul_add_inj ha hv' e.2
  exact ⟨e1, e2, e3, e4⟩

theorem Good.slot_other {p : Plan} (h : Good p) (hv : p.variant ≠ .tiny) {g sub w a g' r v : Nat} (hs : sub < p.G) (ha : a < p.bc)
    (hr : r < p.R) (hv' : v < p.bc) (e : p.slot g sub w a = p.slotOf g' r v) : g = g' ∧ sub = r ∧ a = v := by
  rw [h.rows, if_neg hv] at hr
  unfold Plan.slotOf Plan.slot at e
  rw [if_neg hv] at e
  cases hc : p.variant with
  | tiny => exact absurd hc hv
  | small =>
    rw [hc] at e
    simp only [Prod.mk.injEq] at e
    obtain ⟨e1, e2⟩ := mul_add_inj hs hr e.1
    exact ⟨e1, e2, e.2⟩
  | large =>
    rw [hc] at e
    simp only [Prod.mk.injEq, true_and] at e
    obtain ⟨e1, e2⟩ := mul_add_inj ha hv' e
    obtain ⟨e3, e4⟩ := mul_add_inj hs hr e1
    exact ⟨e3, e4, e2⟩

theorem E_nil_of {p : Plan} {v : Nat → Nat} {g sub : Nat} (w : Nat) (s : Nat × Nat) (l : List Nat) (h : ∀ i, i < p.size → p.slot g sub w (v i) ≠ s) :
    (l.flatMap fun base => (p.act g sub base).filter fun i => p.slot g sub w (v i) = s) = [] := by
  rw [List.flatMap_eq_nil_iff]
  intro b _
  rw [List.filter_eq_nil_iff]
  intro i hi
  simpa using h i (act_lt hi)

theorem E_eq_of {p : Plan} {v : Nat → Nat} {g sub w r b g' : Nat} (l : List Nat) (h : ∀ i, i < p.size → (p.slot g sub w (v i) = p.slotOf g' r b ↔ v i = b)) :
    (l.flatMap fun base => (p.act g sub base).filter fun i => p.slot g sub w (v i) = p.slotOf g' r b) =
      (l.flatMap (p.act g sub)).filter fun i => v i = b := by
  rw [flatMap_filter, List.flatMap_def, List.flatMap_def]
  congr 1
  apply List.map_congr_left
  intro base _
  apply List.filter_congr
  intro i hi
  simp only [decide_eq_decide]
  exact h i (act_lt hi)

/-- The elements counted by a histogram entry are those of the row that are in the bucket. -/
theorem Good.E_events {p : Plan} (h : Good p) {v : Nat → Nat} (hv : ∀ i, i < p.size → v i < p.bc) {g r b : Nat} (hg : g < p.n) (hr : r < p.R)
    (hb : b < p.bc) : p.E (p.events v) (p.slotOf g r b) = (p.rowElems g r).filter fun i => v i = b := by
  unfold Plan.events
  simp only [p.E_flatMap, iter_E]
  rw [flatMap_single _ hg]
  · by_cases ht : p.variant = .tiny
    · have hrG : r / p.W < p.G := by
        rw [Nat.div_lt_iff_lt_mul h.wpos]
        rw [h.rows, if_pos ht] at hr
        exact hr
      rw [flatMap_single _ hrG, flatMap_single _ (Nat.mod_lt r h.wpos)]
      · unfold Plan.rowElems
        rw [if_pos ht]
        apply E_eq_of
        intro i hi
        refine ⟨fun e => (h.slot_tiny ht hrG (hv i hi) hr hb e).2.2.2, fun e => ?_⟩
        unfold Plan.slotOf
        rw [if_pos ht, e]
      · intro w hw hne
        exact E_nil_of _ _ _ fun i hi e => hne (h.slot_tiny ht hrG (hv i hi) hr hb e).2.2.1
      · intro sub hs hne
        rw [List.flatMap_eq_nil_iff]
        intro w _
        exact E_nil_of _ _ _ fun i hi e => hne (h.slot_tiny ht hs (hv i hi) hr hb e).2.1
    · have hrG : r < p.G := by
        rw [h.rows, if_neg ht] at hr
        exact hr
      rw [flatMap_single _ hrG]
      · unfold Plan.rowElems
        rw [if_neg ht, flatMap_filter, List.flatMap_def, List.flatMap_def]
        congr 1
        apply List.map_congr_left
        intro w _
        apply E_eq_of
        intro i hi
        refine ⟨fun e => (h.slot_other ht hrG (hv i hi) hr hb e).2.2, fun e => ?_⟩
        unfold Plan.slotOf
        rw [if_neg ht, e]
        unfold Plan.slot
        cases hc : p.variant with
        | tiny => exact absurd hc ht
        | small => rfl
        | large => rfl
      · intro sub hs hne
        rw [List.flatMap_eq_nil_iff]
        intro w _
        exact E_nil_of _ _ _ fun i hi e => hne (h.slot_other ht hs (hv i hi) hr hb e).2.1
  · intro g' hg' hne
    rw [List.flatMap_eq_nil_iff]
    intro sub hs
    have hs := List.mem_range.1 hs
    rw [List.flatMap_eq_nil_iff]
    intro w _
    refine E_nil_of _ _ _ fun i hi e => hne ?_
    by_cases ht : p.variant = .tiny
    · exact (h.slot_tiny ht hs (hv i hi) hr hb e).1
    · exact (h.slot_other ht hs (hv i hi) hr hb e).1

end Verif.CudaPerm
