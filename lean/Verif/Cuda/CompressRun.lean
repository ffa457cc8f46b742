import Verif.Cuda.Compress
import Verif.Cuda.Scan
import Verif.Cuda.LookProps
import Mathlib.Data.BitVec
import Mathlib.Algebra.BigOperators.Intervals

/-!
# The kernels for compression: scans, look-back and positions
-/
namespace Verif.Cuda

open Verif.Par

/-- Combining 32 bit sums in any order -/
theorem on_sum {f : Nat → BitVec 32} {S : Finset Nat} {v : BitVec 32} : On (fun a b => a + b) 0 f S v ↔ v = ∑ i ∈ S, f i := by
  have : Std.Commutative (fun a b : BitVec 32 => a + b) := ⟨fun a b => BitVec.add_comm a b⟩
  have : Std.Associative (fun a b : BitVec 32 => a + b) := ⟨fun a b c => BitVec.add_assoc a b c⟩
  constructor
  · intro h
    have := Comb.eq_fold (fun x => BitVec.zero_add x) h
    rw [this]; rfl
  · rintro rfl
    classical
    induction S using Finset.induction_on with
    | empty => exact On.empty
    | insert a S ha ih =>
      rw [Finset.sum_insert ha, Finset.insert_eq]
      exact (On.single a).union (Finset.disjoint_singleton_left.2 ha) ih

/-! ### The reduction across lanes -/

theorem shflDown_on {V : Type} {op : V → V → V} {init : V} {f : Nat → V} (n : Nat) : n ≤ 5 → ∀ (D : Nat → Finset Nat) (g : Nat → V), Apart D → (∀ l, l < 2 ^ n → On op init f (D l) (g l)) →
    On op init f ((Finset.range (2 ^ n)).biUnion D) (shflDown op n g 0) := by
  induction n with
  | zero =>
    intro _ D g _ h
    have : (Finset.range (2 ^ 0)).biUnion D = D 0 := by simp
    rw [this]; exact h 0 (by omega)
  | succ n ih =>
    intro hn D g hD h
    have hp : 0 < 2 ^ n := Nat.two_pow_pos n
    have hpow : 2 ^ (n + 1) = 2 * 2 ^ n := by rw [Nat.pow_succ, Nat.mul_comm]
    have hle : 2 ^ (n + 1) ≤ 2 ^ 5 := Nat.pow_le_pow_right (by omega) hn
    have := ih (by omega) (fun l => if l < 2 ^ n then D l ∪ D (l + 2 ^ n) else ∅) (fun l => op (g l) (g (if l + 2 ^ n < 32 then l + 2 ^ n else l))) (by
      intro i j hij
      show Disjoint (if i < 2 ^ n then D i ∪ D (i + 2 ^ n) else ∅) (if j < 2 ^ n then D j ∪ D (j + 2 ^ n) else ∅)
      split
      · split
        · simp only [Finset.disjoint_union_left, Finset.disjoint_union_right]
          exact ⟨⟨hD _ _ hij, hD _ _ (by omega)⟩, hD _ _ (by omega), hD _ _ (by omega)⟩
        · simp
      · simp) (by
      intro l hl
      simp only [if_pos hl]
      rw [if_pos (by omega)]
      exact (h l (by omega)).union (hD _ _ (by omega)) (h _ (by omega)))
    have e : (Finset.range (2 ^ n)).biUnion (fun l => if l < 2 ^ n then D l ∪ D (l + 2 ^ n) else ∅) = (Finset.range (2 ^ (n + 1))).biUnion D := by
      ext i
      simp only [Finset.mem_biUnion, Finset.mem_range]
      constructor
      · rintro ⟨l, hl, h⟩
        rw [if_pos hl, Finset.mem_union] at h
        rcases h with h | h
        · exact ⟨l, by omega, h⟩
        · exact ⟨_, by omega, h⟩
      · rintro ⟨l, hl, h⟩
        by_cases hl' : l < 2 ^ n
        · exact ⟨l, hl', by rw [if_pos hl', Finset.mem_union]; exact Or.inl h⟩
        · refine ⟨l - 2 ^ n, by omega, ?_⟩
          rw [if_pos (by omega), Finset.mem_union, show l - 2 ^ n + 2 ^ n = l by omega]
          exact Or.inr h
    rw [e] at this
    exact this

theorem shflDown_warp {V : Type} {op : V → V → V} {init : V} : WarpRed op init (fun g _ => shflDown op 5 g 0) := by
  intro f D g hD hg l hl
  exact shflDown_on 5 (Nat.le_refl _) D g hD hg

/-! ### The scan within a thread block -/

section
variable {L : CLaunch} {x : Nat → BitVec 8} {c : Nat}

theorem initShared_ends {m m' : SLoc → BitVec 32} (h : Phase.Ends (L.threads, L.initShared x c) m m') :
    ∀ t, t < L.threads → m' (.sh t) = 0 ∧ m' (.sh (t + L.threads)) = L.sumLocal x c t ∧ m' (.reg t) = L.sumLocal x c t := by
  obtain ⟨h1, h2⟩ := phase_spec (R := fun _ => ∅) (W := fun t => {l | l = SLoc.sh t ∨ l = SLoc.sh (t + L.threads) ∨ l = SLoc.reg t})
    (Q := fun t mt => mt (.sh t) = 0 ∧ mt (.sh (t + L.threads)) = L.sumLocal x c t ∧ mt (.reg t) = L.sumLocal x c t) (by
      rintro i j hi hj hne l hl
      refine ⟨by simp, ?_⟩
      rcases hl with rfl | rfl | rfl <;> simp <;> omega) (by
      intro t ht
      unfold CLaunch.initShared
      rw [wp_bind]
      refine wp_put (Or.inl rfl) ?_
      rw [wp_bind]
      refine wp_put (Or.inr (Or.inl rfl)) ?_
      refine wp_put (Or.inr (Or.inr rfl)) ?_
      have : t ≠ t + L.threads := by omega
      have h0 : L.threads ≠ 0 := by omega
      simp [upd, h0]) h
  intro t ht
  obtain ⟨mi, q1, q2, _⟩ := h1 t ht
  rw [q2 _ (Or.inl rfl), q2 _ (Or.inr (Or.inl rfl)), q2 _ (Or.inr (Or.inr rfl))]
  exact q1

theorem addUp_ends {d : Nat} {m m' : SLoc → BitVec 32} (h : Phase.Ends (L.threads, L.addUp d) m m') :
    (∀ i, m' (.sh i) = m (.sh i)) ∧ ∀ t, t < L.threads → m' (.reg t) = m (.sh (t + L.threads)) + m (.sh (sub32 (t + L.threads) d)) := by
  obtain ⟨h1, h2⟩ := phase_spec (R := fun t => {l | ∃ i, l = SLoc.sh i}) (W := fun t => {l | l = SLoc.reg t})
    (Q := fun t mt => mt (.reg t) = m (.sh (t + L.threads)) + m (.sh (sub32 (t + L.threads) d))) (by
      rintro i j hi hj hne l rfl
      refine ⟨?_, ?_⟩ <;> simp [hne]) (by
      intro t ht
      unfold CLaunch.addUp
      rw [wp_bind]
      refine wp_get ⟨_, rfl⟩ ?_
      rw [wp_bind]
      refine wp_get ⟨_, rfl⟩ (wp_put rfl ?_)
      simp [upd]) h
  refine ⟨fun i => h2 _ fun j _ hl => by simp at hl, fun t ht => ?_⟩
  obtain ⟨mi, q1, q2, _⟩ := h1 t ht
  rw [q2 _ rfl, q1]

theorem putUp_ends {m m' : SLoc → BitVec 32} (h : Phase.Ends (L.threads, L.putUp) m m') :
    (∀ t, m' (.reg t) = m (.reg t)) ∧ (∀ t, t < L.threads → m' (.sh t) = m (.sh t)) ∧ ∀ t, t < L.threads → m' (.sh (t + L.threads)) = m (.reg t) := by
  obtain ⟨h1, h2⟩ := phase_spec (R := fun t => {l | l = SLoc.reg t}) (W := fun t => {l | l = SLoc.sh (t + L.threads)})
    (Q := fun t mt => mt (.sh (t + L.threads)) = m (.reg t)) (by
      rintro i j hi hj hne l rfl
      refine ⟨?_, ?_⟩ <;> simp [hne]) (by
      intro t ht
      unfold CLaunch.putUp
      rw [wp_bind]
      refine wp_get rfl (wp_put rfl ?_)
      simp [upd]) h
  refine ⟨fun t => h2 _ fun i _ hl => by simp at hl, fun t ht => h2 _ fun i hi hl => ?_, fun t ht => ?_⟩
  · simp only [Set.mem_setOf_eq, SLoc.sh.injEq] at hl; omega
  · obtain ⟨mi, q1, q2, _⟩ := h1 t ht
    rw [q2 _ rfl, q1]

/-- The sums over windows of threads -/
theorem scan_sums (hth : 2 * L.threads < 2 ^ 32) (n : Nat) (hn : n = 0 ∨ 2 ^ (n - 1) < L.threads) : ∀ m m', Ends (L.phases x c n) m m' → ∀ t, t < L.threads → m' (.sh t) = 0 ∧
    m' (.sh (t + L.threads)) = ∑ u ∈ Finset.Ico (t + 1 - 2 ^ n) (t + 1), L.sumLocal x c u ∧ m' (.reg t) = ∑ u ∈ Finset.Ico (t + 1 - 2 ^ n) (t + 1), L.sumLocal x c u := by
  induction n with
  | zero =>
    intro m m' h t ht
    obtain ⟨m1, h1, h2⟩ := h
    have h2 : m' = m1 := h2
    subst h2
    have := initShared_ends h1 t ht
    simpa using this
  | succ n ih =>
    intro m m' h t ht
    have hn' : 2 ^ n < L.threads := by rcases hn with h | h; omega; simpa using h
    unfold CLaunch.phases at h
    rw [ends_append] at h
    obtain ⟨m1, h1, m2, h2, m3, h3, h4⟩ := h
    have h4 : m' = m3 := h4
    subst h4
    have ih := ih (by
      by_cases h : n = 0
      · exact Or.inl h
      · refine Or.inr (Nat.lt_of_le_of_lt (Nat.pow_le_pow_right (by omega) (by omega)) hn')) m m1 h1
    obtain ⟨a1, a2⟩ := addUp_ends h2
    obtain ⟨b1, b2, b3⟩ := putUp_ends h3
    have hp : 0 < 2 ^ n := Nat.two_pow_pos n
    have hpow : 2 ^ (n + 1) = 2 * 2 ^ n := by rw [Nat.pow_succ, Nat.mul_comm]
    have key : m2 (.reg t) = ∑ u ∈ Finset.Ico (t + 1 - 2 ^ (n + 1)) (t + 1), L.sumLocal x c u := by
      rw [a2 t ht, sub32_le (by omega) (by omega), (ih t ht).2.1]
      by_cases hc : 2 ^ n ≤ t
      · rw [show t + L.threads - 2 ^ n = (t - 2 ^ n) + L.threads by omega, (ih (t - 2 ^ n) (by omega)).2.1, BitVec.add_comm]
        rw [show t - 2 ^ n + 1 = t + 1 - 2 ^ n by omega, show t + 1 - 2 ^ n - 2 ^ n = t + 1 - 2 ^ (n + 1) by omega]
        exact Finset.sum_Ico_consecutive _ (by omega) (by omega)
      · rw [(ih (t + L.threads - 2 ^ n) (by omega)).1, add_zero, show t + 1 - 2 ^ n = t + 1 - 2 ^ (n + 1) by omega]
    exact ⟨by rw [b2 t ht, a1, (ih t ht).1], by rw [b3 t ht, key], by rw [b1, key]⟩

theorem scan8_sum (b : Nat → BitVec 8) (n : Nat) : scan8 b n = ∑ j ∈ Finset.range n, (b j).setWidth 32 := by
  induction n with
  | zero => rfl
  | succ n ih => rw [Finset.sum_range_succ, ← ih]; rfl

end

/-! ### Sums over the input -/

/-- Geometry of a launch -/
structure CLaunch.Geo (L : CLaunch) : Prop where
  pow : ∃ k, L.threads = 2 ^ k
  th : 2 * L.threads < 2 ^ 32
  blocks : 1 ≤ L.blocks
  items : 1 ≤ L.items
  total : L.blocks * L.threads * L.items < 2 ^ 32
  small : L.large = false → L.blocks = 1
  large : L.large = true → 32 ≤ L.threads

section
variable {L : CLaunch} {x : Nat → BitVec 8}

/-- An element of the input as a 32 bit number -/
def ext8 (x : Nat → BitVec 8) (i : Nat) : BitVec 32 := (x i).setWidth 32

theorem CLaunch.Geo.bound (g : L.Geo) {c t : Nat} (hc : c < L.blocks) (ht : t < L.threads) : c * L.threads + t < L.blocks * L.threads ∧ (c * L.threads + t + 1) * L.items ≤ L.blocks * L.threads * L.items := by
  have h1 : (c + 1) * L.threads ≤ L.blocks * L.threads := Nat.mul_le_mul_right _ (by omega)
  rw [Nat.succ_mul] at h1
  have h2 : c * L.threads + t + 1 ≤ L.blocks * L.threads := by omega
  exact ⟨by omega, Nat.mul_le_mul_right _ h2⟩

theorem CLaunch.Geo.vec (g : L.Geo) {c t : Nat} (hc : c < L.blocks) (ht : t < L.threads) : L.vec c t = c * L.threads + t := by
  have h1 := g.total
  obtain ⟨h2, h3⟩ := g.bound hc ht
  have h4 : L.blocks * L.threads ≤ L.blocks * L.threads * L.items := Nat.le_mul_of_pos_right _ g.items
  unfold CLaunch.vec
  split
  · unfold u32
    rw [Nat.mod_eq_of_lt (show c * L.threads < 2 ^ 32 by omega), Nat.mod_eq_of_lt (by omega)]
  · rename_i h
    have := g.small (by simpa using h)
    have : c = 0 := by omega
    subst this; omega

theorem CLaunch.Geo.part (g : L.Geo) {c t i : Nat} (hc : c < L.blocks) (ht : t < L.threads) (hi : i ≤ L.items) :
    scan8 (L.byte x c t) i = ∑ j ∈ Finset.Ico ((c * L.threads + t) * L.items) ((c * L.threads + t) * L.items + i), ext8 x j := by
  rw [scan8_sum, Finset.sum_Ico_eq_sum_range, Nat.add_sub_cancel_left]
  refine Finset.sum_congr rfl fun j hj => ?_
  rw [Finset.mem_range] at hj
  unfold CLaunch.byte
  rw [if_pos (by omega), g.vec hc ht]
  rfl

theorem CLaunch.Geo.sumLocal (g : L.Geo) {c t : Nat} (hc : c < L.blocks) (ht : t < L.threads) :
    L.sumLocal x c t = ∑ j ∈ Finset.Ico ((c * L.threads + t) * L.items) ((c * L.threads + t + 1) * L.items), ext8 x j := by
  have h := g.part (x := x) hc ht (Nat.le_refl L.items)
  have h2 : L.byte x c t L.items = 0 := if_neg (by omega)
  show scan8 (L.byte x c t) L.items + (L.byte x c t L.items).setWidth 32 = _
  rw [h2, h, show (c * L.threads + t + 1) * L.items = (c * L.threads + t) * L.items + L.items from Nat.succ_mul _ _]
  simp

/-- `sum_block` after the loop -/
theorem CLaunch.Geo.scan (g : L.Geo) {c : Nat} (hc : c < L.blocks) {m : SLoc → BitVec 32} (h : L.Scan x c m) {t : Nat} (ht : t < L.threads) :
    m (.reg t) = ∑ j ∈ Finset.Ico (c * L.threads * L.items) ((c * L.threads + t + 1) * L.items), ext8 x j := by
  obtain ⟨k, hk⟩ := g.pow
  obtain ⟨m0, h⟩ := h
  have hlog : Nat.log2 L.threads = k := by rw [hk, Nat.log2_two_pow]
  rw [hlog] at h
  have := (scan_sums (L := L) (x := x) (c := c) g.th k (by
    by_cases h0 : k = 0
    · exact Or.inl h0
    · right; rw [hk]; exact Nat.pow_lt_pow_right (by omega) (by omega)) m0 m h t ht).2.2
  rw [this, show t + 1 - 2 ^ k = 0 by omega]
  have : ∀ n, n ≤ L.threads → ∑ u ∈ Finset.Ico 0 n, L.sumLocal x c u = ∑ j ∈ Finset.Ico (c * L.threads * L.items) ((c * L.threads + n) * L.items), ext8 x j := by
    intro n
    induction n with
    | zero => intro _; simp
    | succ n ih =>
      intro hn
      rw [Finset.sum_Ico_succ_top (Nat.zero_le _), ih (by omega), g.sumLocal hc (by omega)]
      exact Finset.sum_Ico_consecutive _ (Nat.mul_le_mul_right _ (by omega)) (Nat.mul_le_mul_right _ (by omega))
  exact this (t + 1) (by omega)

/-- Elements of a chunk -/
def CLaunch.chunkOf (L : CLaunch) (c : Nat) : Finset Nat := Finset.Ico (c * (L.threads * L.items)) ((c + 1) * (L.threads * L.items))

theorem CLaunch.chunks_union (L : CLaunch) (c : Nat) : (Finset.Ico 0 c).biUnion L.chunkOf = Finset.Ico 0 (c * (L.threads * L.items)) := by
  induction c with
  | zero => simp
  | succ c ih =>
    have : Finset.Ico 0 (c + 1) = Finset.Ico 0 c ∪ {c} := by ext i; simp only [Finset.mem_union, Finset.mem_Ico, Finset.mem_singleton]; omega
    rw [this, Finset.union_biUnion, ih, Finset.singleton_biUnion]
    unfold CLaunch.chunkOf
    rw [Nat.succ_mul]
    ext i; simp only [Finset.mem_union, Finset.mem_Ico]; omega

theorem CLaunch.chunks_apart (L : CLaunch) : Apart L.chunkOf := by
  have key : ∀ i j, i < j → Disjoint (L.chunkOf i) (L.chunkOf j) := by
    intro i j h
    rw [Finset.disjoint_left]
    intro e
    unfold CLaunch.chunkOf
    simp only [Finset.mem_Ico]
    have : (i + 1) * (L.threads * L.items) ≤ j * (L.threads * L.items) := Nat.mul_le_mul_right _ h
    omega
  intro i j hij
  rcases Nat.lt_or_gt_of_ne hij with h | h
  · exact key i j h
  · exact (key j i h).symm

theorem CLaunch.Geo.cfg_ok (g : L.Geo) (hl : L.large = true) {m : Nat → SLoc → BitVec 32} (hm : ∀ c, c < L.blocks → L.Scan x c (m c)) : (L.cfg m).Ok (ext8 x) L.chunkOf where
  warps := by
    show 1 ≤ L.threads / 32
    have := g.large hl; omega
  words := Nat.le_refl 1
  cpb := g.blocks
  join := by
    intro gg v h
    show (gg 0).getD 0 = v
    rw [h 0 (by show 0 < 1; omega)]; rfl
  apart := L.chunks_apart
  warp := shflDown_warp
  part := by
    intro c hc
    have h32 := g.large hl
    obtain ⟨k, hk⟩ := g.pow
    have hk5 : 5 ≤ k := by
      by_contra h
      have : 2 ^ k ≤ 2 ^ 4 := Nat.pow_le_pow_right (by omega) (by omega)
      omega
    have hlead : (L.cfg m).leader = L.threads - 1 := by
      show 32 * (L.threads / 32) - 1 = L.threads - 1
      have : 2 ^ k = 32 * 2 ^ (k - 5) := by
        rw [show (32 : Nat) = 2 ^ 5 from rfl, ← Nat.pow_add]; congr 1; omega
      omega
    rw [hlead]
    show On (fun a b => a + b) 0 (ext8 x) (L.chunkOf c) (m c (.reg (L.threads - 1)))
    rw [on_sum, g.scan hc (hm c hc) (show L.threads - 1 < L.threads by omega)]
    unfold CLaunch.chunkOf
    rw [show c * L.threads + (L.threads - 1) + 1 = (c + 1) * L.threads by rw [Nat.succ_mul]; omega, Nat.mul_assoc, Nat.mul_assoc]

/-- `sum_block` counts all elements up to those of the thread. -/
theorem CLaunch.Geo.sums (g : L.Geo) {m : Nat → SLoc → BitVec 32} (hm : ∀ c, c < L.blocks → L.Scan x c (m c)) {sum : Nat → Nat → BitVec 32} (hs : L.Sums m sum) {c t : Nat}
    (hc : c < L.blocks) (ht : t < L.threads) : sum c t = ∑ j ∈ Finset.range ((c * L.threads + t + 1) * L.items), ext8 x j := by
  unfold CLaunch.Sums at hs
  by_cases hl : L.large = true
  · rw [if_pos hl] at hs
    obtain ⟨s, h1, h2, h3⟩ := hs
    have ok := g.cfg_ok hl hm
    have inv := run_inv ok (inv_start ok) h1
    have hw : t / 32 < L.threads / 32 := by
      have h32 := g.large hl
      obtain ⟨k, hk⟩ := g.pow
      have hk5 : 5 ≤ k := by
        by_contra h
        have : 2 ^ k ≤ 2 ^ 4 := Nat.pow_le_pow_right (by omega) (by omega)
        omega
      have : 2 ^ k = 32 * 2 ^ (k - 5) := by
        rw [show (32 : Nat) = 2 ^ 5 from rfl, ← Nat.pow_add]; congr 1; omega
      omega
    have hp := prefix_spec ok inv (c := c) (w := t / 32) (l := t % 32) hc hw (Nat.mod_lt _ (by omega)) ((h2 c hc).1 _ hw)
    have hrow : (L.cfg m).row c = 0 := by
      show c - c % L.blocks = 0
      rw [Nat.mod_eq_of_lt hc]; omega
    rw [hrow, L.chunks_union c] at hp
    have hp : On (fun a b => a + b) 0 (ext8 x) (Finset.Ico 0 (c * (L.threads * L.items))) ((L.cfg m).prefixOf s c t) := hp
    rw [on_sum] at hp
    rw [h3 c t hc ht, hp, g.scan hc (hm c hc) ht, BitVec.add_comm, Nat.mul_assoc, ← Finset.range_eq_Ico]
    rw [Finset.range_eq_Ico, Finset.range_eq_Ico]
    refine Finset.sum_Ico_consecutive _ (Nat.zero_le _) ?_
    rw [← Nat.mul_assoc]
    exact Nat.mul_le_mul_right _ (by omega)
  · rw [if_neg hl] at hs
    have hb := g.small (by simpa using hl)
    have : c = 0 := by omega
    subst this
    rw [hs 0 t hc ht, g.scan hc (hm 0 hc) ht]
    simp

/-- `values[i]` counts all elements before the given one. -/
theorem CLaunch.Geo.value (g : L.Geo) {m : Nat → SLoc → BitVec 32} (hm : ∀ c, c < L.blocks → L.Scan x c (m c)) {sum : Nat → Nat → BitVec 32} (hs : L.Sums m sum) {c t i : Nat}
    (hc : c < L.blocks) (ht : t < L.threads) (hi : i ≤ L.items) : L.value x sum c t i = ∑ j ∈ Finset.range ((c * L.threads + t) * L.items + i), ext8 x j := by
  unfold CLaunch.value
  rw [g.sums hm hs hc ht, g.part hc ht hi, g.sumLocal hc ht]
  have e1 : ∑ j ∈ Finset.range ((c * L.threads + t + 1) * L.items), ext8 x j = ∑ j ∈ Finset.range ((c * L.threads + t) * L.items), ext8 x j +
      ∑ j ∈ Finset.Ico ((c * L.threads + t) * L.items) ((c * L.threads + t + 1) * L.items), ext8 x j := by
    rw [Finset.range_eq_Ico, Finset.range_eq_Ico]
    exact (Finset.sum_Ico_consecutive _ (Nat.zero_le _) (Nat.mul_le_mul_right _ (by omega))).symm
  have e2 : ∑ j ∈ Finset.range ((c * L.threads + t) * L.items + i), ext8 x j = ∑ j ∈ Finset.range ((c * L.threads + t) * L.items), ext8 x j +
      ∑ j ∈ Finset.Ico ((c * L.threads + t) * L.items) ((c * L.threads + t) * L.items + i), ext8 x j := by
    rw [Finset.range_eq_Ico, Finset.range_eq_Ico]
    exact (Finset.sum_Ico_consecutive _ (Nat.zero_le _) (by omega)).symm
  rw [e1, e2, BitVec.add_sub_cancel, BitVec.add_comm]

end

end Verif.Cuda
