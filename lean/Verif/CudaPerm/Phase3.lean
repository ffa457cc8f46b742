import Verif.CudaPerm.Main

/-! Launch configurations, and the collection of nonempty buckets -/

namespace Verif.CudaPerm

/-! ### Launch configurations -/

theorem ceil_facts {a b : Nat} (hb : 0 < b) : a ≤ (a + b - 1) / b * b ∧ (0 < a → 0 < (a + b - 1) / b) ∧
    ∀ c, a ≤ c * b → (a + b - 1) / b ≤ c := by
  have h1 := Nat.div_add_mod (a + b - 1) b
  have h2 := Nat.mod_lt (a + b - 1) hb
  rw [Nat.mul_comm] at h1
  refine ⟨by omega, fun h => Nat.div_pos (by omega) hb, fun c hc => ?_⟩
  rw [Nat.div_le_iff_le_mul hb]
  omega

theorem config_cases {sm size k : Nat} (P : Config → Prop) (hsm : 0 < sm) (hs : 0 < size) (h32 : size + 31 < 2 ^ 32)
    (h1 : ∀ W, W = (size + 31) / 32 → W ≤ sm → P ⟨W, 32⟩)
    (h2 : ∀ W, W = (size + 31) / 32 → (W + sm - 1) / sm ≤ 32 → P ⟨sm, (W + sm - 1) / sm * 32⟩)
    (h3 : k * sm ≠ 0 → P ⟨k * sm, 32 * 32⟩)
    (h4 : ∀ W b, W = (size + 31) / 32 → W ≤ b * 32 → ¬ (k * sm ≠ 0 ∧ k * sm < b) →
      P ⟨(W + (W + b - 1) / b - 1) / ((W + b - 1) / b), (W + b - 1) / b * 32⟩) :
    P (launchConfig sm size 1024 k) := by
  unfold launchConfig
  simp only
  rw [u32_eq h32, show (1024 + 31) / 32 = 32 from rfl]
  by_cases c1 : (size + 31) / 32 ≤ sm
  · rw [if_pos c1]
    exact h1 _ rfl c1
  · rw [if_neg c1]
    by_cases c2 : ((size + 31) / 32 + sm - 1) / sm ≤ 32
    · rw [if_pos c2]
      exact h2 _ rfl c2
    · rw [if_neg c2]
      have hb1 : ((size + 31) / 32 + 32 - 1) / 32 ≤ if ((size + 31) / 32 + 32 - 1) / 32 < sm * 4 then (((size + 31) / 32 + 32 - 1) / 32 + sm - 1) / sm * sm
          else ((size + 31) / 32 + 32 - 1) / 32 := by
        split
        · exact (ceil_facts hsm).1
        · exact Nat.le_refl _
      generalize (if ((size + 31) / 32 + 32 - 1) / 32 < sm * 4 then (((size + 31) / 32 + 32 - 1) / 32 + sm - 1) / sm * sm
          else ((size + 31) / 32 + 32 - 1) / 32) = b at *
      split
      · rename_i h
        exact h3 h.1
      · rename_i h
        exact h4 _ b rfl (by omega) h

theorem config_limit {sm size : Nat} (hsm : 0 < sm) (hs : 0 < size) (h32 : size + 31 < 2 ^ 32) :
    0 < (launchConfig sm size 1024 1).blocks ∧ (launchConfig sm size 1024 1).blocks ≤ sm ∧
    ∃ w, 0 < w ∧ w ≤ 32 ∧ (launchConfig sm size 1024 1).threads = w * 32 := by
  refine config_cases (fun c => 0 < c.blocks ∧ c.blocks ≤ sm ∧ ∃ w, 0 < w ∧ w ≤ 32 ∧ c.threads = w * 32) hsm hs h32 ?_ ?_ ?_ ?_
  · intro W hW h
    exact ⟨by simp only; omega, h, 1, by omega, by omega, rfl⟩
  · intro W hW h
    exact ⟨hsm, Nat.le_refl _, _, (ceil_facts hsm).2.1 (by omega), h, rfl⟩
  · intro _
    exact ⟨by simp only; omega, by simp only; omega, 32, by omega, by omega, rfl⟩
  · intro W b hW hb hn
    have hb0 : 0 < b := by omega
    have hp := ceil_facts (a := W) hb0
    have hp0 := hp.2.1 (by omega)
    refine ⟨(ceil_facts hp0).2.1 (by omega), ?_, _, hp0, hp.2.2 32 (by omega), rfl⟩
    refine Nat.le_trans ((ceil_facts hp0).2.2 b ?_) (show b ≤ sm by omega)
    rw [Nat.mul_comm]
    exact hp.1

theorem config_cover {sm size : Nat} (hsm : 0 < sm) (hs : 0 < size) (h32 : size + 31 < 2 ^ 32) :
    size ≤ (launchConfig sm size 1024 0).blocks * (launchConfig sm size 1024 0).threads ∧
    (∃ w, 0 < w ∧ w ≤ 32 ∧ (launchConfig sm size 1024 0).threads = w * 32) := by
  refine config_cases (fun c => size ≤ c.blocks * c.threads ∧ ∃ w, 0 < w ∧ w ≤ 32 ∧ c.threads = w * 32) hsm hs h32 ?_ ?_ ?_ ?_
  · intro W hW h
    exact ⟨by simp only; omega, 1, by omega, by omega, rfl⟩
  · intro W hW h
    have := (ceil_facts (a := W) hsm).1
    refine ⟨?_, _, (ceil_facts hsm).2.1 (by omega), h, rfl⟩
    simp only
    rw [← Nat.mul_assoc, Nat.mul_comm sm]
    omega
  · intro h
    omega
  · intro W b hW hb hn
    have hb0 : 0 < b := by omega
    have hp := ceil_facts (a := W) hb0
    have hp0 := hp.2.1 (by omega)
    have := (ceil_facts (a := W) hp0).1
    refine ⟨?_, _, hp0, hp.2.2 32 (by omega), rfl⟩
    simp only
    rw [← Nat.mul_assoc]
    omega

/-! ### Storing entries -/

/-- Entry stored for a bucket -/
def conv (x : Nat × Nat × Nat) : Nat × Nat × Nat × Nat := (x.1, x.2.1, x.2.2 - x.2.1, 0)

theorem store3_spec (τ : List Found) (c0 : Nat) (o : Nat → Nat × Nat × Nat × Nat) :
    (τ.foldl store3 (c0, o)).1 = c0 + τ.flatten.length ∧
    (∀ a (h : a < τ.flatten.length), (τ.foldl store3 (c0, o)).2 (c0 + a) = conv τ.flatten[a]) ∧
    ∀ a, a < c0 ∨ c0 + τ.flatten.length ≤ a → (τ.foldl store3 (c0, o)).2 a = o a := by
  induction τ generalizing c0 o with
  | nil => exact ⟨rfl, fun a h => by simp at h, fun _ _ => rfl⟩
  | cons f τ ih =>
    rw [List.foldl_cons]
    obtain ⟨i1, i2, i3⟩ := ih (store3 (c0, o) f).1 (store3 (c0, o) f).2
    have e : ((store3 (c0, o) f).1, (store3 (c0, o) f).2) = store3 (c0, o) f := rfl
    rw [e] at i1 i2 i3
    have e1 : (store3 (c0, o) f).1 = c0 + f.length := rfl
    have e2 : ∀ a, (store3 (c0, o) f).2 a = if h : c0 ≤ a ∧ a - c0 < f.length then conv (f[a - c0]'h.2) else o a := fun _ => rfl
    rw [e1] at i1 i2 i3
    simp only [List.flatten_cons, List.length_append]
    refine ⟨by rw [i1]; omega, ?_, ?_⟩
    · intro a ha
      by_cases hf : a < f.length
      · rw [i3 _ (by omega), e2, dif_pos (by omega), List.getElem_append_left hf]
        congr 1
        simp
      · obtain ⟨b, rfl⟩ : ∃ b, a = f.length + b := ⟨a - f.length, by omega⟩
        rw [← Nat.add_assoc, i2 b (by omega), List.getElem_append_right (by omega)]
        congr 1
        simp
    · intro a ha
      rw [i3 _ (by omega), e2, dif_neg (by omega)]

/-! ### Finding buckets -/

/-- What a thread with bucket `i` finds -/
def q3 (m : Nat → Nat) (bc size i : Nat) : Option (Nat × Nat × Nat) :=
  if offA m bc size i ≠ offA m bc size (i + 1) then some (i, offA m bc size i, offA m bc size (i + 1)) else none

theorem q3_none {m : Nat → Nat} {bc size i : Nat} (h : bc ≤ i) : q3 m bc size i = none := by
  have e : ∀ k, bc ≤ k → offA m bc size k = size := fun k hk => if_neg (by omega)
  unfold q3
  rw [e i h, e (i + 1) (by omega), if_neg (by simp)]

theorem flatMap_chunks0 (s c n : Nat) : (List.range n).flatMap (fun k => List.range' (s + k * c) c) = List.range' s (n * c) :=
  flatMap_chunks s c n

theorem found3_eq (m : Nat → Nat) (bc size threads blocks b w : Nat) :
    found3 m bc size threads blocks b 0 w = (List.range' (b * threads + w * 32) 32).filterMap (q3 m bc size) := by
  unfold found3
  rw [← map_range32, List.filterMap_map]
  congr 1
  funext l
  simp only [Nat.zero_mul, Nat.add_zero, Function.comp, q3]
  have e1 : b * threads + (w * 32 + l) = b * threads + w * 32 + l := by omega
  have e2 : b * threads + (w * 32 + l + 1) = b * threads + w * 32 + l + 1 := by omega
  rw [e1, e2]
  have e3 : (if b * threads + w * 32 + l + 1 < bc then m (b * threads + w * 32 + l + 1) else size) = offA m bc size (b * threads + w * 32 + l + 1) := rfl
  rw [e3]
  simp only [ite_self]

theorem filterMap_flatMap' {α β : Type} (l : List α) (f : α → List Nat) (q : Nat → Option β) :
    (l.flatMap f).filterMap q = l.flatMap fun x => (f x).filterMap q := by
  induction l with
  | nil => rfl
  | cons a l ih => rw [List.flatMap_cons, List.filterMap_append, ih, List.flatMap_cons]

theorem iters3_le {rounded threads blocks b : Nat} (h0 : 0 < threads) (h : rounded ≤ blocks * threads) :
    iters3 rounded threads blocks b ≤ 1 := by
  unfold iters3
  rw [Nat.mul_comm threads blocks]
  rcases Nat.eq_zero_or_pos (blocks * threads) with h1 | h1
  · rw [h1, Nat.div_zero]
    omega
  · exact (ceil_facts h1).2.2 1 (by omega)

/-- If the threads suffice, every bucket is examined once. -/
theorem events3_flat {m : Nat → Nat} {bc size rounded w0 blocks : Nat} (h0 : 0 < w0) (h : rounded ≤ blocks * (w0 * 32)) (hr : bc ≤ rounded) :
    (events3 m bc size rounded (w0 * 32) blocks).flatten = (List.range bc).filterMap (q3 m bc size) := by
  have hb : ∀ b, b < blocks → ((List.range (iters3 rounded (w0 * 32) blocks b)).flatMap fun k => (List.range (w0 * 32 / 32)).map fun w =>
      found3 m bc size (w0 * 32) blocks b k w).flatten = (List.range' (0 + b * (w0 * 32)) (w0 * 32)).filterMap (q3 m bc size) := by
    intro b hbb
    rw [Nat.zero_add]
    by_cases hlt : b * (w0 * 32) < rounded
    · have h1 : iters3 rounded (w0 * 32) blocks b = 1 := by
        have := iters3_le (b := b) (show 0 < w0 * 32 by omega) h
        have h2 : 0 < iters3 rounded (w0 * 32) blocks b := by
          unfold iters3
          have : 0 < w0 * 32 * blocks := Nat.mul_pos (by omega) (by omega)
          exact (ceil_facts this).2.1 (by omega)
        omega
      rw [h1, show w0 * 32 / 32 = w0 by omega]
      simp only [List.range_one, List.flatMap_cons, List.flatMap_nil, List.append_nil, found3_eq]
      rw [← flatMap_chunks, filterMap_flatMap', List.flatMap_def]
    · have h1 : iters3 rounded (w0 * 32) blocks b = 0 := by
        unfold iters3
        rw [show rounded - b * (w0 * 32) = 0 by omega, Nat.zero_add]
        apply Nat.div_eq_of_lt
        have : 0 < w0 * 32 * blocks := Nat.mul_pos (by omega) (by omega)
        omega
      rw [h1]
      simp only [List.range_zero, List.flatMap_nil, List.flatten_nil]
      symm
      rw [List.filterMap_eq_nil_iff]
      intro i hi
      rw [List.mem_range'_1] at hi
      exact q3_none (by omega)
  have : (events3 m bc size rounded (w0 * 32) blocks).flatten =
      (List.range blocks).flatMap fun b => (List.range' (0 + b * (w0 * 32)) (w0 * 32)).filterMap (q3 m bc size) := by
    unfold events3
    rw [List.flatMap_def, List.flatten_flatten, List.map_map, List.flatMap_def]
    congr 1
    apply List.map_congr_left
    intro b hbm
    exact hb b (List.mem_range.1 hbm)
  rw [this, ← filterMap_flatMap', flatMap_chunks, List.range_eq_range']
  obtain ⟨k, hk⟩ : ∃ k, blocks * (w0 * 32) = bc + k := ⟨blocks * (w0 * 32) - bc, by omega⟩
  rw [hk, ← List.range'_append_1, List.filterMap_append]
  have : (List.range' (0 + bc) k).filterMap (q3 m bc size) = [] := by
    rw [List.filterMap_eq_nil_iff]
    intro i hi
    rw [List.mem_range'_1] at hi
    exact q3_none (by omega)
  rw [this, List.append_nil]

/-- Entries stored, in terms of the numbers of elements of the buckets -/
theorem found_entries {m : Nat → Nat} {bc size : Nat} (c : Nat → Nat) (hm : ∀ i, i < bc → m i = ((List.range i).map c).sum)
    (ht : ((List.range bc).map c).sum = size) :
    ((List.range bc).filterMap (q3 m bc size)).map conv =
      ((List.range bc).filter fun b => 0 < c b).map fun b => (b, ((List.range b).map c).sum, c b, 0) := by
  have hA : ∀ i, i ≤ bc → offA m bc size i = ((List.range i).map c).sum := by
    intro i hi
    unfold offA
    split
    · exact hm i (by assumption)
    · rw [show i = bc by omega, ht]
  have : ∀ l : List Nat, (∀ i ∈ l, i < bc) → (l.filterMap (q3 m bc size)).map conv =
      (l.filter fun b => 0 < c b).map fun b => (b, ((List.range b).map c).sum, c b, 0) := by
    intro l hl
    induction l with
    | nil => rfl
    | cons a l ih =>
      have ha := hl a List.mem_cons_self
      have e := sum_range_succ' c a
      have e0 := hA a (by omega)
      have e1 := hA (a + 1) (by omega)
      rw [List.filterMap_cons, List.filter_cons]
      unfold q3
      rw [e0, e1]
      by_cases hc : 0 < c a
      · rw [if_pos (by omega), if_pos (by simpa using hc)]
        simp only [List.map_cons]
        rw [← ih (fun i hi => hl i (List.mem_cons_of_mem _ hi))]
        unfold conv
        simp only
        rw [e, Nat.add_sub_cancel_left]
        rfl
      · rw [if_neg (by omega), if_neg (by simpa using hc)]
        exact ih (fun i hi => hl i (List.mem_cons_of_mem _ hi))
  exact this _ fun i hi => List.mem_range.1 hi

end Verif.CudaPerm
