import Verif.CudaPerm.Model
import Mathlib.Data.List.Perm.Basic
import Mathlib.Data.List.Nodup

/-! Stores, loops, lists of steps -/

namespace Verif.CudaPerm

/-! ### Stores -/

theorem applyWrites_not {α : Type} [DecidableEq α] (ws : List (α × Nat)) (m : α → Nat) (a : α)
    (h : ∀ w ∈ ws, w.1 ≠ a) : applyWrites ws m a = m a := by
  unfold applyWrites
  induction ws generalizing m with
  | nil => rfl
  | cons w ws ih =>
    rw [List.foldl_cons, ih _ (fun x hx => h x (List.mem_cons_of_mem _ hx)),
      Function.update_of_ne (Ne.symm (h w List.mem_cons_self))]

theorem applyWrites_mem {α : Type} [DecidableEq α] (ws : List (α × Nat)) (m : α → Nat) (a : α) (x : Nat)
    (h1 : (a, x) ∈ ws) (h2 : ∀ w ∈ ws, w.1 = a → w.2 = x) : applyWrites ws m a = x := by
  induction ws generalizing m with
  | nil => simp at h1
  | cons w ws ih =>
    have e : applyWrites (w :: ws) m = applyWrites ws (Function.update m w.1 w.2) := rfl
    rw [e]
    by_cases hm : (a, x) ∈ ws
    · exact ih _ hm (fun y hy => h2 y (List.mem_cons_of_mem _ hy))
    · have hw : w = (a, x) := by
        rcases List.mem_cons.1 h1 with h | h
        · exact h.symm
        · exact absurd h hm
      rw [applyWrites_not]
      · rw [hw]; exact Function.update_self ..
      · intro y hy hya
        apply hm
        have := h2 y (List.mem_cons_of_mem _ hy) hya
        obtain ⟨y1, y2⟩ := y
        simp only at hya this
        subst hya this
        exact hy

/-! ### Loops -/

theorem ceil_iff {a s k : Nat} (hs : 0 < s) : k < (a + s - 1) / s ↔ k * s < a := by
  rw [Nat.lt_iff_add_one_le, Nat.le_div_iff_mul_le hs, Nat.add_mul, Nat.one_mul]
  omega

theorem mem_strided {start stop step i : Nat} (hs : 0 < step) :
    i ∈ strided start stop step ↔ i < stop ∧ ∃ k, i = start + k * step := by
  unfold strided
  simp only [List.mem_map, List.mem_range, ceil_iff hs]
  constructor
  · rintro ⟨k, h, rfl⟩
    exact ⟨by omega, k, rfl⟩
  · rintro ⟨h, k, rfl⟩
    exact ⟨k, by omega, rfl⟩

theorem nodup_strided (start stop step : Nat) (hs : 0 < step) : (strided start stop step).Nodup := by
  unfold strided
  refine List.Nodup.map ?_ List.nodup_range
  intro a b h
  have h : start + a * step = start + b * step := h
  exact Nat.eq_of_mul_eq_mul_right hs (by omega)

/-- The loops `for (i = t; i < n; i += T)` of all threads `t < T` cover all indices. -/
theorem mem_threads {n T i : Nat} (hT : 0 < T) (hi : i < n) : ∃ t, t < T ∧ i ∈ strided t n T := by
  refine ⟨i % T, Nat.mod_lt _ hT, (mem_strided hT).2 ⟨hi, i / T, ?_⟩⟩
  have := Nat.mod_add_div i T
  rw [Nat.mul_comm] at this
  omega

theorem copy_mem {α : Type} {n S T : Nat} (hT : 0 < T) (f : Nat → Nat → α × Nat) {b i : Nat} (hb : b < n) (hi : i < S) :
    f b i ∈ (List.range n).flatMap fun b => (List.range T).flatMap fun t => (strided t S T).map fun i => f b i := by
  obtain ⟨t, ht, hm⟩ := mem_threads hT hi
  simp only [List.mem_flatMap, List.mem_range, List.mem_map]
  exact ⟨b, hb, t, ht, i, hm, rfl⟩

theorem copy_inv {α : Type} {n S T : Nat} (hT : 0 < T) (f : Nat → Nat → α × Nat) {w : α × Nat}
    (h : w ∈ (List.range n).flatMap fun b => (List.range T).flatMap fun t => (strided t S T).map fun i => f b i) :
    ∃ b i, b < n ∧ i < S ∧ w = f b i := by
  simp only [List.mem_flatMap, List.mem_range, List.mem_map] at h
  obtain ⟨b, hb, t, _, i, hm, rfl⟩ := h
  exact ⟨b, i, hb, ((mem_strided hT).1 hm).1, rfl⟩

/-! ### Lists -/

theorem flatMap_single {α : Type} {n i : Nat} (f : Nat → List α) (hi : i < n) (h : ∀ k, k < n → k ≠ i → f k = []) :
    (List.range n).flatMap f = f i := by
  induction n with
  | zero => omega
  | succ n ih =>
    rw [List.range_succ, List.flatMap_append, List.flatMap_cons, List.flatMap_nil, List.append_nil]
    by_cases e : i = n
    · subst e
      rw [List.flatMap_eq_nil_iff.2, List.nil_append]
      intro k hk
      have := List.mem_range.1 hk
      exact h k (by omega) (by omega)
    · rw [ih (by omega) (fun k hk => h k (by omega)), h n (by omega) (Ne.symm e), List.append_nil]

theorem flatMap_chunks (s c n : Nat) : (List.range n).flatMap (fun k => List.range' (s + k * c) c) = List.range' s (n * c) := by
  induction n with
  | zero => simp
  | succ n ih =>
    rw [List.range_succ, List.flatMap_append, ih, List.flatMap_cons, List.flatMap_nil, List.append_nil, Nat.add_mul,
      Nat.one_mul, List.range'_append_1]

theorem flatMap_filter {α β : Type} (l : List α) (f : α → List β) (q : β → Bool) :
    (l.flatMap f).filter q = l.flatMap fun x => (f x).filter q := by
  induction l with
  | nil => rfl
  | cons a l ih => rw [List.flatMap_cons, List.filter_append, ih, List.flatMap_cons]

theorem range'_filter_lt (s n e : Nat) : (List.range' s n).filter (fun i => i < e) = List.range' s (min n (e - s)) := by
  induction n generalizing s with
  | zero => simp
  | succ n ih =>
    rw [List.range'_succ, List.filter_cons, ih]
    by_cases h : s < e
    · rw [if_pos (by simpa using h), show min (n + 1) (e - s) = min n (e - (s + 1)) + 1 by omega, List.range'_succ]
    · rw [if_neg (by simpa using h), show min (n + 1) (e - s) = 0 by omega, show min n (e - (s + 1)) = 0 by omega]
      rfl

theorem map_range32 (base : Nat) : (List.range 32).map (fun l => base + l) = List.range' base 32 := by
  rw [List.range_eq_range', List.map_add_range', Nat.add_zero]

end Verif.CudaPerm
