import Verif.CudaScatter.Spec
import Mathlib.Data.List.Perm.Basic
import Mathlib.Data.List.Nodup
import Mathlib.Data.List.Sort
import Mathlib.Tactic.Ring

namespace Verif.CudaScatter
variable {V : Type}

/-! ### Classes of lanes with the same address -/

/-- The lanes of a class, in increasing order -/
def Group.cls (g : Group V) (shift c : Nat) : List Nat := (List.range 32).filter fun j => g.active j && g.index shift j == c

theorem cls_sorted (g : Group V) (shift c : Nat) : (g.cls shift c).Pairwise (· < ·) :=
  List.Pairwise.filter _ List.pairwise_lt_range

theorem mem_cls {g : Group V} {shift c j : Nat} : j ∈ g.cls shift c ↔ j < 32 ∧ g.active j = true ∧ g.index shift j = c := by
  unfold Group.cls
  simp [List.mem_filter, List.mem_range]

theorem cls_length (g : Group V) (shift c : Nat) : (g.cls shift c).length ≤ 32 := by
  have := List.length_filter_le (fun j => g.active j && g.index shift j == c) (List.range 32)
  rw [List.length_range] at this
  exact this

/-- Elements of a strictly sorted list below one of its elements -/
theorem filter_lt_getElem {l : List Nat} (h : l.Pairwise (· < ·)) {i : Nat} (hi : i < l.length) :
    l.filter (fun j => decide (j < l[i])) = l.take i := by
  have hg : ∀ a b (ha : a < l.length) (hb : b < l.length), a < b → l[a] < l[b] := fun a b ha hb hab =>
    List.pairwise_iff_getElem.1 h a b ha hb hab
  have h1 : (l.take i).filter (fun j => decide (j < l[i])) = l.take i := by
    apply List.filter_eq_self.2
    intro x hx
    obtain ⟨k, hk, rfl⟩ := List.mem_iff_getElem.1 hx
    rw [List.length_take] at hk
    rw [List.getElem_take]
    simpa using hg k i (by omega) hi (by omega)
  have h2 : (l.drop i).filter (fun j => decide (j < l[i])) = [] := by
    apply List.filter_eq_nil_iff.2
    intro x hx
    obtain ⟨k, hk, rfl⟩ := List.mem_iff_getElem.1 hx
    rw [List.length_drop] at hk
    rw [List.getElem_drop]
    rcases Nat.eq_zero_or_pos k with rfl | hk0
    · simp
    · have := hg i (i + k) hi (by omega) (by omega)
      simp; omega
  have h3 := List.filter_append (p := fun j => decide (j < l[i])) (l.take i) (l.drop i)
  rw [h1, h2, List.append_nil, List.take_append_drop] at h3
  exact h3

theorem rank_cls {g : Group V} {shift c i : Nat} (hi : i < (g.cls shift c).length) :
    g.rank shift (g.cls shift c)[i] = i := by
  have hm := mem_cls.1 (List.getElem_mem hi)
  unfold Group.rank popc Group.peers
  rw [hm.2.2]
  generalize hx : (g.cls shift c)[i] = x
  rw [show (List.range 32).filter (fun j => (g.active j && g.index shift j == c) && decide (j < x)) =
    (g.cls shift c).filter (fun j => decide (j < x)) by
      unfold Group.cls
      rw [List.filter_filter]
      apply List.filter_congr
      intro y _
      exact Bool.and_comm _ _]
  subst hx
  rw [filter_lt_getElem (cls_sorted g shift c) hi, List.length_take]
  omega

theorem exists_pos {g : Group V} {shift l : Nat} (hl : l < 32) (ha : g.active l = true) :
    ∃ r, ∃ hr : r < (g.cls shift (g.index shift l)).length, (g.cls shift (g.index shift l))[r] = l ∧ g.rank shift l = r := by
  obtain ⟨r, hr, e⟩ := List.mem_iff_getElem.1 (mem_cls.2 ⟨hl, ha, rfl⟩ : l ∈ g.cls shift (g.index shift l))
  refine ⟨r, hr, e, ?_⟩
  have := rank_cls (g := g) (shift := shift) (c := g.index shift l) hr
  rwa [e] at this

theorem cls_lt {g : Group V} {shift c a b : Nat} (ha : a < (g.cls shift c).length) (hb : b < (g.cls shift c).length) :
    (g.cls shift c)[a] < (g.cls shift c)[b] ↔ a < b := by
  have hg := List.pairwise_iff_getElem.1 (cls_sorted g shift c)
  constructor
  · intro h
    by_contra hc
    rcases Nat.lt_or_ge b a with h2 | h2
    · have := hg b a hb ha h2; omega
    · have : a = b := by omega
      subst this; omega
  · exact hg a b ha hb

/-! ### The segmented reduction -/

/-- State of the segmented reduction after `k` iterations -/
structure Inv (g : Group V) (op : V → V → V) (shift k : Nat) (s : Regs V) : Prop where
  rank : ∀ l, s.rank l = g.rank shift l / 2 ^ k
  peers : ∀ l < 32, g.active l = true → ∀ j < 32,
    (s.peers l j = true ↔ g.active j = true ∧ g.index shift j = g.index shift l ∧ l < j ∧ 2 ^ k ∣ g.rank shift j)
  val : ∀ l < 32, g.active l = true → 2 ^ k ∣ g.rank shift l → ∀ i,
    Bracketed op ((((g.cls shift (g.index shift l)).drop (g.rank shift l)).take (2 ^ k)).map fun j => g.val j i) (s.q l i)

theorem inv_start (g : Group V) (op : V → V → V) (shift : Nat) : Inv g op shift 0 (g.start shift) := by
  refine ⟨fun l => by simp [Group.start], fun l _ _ j _ => ?_, fun l hl ha _ i => ?_⟩
  · simp only [Group.start, Group.peers, Bool.and_eq_true, beq_iff_eq, decide_eq_true_eq, pow_zero, one_dvd, and_true]
    exact ⟨fun h => ⟨h.1.1, h.1.2, h.2⟩, fun h => ⟨⟨h.1, h.2.1⟩, h.2.2⟩⟩
  · obtain ⟨r, hr, e, hrk⟩ := exists_pos (shift := shift) hl ha
    rw [hrk, pow_zero]
    have : ((g.cls shift (g.index shift l)).drop r).take 1 = [l] := by
      rw [List.drop_eq_getElem_cons hr, e]; rfl
    rw [this]
    exact .one _

/-- The lane from which a value is read -/
theorem lowest_eq {g : Group V} {op : V → V → V} {shift k : Nat} {s : Regs V} (h : Inv g op shift k s) {l : Nat} (hl : l < 32)
    (ha : g.active l = true) (hd : 2 ^ k ∣ g.rank shift l) :
    lowest (s.peers l) = (g.cls shift (g.index shift l))[g.rank shift l + 2 ^ k]? := by
  obtain ⟨r, hr, e, hrk⟩ := exists_pos (shift := shift) hl ha
  rw [hrk] at hd ⊢
  have key : ∀ j < 32, s.peers l j = true → ∃ t, ∃ ht : t < (g.cls shift (g.index shift l)).length,
      (g.cls shift (g.index shift l))[t] = j ∧ r + 2 ^ k ≤ t ∧ 2 ^ k ∣ t := by
    intro j hj hp
    obtain ⟨h1, h2, h3, h4⟩ := (h.peers l hl ha j hj).1 hp
    obtain ⟨t, ht, e2⟩ := List.mem_iff_getElem.1 (mem_cls.2 ⟨hj, h1, h2⟩ : j ∈ g.cls shift (g.index shift l))
    have hrt := rank_cls (g := g) (shift := shift) (c := g.index shift l) ht
    rw [e2] at hrt
    rw [hrt] at h4
    have hlt : r < t := (cls_lt hr ht).1 (by rw [e, e2]; exact h3)
    refine ⟨t, ht, e2, ?_, h4⟩
    obtain ⟨a, rfl⟩ := hd
    obtain ⟨b, rfl⟩ := h4
    have : a < b := lt_of_mul_lt_mul_left hlt (Nat.zero_le _)
    calc 2 ^ k * a + 2 ^ k = 2 ^ k * (a + 1) := by ring
      _ ≤ 2 ^ k * b := Nat.mul_le_mul_left _ this
  unfold lowest
  by_cases hlen : r + 2 ^ k < (g.cls shift (g.index shift l)).length
  · rw [List.getElem?_eq_getElem hlen]
    have hm := mem_cls.1 (List.getElem_mem hlen)
    rw [List.find?_range_eq_some]
    refine ⟨?_, List.mem_range.2 hm.1, ?_⟩
    · refine (h.peers l hl ha _ hm.1).2 ⟨hm.2.1, hm.2.2, ?_, ?_⟩
      · have := (cls_lt hr hlen).2 (by have := Nat.pos_of_ne_zero (pow_ne_zero k (two_ne_zero : (2 : Nat) ≠ 0)); omega)
        rwa [e] at this
      · rw [rank_cls hlen]; exact (Nat.dvd_add_right hd).2 (dvd_refl _)
    · intro j hj
      rw [Bool.not_eq_true', Bool.eq_false_iff]
      intro hp
      obtain ⟨t, ht, e2, h5, -⟩ := key j (by omega) hp
      rw [← e2] at hj
      have := (cls_lt ht hlen).1 hj
      omega
  · rw [List.getElem?_eq_none (by omega), List.find?_range_eq_none]
    intro j hj
    rw [Bool.not_eq_true', Bool.eq_false_iff]
    intro hp
    obtain ⟨t, ht, e2, h5, -⟩ := key j hj hp
    omega

theorem dvd_iff_even {k n : Nat} (h : 2 ^ k ∣ n) : n / 2 ^ k % 2 = 0 ↔ 2 ^ (k + 1) ∣ n := by
  obtain ⟨a, rfl⟩ := h
  have hp : 0 < 2 ^ k := Nat.pos_of_ne_zero (pow_ne_zero k two_ne_zero)
  rw [Nat.mul_div_cancel_left _ hp, pow_succ, Nat.mul_dvd_mul_iff_left hp]
  omega

theorem inv_round {g : Group V} {op : V → V → V} {shift k : Nat} {s : Regs V} (h : Inv g op shift k s) :
    Inv g op shift (k + 1) (g.round op s) := by
  refine ⟨fun l => ?_, fun l hl ha j hj => ?_, fun l hl ha hd i => ?_⟩
  · simp only [Group.round]
    rw [h.rank l, Nat.div_div_eq_div_mul, pow_succ]
  · simp only [Group.round, Bool.and_eq_true, beq_iff_eq]
    rw [h.peers l hl ha j hj, h.rank j]
    constructor
    · rintro ⟨⟨h1, h2, h3, h4⟩, -, h5⟩
      exact ⟨h1, h2, h3, (dvd_iff_even h4).1 h5⟩
    · rintro ⟨h1, h2, h3, h4⟩
      have h5 : 2 ^ k ∣ g.rank shift j := dvd_trans (pow_dvd_pow 2 (Nat.le_succ k)) h4
      exact ⟨⟨h1, h2, h3, h5⟩, h1, (dvd_iff_even h5).2 h4⟩
  · have hd' : 2 ^ k ∣ g.rank shift l := dvd_trans (pow_dvd_pow 2 (Nat.le_succ k)) hd
    have hv := h.val l hl ha hd' i
    simp only [Group.round]
    rw [lowest_eq h hl ha hd']
    have e2 : (2 : Nat) ^ (k + 1) = 2 ^ k + 2 ^ k := by rw [pow_succ]; ring
    by_cases hlen : g.rank shift l + 2 ^ k < (g.cls shift (g.index shift l)).length
    · rw [List.getElem?_eq_getElem hlen]
      simp only
      have hm := mem_cls.1 (List.getElem_mem hlen)
      have hrk := rank_cls hlen
      have hd2 : 2 ^ k ∣ g.rank shift (g.cls shift (g.index shift l))[g.rank shift l + 2 ^ k] := by
        rw [hrk]; exact (Nat.dvd_add_right hd').2 (dvd_refl _)
      have hv2 := h.val _ hm.1 hm.2.1 hd2 i
      rw [hm.2.2, hrk] at hv2
      have hj := Bracketed.join hv hv2
      rw [← List.map_append] at hj
      rw [e2, List.take_add, List.drop_drop]
      exact hj
    · rw [List.getElem?_eq_none (by omega)]
      simp only
      have hle : ((g.cls shift (g.index shift l)).drop (g.rank shift l)).length ≤ 2 ^ k := by
        rw [List.length_drop]; omega
      rw [List.take_of_length_le (by omega)]
      rwa [List.take_of_length_le hle] at hv

theorem inv_done {g : Group V} {op : V → V → V} {shift k : Nat} {s : Regs V} (h : Inv g op shift k s)
    (hd : ∀ l < 32, g.active l → ∀ j < 32, s.peers l j = false) {l : Nat} (hl : l < 32) (ha : g.active l = true)
    (hr : g.rank shift l = 0) (i : Nat) : Bracketed op ((g.cls shift (g.index shift l)).map fun j => g.val j i) (s.q l i) := by
  have hv := h.val l hl ha (by rw [hr]; exact dvd_zero _) i
  rw [hr, List.drop_zero, List.take_of_length_le] at hv
  · exact hv
  · by_contra hc
    have hlow := lowest_eq h hl ha (by rw [hr]; exact dvd_zero _)
    rw [hr, Nat.zero_add, List.getElem?_eq_getElem (by omega)] at hlow
    unfold lowest at hlow
    rw [List.find?_range_eq_some] at hlow
    rw [hd l hl ha _ (List.mem_range.1 hlow.2.1)] at hlow
    exact absurd hlow.1 (by simp)

theorem loop_spec {g : Group V} {op : V → V → V} {shift : Nat} {s s' : Regs V} (hL : g.Loop op s s') :
    ∀ k, Inv g op shift k s → ∀ l < 32, g.active l = true → g.rank shift l = 0 → ∀ i,
      Bracketed op ((g.cls shift (g.index shift l)).map fun j => g.val j i) (s'.q l i) := by
  induction hL with
  | done hd => intro k h l hl ha hr i; exact inv_done h hd hl ha hr i
  | next _ _ ih => intro k h l hl ha hr i; exact ih (k + 1) (inv_round h) l hl ha hr i

theorem loop_exists {g : Group V} {op : V → V → V} {shift : Nat} (d : Nat) : ∀ k s, k + d = 5 → Inv g op shift k s → ∃ s', g.Loop op s s' := by
  have hdone : ∀ s, Inv g op shift 5 s → ∀ l < 32, g.active l → ∀ j < 32, s.peers l j = false := by
    intro s h l hl ha j hj
    rw [Bool.eq_false_iff]
    intro hp
    obtain ⟨h1, h2, h3, h4⟩ := (h.peers l hl ha j hj).1 hp
    obtain ⟨r, hr, e, hrk⟩ := exists_pos (shift := shift) hj h1
    obtain ⟨r', hr', e', hrk'⟩ := exists_pos (shift := shift) hl ha
    have hlen := cls_length g shift (g.index shift j)
    rw [hrk] at h4
    have : r = 0 := Nat.eq_zero_of_dvd_of_lt h4 (by omega)
    subst this
    have hlt : r' < 0 := by
      have hc : g.cls shift (g.index shift j) = g.cls shift (g.index shift l) := by rw [h2]
      refine (cls_lt (g := g) (shift := shift) (c := g.index shift l) hr' (by rw [← hc]; exact hr)).1 ?_
      rw [e']
      have : (g.cls shift (g.index shift l))[0]'(by rw [← hc]; exact hr) = j := by
        simp only [← hc]; exact e
      rw [this]; exact h3
    omega
  induction d with
  | zero =>
    intro k s hk h
    have : k = 5 := by omega
    subst this
    exact ⟨s, .done (hdone s h)⟩
  | succ d ih =>
    intro k s hk h
    by_cases hd : ∀ l < 32, g.active l → ∀ j < 32, s.peers l j = false
    · exact ⟨s, .done hd⟩
    · obtain ⟨s', hs'⟩ := ih (k + 1) (g.round op s) (by omega) (inv_round h)
      exact ⟨s', .next hd hs'⟩

/-! ### The butterfly -/

theorem xor_pow : ∀ k < 5, ∀ l < 32, l % 2 ^ (k + 1) = 0 → l ^^^ 2 ^ k = l + 2 ^ k := by decide

theorem bfly_step {op : V → V → V} {v q : Nat → Nat → V} {k : Nat} (hk : k < 5)
    (h : ∀ l < 32, l % 2 ^ k = 0 → ∀ i, Bracketed op ((List.range' l (2 ^ k)).map fun j => v j i) (q l i)) :
    ∀ l < 32, l % 2 ^ (k + 1) = 0 → ∀ i, Bracketed op ((List.range' l (2 ^ (k + 1))).map fun j => v j i) (bfly op q (2 ^ k) l i) := by
  intro l hl hm i
  unfold bfly
  rw [xor_pow k hk l hl hm]
  have h1 : ∀ k < 5, ∀ l < 32, l % 2 ^ (k + 1) = 0 → l % 2 ^ k = 0 ∧ (l + 2 ^ k) % 2 ^ k = 0 ∧ l + 2 ^ k < 32 := by decide
  obtain ⟨h2, h3, h4⟩ := h1 k hk l hl hm
  have hj := Bracketed.join (h l hl h2 i) (h (l + 2 ^ k) h4 h3 i)
  rw [← List.map_append] at hj
  have e2 : (2 : Nat) ^ (k + 1) = 2 ^ k + 2 ^ k := by rw [pow_succ]; ring
  rw [e2, ← List.range'_append_1]
  exact hj

theorem butterfly_spec (op : V → V → V) (v : Nat → Nat → V) (i : Nat) :
    Bracketed op ((List.range 32).map fun j => v j i) (butterfly op v 0 i) := by
  have h0 : ∀ l < 32, l % 2 ^ 0 = 0 → ∀ i, Bracketed op ((List.range' l (2 ^ 0)).map fun j => v j i) (v l i) := fun l _ _ i => .one _
  have h5 := bfly_step (k := 4) (by omega) (bfly_step (k := 3) (by omega) (bfly_step (k := 2) (by omega) (bfly_step (k := 1) (by omega)
    (bfly_step (k := 0) (by omega) h0)))) 0 (by omega) (by decide) i
  rw [List.range_eq_range']
  exact h5

end Verif.CudaScatter
