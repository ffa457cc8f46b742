import Verif.FreeSlots.Spec
/-! Helper lemmas for the slot recycler. -/
namespace Verif.FreeSlots

/-- Is slot `i` marked free in the bitmap? -/
def bit (ws : List (BitVec 64)) (i : Nat) : Bool := (ws.getD (i / 64) 0#64).getLsbD (i % 64)

theorem and_pred_getLsbD (x : BitVec 64) (hx : x ≠ 0#64) (i : Nat) :
    (x &&& (x - 1#64)).getLsbD i = (x.getLsbD i && decide (i ≠ x.ctz.toNat)) := by
  have ht := BitVec.getLsbD_true_ctz_of_ne_zero hx
  have hlow : ∀ j, j < x.ctz.toNat → x.getLsbD j = false :=
    fun j hj => BitVec.getLsbD_false_of_lt_ctz hj
  generalize x.ctz.toNat = t at ht hlow
  have hpos : 0 < x.toNat := by
    rcases Nat.eq_zero_or_pos x.toNat with h | h
    · exact absurd (BitVec.eq_of_toNat_eq (by simpa using h)) hx
    · exact h
  -- `x = 2^t * (2m+1)`
  have hmod : x.toNat % 2 ^ t = 0 := by
    apply Nat.eq_of_testBit_eq
    intro j
    rw [Nat.testBit_mod_two_pow, Nat.zero_testBit]
    by_cases hj : j < t
    · have := hlow j hj
      rw [BitVec.getLsbD] at this
      simp [this]
    · simp [hj]
  have hodd : x.toNat / 2 ^ t % 2 = 1 := by
    rw [BitVec.getLsbD, Nat.testBit_eq_decide_div_mod_eq] at ht
    simpa using ht
  have hx' : x.toNat = 2 ^ t * (2 * (x.toNat / 2 ^ t / 2) + 1) := by
    have h1 := Nat.div_add_mod x.toNat (2 ^ t)
    have h2 := Nat.div_add_mod (x.toNat / 2 ^ t) 2
    rw [hodd] at h2
    rw [h2]
    omega
  generalize x.toNat / 2 ^ t / 2 = m at hx'
  have hsub : (x - 1#64).toNat = 2 ^ t * (2 * m) + (2 ^ t - 1) := by
    have hlt := x.isLt
    have hp : 0 < 2 ^ t := Nat.two_pow_pos t
    rw [BitVec.toNat_sub]
    have e : 2 ^ 64 - (1#64).toNat + x.toNat = 2 ^ 64 + (x.toNat - 1) := by
      simp; omega
    rw [e, Nat.add_mod_left, Nat.mod_eq_of_lt (by omega)]
    rw [hx', Nat.mul_add, Nat.mul_one]
    omega
  rw [BitVec.getLsbD_and, BitVec.getLsbD, BitVec.getLsbD, hsub,
    Nat.testBit_two_pow_mul_add _ (by have := Nat.two_pow_pos t; omega)]
  rw [hx', Nat.testBit_two_pow_mul]
  by_cases h1 : i < t
  · have : ¬ (i ≥ t) := by omega
    simp [this]
  · by_cases h2 : i = t
    · subst h2; simp
    · obtain ⟨k, rfl⟩ : ∃ k, i = t + (k + 1) := ⟨i - t - 1, by omega⟩
      have e1 : t + (k + 1) - t = k + 1 := by omega
      have h3 : ¬ (t + (k + 1) < t) := by omega
      simp only [e1, h3, if_false]
      rw [Nat.testBit_add_one, Nat.testBit_add_one]
      have : (2 * m + 1) / 2 = 2 * m / 2 := by omega
      simp [this]

theorem scan_some (ws : List (BitVec 64)) (c r : Nat) (h : scan ws c = some r) :
    c ≤ r ∧ r < ws.length ∧ ws.getD r 0#64 ≠ 0#64 ∧
      ∀ j, c ≤ j → j < r → ws.getD j 0#64 = 0#64 := by
  fun_induction scan ws c with
  | case1 c hc h0 ih =>
    obtain ⟨a, b, d, e⟩ := ih h
    refine ⟨by omega, b, d, fun j h1 h2 => ?_⟩
    by_cases hj : j = c
    · subst hj; simp [List.getD_eq_getElem?_getD, List.getElem?_eq_getElem hc, h0]
    · exact e j (by omega) h2
  | case2 c hc h0 =>
    cases h
    refine ⟨Nat.le_refl _, hc, ?_, fun j h1 h2 => by omega⟩
    simpa [List.getD_eq_getElem?_getD, List.getElem?_eq_getElem hc] using h0
  | case3 => simp at h

theorem scan_none (ws : List (BitVec 64)) (c : Nat) (h : scan ws c = none) :
    ∀ j, c ≤ j → ws.getD j 0#64 = 0#64 := by
  fun_induction scan ws c with
  | case1 c hc h0 ih =>
    intro j hj
    by_cases hj : j = c
    · subst hj; simp [List.getD_eq_getElem?_getD, List.getElem?_eq_getElem hc, h0]
    · exact ih h j (by omega)
  | case2 => simp at h
  | case3 c hc =>
    intro j hj
    simp [List.getD_eq_getElem?_getD, List.getElem?_eq_none (show ws.length ≤ j by omega)]

theorem getD_set (ws : List (BitVec 64)) (i j : Nat) (x : BitVec 64) (hi : i < ws.length) :
    (ws.set i x).getD j 0#64 = if j = i then x else ws.getD j 0#64 := by
  simp only [List.getD_eq_getElem?_getD, List.getElem?_set]
  by_cases h : i = j
  · subst h; simp [hi]
  · have : j ≠ i := fun e => h e.symm
    simp [h, this]

theorem getD_growTo (ws : List (BitVec 64)) (w j : Nat) :
    (growTo ws w).getD j 0#64 = ws.getD j 0#64 := by
  unfold growTo
  split
  · simp only [List.getD_eq_getElem?_getD]
    by_cases h : j < ws.length
    · rw [List.getElem?_append_left h]
    · rw [List.getElem?_append_right (by omega), List.getElem?_eq_none (l := ws) (by omega)]
      rw [List.getElem?_replicate]
      split <;> simp
  · rfl

theorem length_growTo (ws : List (BitVec 64)) (w : Nat) : w < (growTo ws w).length := by
  unfold growTo
  split
  · simp only [List.length_append, List.length_replicate]; omega
  · omega

theorem mem_sinsert (i j : Nat) (l : List Nat) : j ∈ sinsert i l ↔ j = i ∨ j ∈ l := by
  induction l with
  | nil => simp [sinsert]
  | cons a l ih => unfold sinsert; split <;> simp [ih] <;> grind

theorem sorted_sinsert (i : Nat) (l : List Nat) (h : l.Pairwise (· < ·)) (hi : i ∉ l) :
    (sinsert i l).Pairwise (· < ·) := by
  induction l with
  | nil => simp [sinsert]
  | cons a l ih =>
    rw [List.pairwise_cons] at h
    simp only [List.mem_cons, not_or] at hi
    unfold sinsert
    split
    · rename_i hlt
      rw [List.pairwise_cons, List.pairwise_cons]
      refine ⟨?_, h.1, h.2⟩
      intro x hx
      rcases List.mem_cons.1 hx with rfl | hx
      · exact hlt
      · exact Nat.lt_trans hlt (h.1 x hx)
    · rw [List.pairwise_cons]
      refine ⟨?_, ih h.2 hi.2⟩
      intro x hx
      rcases (mem_sinsert _ _ _).1 hx with rfl | hx
      · omega
      · exact h.1 x hx

theorem length_sinsert (i : Nat) (l : List Nat) : (sinsert i l).length = l.length + 1 := by
  induction l with
  | nil => simp [sinsert]
  | cons a l ih => unfold sinsert; split <;> simp [ih]

/-- The representation invariant relating the bitmap to the abstract set. -/
structure Rep (s : FreeSlots) (S : List Nat) : Prop where
  sorted : S.Pairwise (· < ·)
  bits : ∀ i, i ∈ S ↔ bit s.words i = true
  low : ∀ w, w < s.cursor → s.words.getD w 0#64 = 0#64
  count : s.count = S.length
  bound : ∀ i ∈ S, i < 2 ^ 32

theorem rep_init : Rep {} [] where
  sorted := List.Pairwise.nil
  bits := by intro i; simp [bit]
  low := by intro w hw; simp at hw
  count := rfl
  bound := by simp

theorem rep_push {s : FreeSlots} {S : List Nat} (h : Rep s S) (i : Nat) (hi : i ∉ S)
    (h32 : i < 2 ^ 32) : Rep (s.push i) (sinsert i S) where
  sorted := sorted_sinsert i S h.sorted hi
  bits := by
    intro j
    rw [mem_sinsert, h.bits j]
    simp only [bit, FreeSlots.push]
    rw [getD_set _ _ _ _ (length_growTo _ _)]
    simp only [getD_growTo]
    by_cases hw : j / 64 = i / 64
    · simp only [hw, if_true, BitVec.getLsbD_or, BitVec.getLsbD_shiftLeft, Bool.or_eq_true]
      have : j = i ↔ (decide (j % 64 < 64) && !decide (j % 64 < i % 64) &&
          (1#64).getLsbD (j % 64 - i % 64)) = true := by
        simp only [BitVec.getLsbD_one]
        simp
        omega
      rw [this]
      exact Or.comm
    · have : j ≠ i := fun e => hw (by rw [e])
      simp [hw, this]
  low := by
    intro w hw
    simp only [FreeSlots.push] at hw ⊢
    have h1 : w < s.cursor := by omega
    have h2 : w ≠ i / 64 := by omega
    rw [getD_set _ _ _ _ (length_growTo _ _), if_neg h2, getD_growTo]
    exact h.low w h1
  count := by simp [FreeSlots.push, length_sinsert, h.count]
  bound := by
    intro j hj
    rcases (mem_sinsert _ _ _).1 hj with rfl | hj
    · exact h32
    · exact h.bound j hj

theorem rep_pop {s : FreeSlots} {m : Nat} {S : List Nat} (h : Rep s (m :: S)) :
    ∃ s', s.pop = some (m, s') ∧ Rep s' S := by
  have hm : bit s.words m = true := (h.bits m).1 (by simp)
  have hmw : s.words.getD (m / 64) 0#64 ≠ 0#64 := by
    intro e
    rw [bit, e] at hm
    simp at hm
  have hmc : s.cursor ≤ m / 64 := by
    rcases Nat.lt_or_ge (m / 64) s.cursor with hlt | hge
    · exact absurd (h.low _ hlt) hmw
    · exact hge
  unfold FreeSlots.pop
  cases hs : scan s.words s.cursor with
  | none => exact absurd (scan_none _ _ hs _ hmc) hmw
  | some c =>
    obtain ⟨h1, h2, h3, h4⟩ := scan_some _ _ _ hs
    simp only
    generalize hb : s.words.getD c 0#64 = b at *
    have hct := BitVec.getLsbD_true_ctz_of_ne_zero h3
    have hlo : ∀ j, j < b.ctz.toNat → b.getLsbD j = false :=
      fun j hj => BitVec.getLsbD_false_of_lt_ctz hj
    have hclear := and_pred_getLsbD b h3
    generalize b.ctz.toNat = t at *
    have ht : t < 64 := BitVec.lt_of_getLsbD hct
    have hle : m / 64 ≥ c := by
      rcases Nat.lt_or_ge (m / 64) c with hlt | hge
      · exact absurd (h4 _ hmc hlt) hmw
      · exact hge
    have hmin : c * 64 + t ∈ m :: S := by
      rw [h.bits, bit]
      have e1 : (c * 64 + t) / 64 = c := by omega
      have e2 : (c * 64 + t) % 64 = t := by omega
      rw [e1, e2, hb]; exact hct
    have hmle : m ≤ c * 64 + t := by
      rcases List.mem_cons.1 hmin with e | e
      · omega
      · have := (List.pairwise_cons.1 h.sorted).1 _ e; omega
    have hmeq : m = c * 64 + t := by
      have hc : m / 64 = c := by omega
      have : ¬ (m % 64 < t) := by
        intro hlt
        have := hlo _ hlt
        rw [bit, hc, hb] at hm
        rw [hm] at this; exact absurd this (by simp)
      omega
    refine ⟨_, by rw [← hmeq, Nat.mod_eq_of_lt (h.bound m (by simp))], ?_⟩
    have hsort := List.pairwise_cons.1 h.sorted
    exact {
      sorted := hsort.2
      bits := by
        intro i
        have hi := h.bits i
        have hne : i ∈ S → i ≠ m := fun hS => by have := hsort.1 _ hS; omega
        have key : (i ∈ S) ↔ (bit s.words i = true ∧ i ≠ m) := by
          rw [← hi, List.mem_cons]; grind
        rw [key]
        simp only [bit]
        rw [getD_set _ _ _ _ h2]
        by_cases hw : i / 64 = c
        · rw [if_pos hw, hclear, hw, hb]
          simp
          intro _
          omega
        · rw [if_neg hw]
          have : i ≠ m := by omega
          simp [this]
      low := by
        intro w hw
        simp only at hw ⊢
        rw [getD_set _ _ _ _ h2, if_neg (by omega)]
        rcases Nat.lt_or_ge w s.cursor with h5 | h5
        · exact h.low w h5
        · exact h4 w h5 hw
      count := by simp [h.count]
      bound := fun i hi => h.bound i (by simp [hi]) }

theorem run_refines (ops : List Op) : ∀ {s : FreeSlots} {S : List Nat} {outs : List Out},
    Rep s S → specRun S ops = some outs → s.run ops = some outs := by
  induction ops with
  | nil => intro s S outs _ h; simpa [specRun, FreeSlots.run] using h
  | cons o os ih =>
    intro s S outs hr h
    cases o with
    | push i =>
      simp only [specRun, specStep] at h
      by_cases hi : i < 2 ^ 32 ∧ i ∉ S
      · simp only [hi, not_false_eq_true, and_self, if_true] at h
        simp only [FreeSlots.run, FreeSlots.step]
        cases hx : specRun (sinsert i S) os with
        | none => simp [hx] at h
        | some o' =>
          rw [ih (rep_push hr i hi.2 hi.1) hx]
          simpa [hx] using h
      · simp [hi] at h
    | pop =>
      cases S with
      | nil => simp [specRun, specStep] at h
      | cons m S =>
        obtain ⟨s', e, hr'⟩ := rep_pop hr
        simp only [specRun, specStep] at h
        simp only [FreeSlots.run, FreeSlots.step, e]
        cases hx : specRun S os with
        | none => simp [hx] at h
        | some o' =>
          rw [ih hr' hx]
          simpa [hx] using h
    | isEmpty =>
      simp only [specRun, specStep] at h
      simp only [FreeSlots.run, FreeSlots.step]
      cases hx : specRun S os with
      | none => simp [hx] at h
      | some o' =>
        rw [ih hr hx]
        have : s.empty = S.isEmpty := by
          simp only [FreeSlots.empty, hr.count]
          cases S <;> simp
        simpa [hx, this] using h

end Verif.FreeSlots
