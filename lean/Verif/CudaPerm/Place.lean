import Verif.CudaPerm.Lemmas
import Mathlib.Data.List.Induction

/-! Histograms and placement, for an arbitrary order of the steps -/

namespace Verif.CudaPerm

/-- Histogram entry of a step -/
def Plan.slotE (p : Plan) (e : Ev) : Nat × Nat := p.slot e.g e.sub e.w e.val

/-- Elements of a step -/
def Ev.elems (e : Ev) : List Nat := e.lanes.map fun l => e.base + l

/-- Elements placed with the help of a histogram entry, in the order of the steps -/
def Plan.E (p : Plan) (σ : List Ev) (s : Nat × Nat) : List Nat := (σ.filter fun e => p.slotE e = s).flatMap Ev.elems

theorem Plan.E_append (p : Plan) (σ τ : List Ev) (s : Nat × Nat) : p.E (σ ++ τ) s = p.E σ s ++ p.E τ s := by
  unfold Plan.E
  rw [List.filter_append, List.flatMap_append]

theorem Plan.E_single (p : Plan) (e : Ev) (s : Nat × Nat) : p.E [e] s = if p.slotE e = s then e.elems else [] := by
  unfold Plan.E
  by_cases h : p.slotE e = s <;> simp [h]

theorem Plan.E_perm (p : Plan) {σ τ : List Ev} (h : σ.Perm τ) (s : Nat × Nat) : (p.E σ s).Perm (p.E τ s) :=
  (h.filter _).flatMap_right _

theorem count_spec (p : Plan) (σ : List Ev) (h : Nat × Nat → Nat) (s : Nat × Nat) :
    σ.foldl p.count h s = h s + (p.E σ s).length := by
  induction σ using List.reverseRecOn with
  | nil => simp [Plan.E]
  | append_singleton τ e ih =>
    rw [List.foldl_append, List.foldl_cons, List.foldl_nil, p.E_append, p.E_single, List.length_append]
    change Function.update (List.foldl p.count h τ) (p.slotE e) (List.foldl p.count h τ (p.slotE e) + e.lanes.length) s = _
    by_cases hs : p.slotE e = s
    · subst hs
      rw [if_pos rfl, Function.update_self]
      rw [ih]
      simp [Ev.elems, Nat.add_assoc]
    · rw [if_neg hs, Function.update_of_ne (Ne.symm hs), ih]
      rfl

theorem rel_get (l : List Nat) (h : l.Pairwise (· < ·)) (k : Nat) (hk : k < l.length) : rel l l[k] = k := by
  unfold rel
  induction l generalizing k with
  | nil => simp at hk
  | cons x xs ih =>
    obtain ⟨h1, h2⟩ := List.pairwise_cons.1 h
    cases k with
    | zero =>
      rw [List.getElem_cons_zero, List.filter_cons, if_neg (by simp), List.length_eq_zero_iff, List.filter_eq_nil_iff]
      intro a ha
      have := h1 a ha
      simp
      omega
    | succ k =>
      have hk' : k < xs.length := by simpa using hk
      have := h1 xs[k] (List.getElem_mem hk')
      rw [List.getElem_cons_succ, List.filter_cons, if_pos (by simpa using this), List.length_cons, ih h2 k hk']

theorem write_run (lanes : List Nat) (h : lanes.Pairwise (· < ·)) (A base : Nat) (m : Nat → Nat) :
    (∀ k (hk : k < lanes.length), applyWrites (lanes.map fun l => (A + rel lanes l, base + l)) m (A + k) = base + lanes[k]) ∧
    ∀ a, (∀ k, k < lanes.length → A + k ≠ a) → applyWrites (lanes.map fun l => (A + rel lanes l, base + l)) m a = m a := by
  constructor
  · intro k hk
    apply applyWrites_mem
    · rw [List.mem_map]
      exact ⟨lanes[k], List.getElem_mem hk, by rw [rel_get lanes h k hk]⟩
    · intro w hw e
      rw [List.mem_map] at hw
      obtain ⟨l, hl, rfl⟩ := hw
      obtain ⟨k', hk', rfl⟩ := List.getElem_of_mem hl
      rw [rel_get lanes h k' hk'] at e
      have : k' = k := by simp only at e; omega
      subst this
      rfl
  · intro a ha
    apply applyWrites_not
    intro w hw
    rw [List.mem_map] at hw
    obtain ⟨l, hl, rfl⟩ := hw
    obtain ⟨k', hk', rfl⟩ := List.getElem_of_mem hl
    rw [rel_get lanes h k' hk']
    exact ha k' hk'

theorem place_fst (p : Plan) (σ : List Ev) (h : Nat × Nat → Nat) (m : Nat → Nat) :
    (σ.foldl p.place (h, m)).1 = σ.foldl p.count h := by
  induction σ using List.reverseRecOn with
  | nil => rfl
  | append_singleton τ e ih => rw [List.foldl_append, List.foldl_append, List.foldl_cons, List.foldl_nil, List.foldl_cons, List.foldl_nil, ← ih]; rfl

/-- The elements of each histogram entry are placed one after the other, starting at the initial value of
the entry. -/
theorem place_spec (p : Plan) (σ : List Ev) (h : Nat × Nat → Nat) (m : Nat → Nat) (U : Nat × Nat → Nat)
    (hl : ∀ e ∈ σ, e.lanes.Pairwise (· < ·)) (hU : ∀ e ∈ σ, p.groupStart e.g = U (p.slotE e))
    (hd : ∀ s s' j j', j < (p.E σ s).length → j' < (p.E σ s').length → U s + h s + j = U s' + h s' + j' → s = s') :
    (∀ s j (hj : j < (p.E σ s).length), (σ.foldl p.place (h, m)).2 (U s + h s + j) = (p.E σ s)[j]) ∧
    ∀ a, (∀ s j, j < (p.E σ s).length → U s + h s + j ≠ a) → (σ.foldl p.place (h, m)).2 a = m a := by
  induction σ using List.reverseRecOn with
  | nil => exact ⟨fun s j hj => by simp [Plan.E] at hj, fun a _ => rfl⟩
  | append_singleton τ e ih =>
    have hlen : ∀ s, (p.E (τ ++ [e]) s).length = (p.E τ s).length + (if p.slotE e = s then e.lanes.length else 0) := by
      intro s
      rw [p.E_append, p.E_single, List.length_append]
      split <;> simp [Ev.elems]
    obtain ⟨i1, i2⟩ := ih (fun x hx => hl x (List.mem_append_left _ hx)) (fun x hx => hU x (List.mem_append_left _ hx))
      (fun s s' j j' h1 h2 => hd s s' j j' (by rw [hlen]; omega) (by rw [hlen]; omega))
    have hst : ∀ a, ((τ ++ [e]).foldl p.place (h, m)).2 a = applyWrites (e.lanes.map fun l =>
        (U (p.slotE e) + h (p.slotE e) + (p.E τ (p.slotE e)).length + rel e.lanes l, e.base + l)) (τ.foldl p.place (h, m)).2 a := by
      intro a
      rw [List.foldl_append, List.foldl_cons, List.foldl_nil]
      unfold Plan.place
      simp only
      rw [hU e (by simp)]
      change applyWrites (e.lanes.map fun l => (U (p.slotE e) + ((τ.foldl p.place (h, m)).1 (p.slotE e) + rel e.lanes l), e.base + l)) _ a = _
      rw [place_fst, count_spec]
      simp only [Nat.add_assoc]
    obtain ⟨w1, w2⟩ := write_run e.lanes (hl e (by simp)) (U (p.slotE e) + h (p.slotE e) + (p.E τ (p.slotE e)).length) e.base
      (τ.foldl p.place (h, m)).2
    constructor
    · intro s j hj
      rw [hst]
      have hj' := hj
      rw [hlen] at hj'
      by_cases hs : p.slotE e = s
      · subst hs
        rw [if_pos rfl] at hj'
        by_cases hk : j < (p.E τ (p.slotE e)).length
        · rw [w2, i1 _ _ hk]
          · simp only [p.E_append]
            rw [List.getElem_append_left hk]
          · intro k hk'
            omega
        · obtain ⟨k, rfl⟩ : ∃ k, j = (p.E τ (p.slotE e)).length + k := ⟨j - (p.E τ (p.slotE e)).length, by omega⟩
          rw [← Nat.add_assoc, w1 k (by omega)]
          simp only [p.E_append, p.E_single]
          rw [List.getElem_append_right (by omega)]
          simp [Ev.elems]
      · rw [if_neg hs] at hj'
        have hk : j < (p.E τ s).length := by omega
        rw [w2, i1 _ _ hk]
        · simp only [p.E_append]
          rw [List.getElem_append_left hk]
        · intro k hk' he
          apply hs
          apply hd _ _ ((p.E τ (p.slotE e)).length + k) j ?_ hj (by omega)
          rw [hlen, if_pos rfl]
          omega
    · intro a ha
      rw [hst, w2, i2]
      · intro s j hj
        exact ha s j (by rw [hlen]; omega)
      · intro k hk
        have := ha (p.slotE e) ((p.E τ (p.slotE e)).length + k) (by rw [hlen, if_pos rfl]; omega)
        omega

end Verif.CudaPerm
