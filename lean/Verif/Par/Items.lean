import Verif.Par.Prog

/-!
# Groups of tasks that process ranges of independent items
-/
namespace Verif.Par

variable {L V α : Type}

/-- `for (i = lo; i < hi; ++i)` -/
def forLt (lo hi : Nat) (body : Nat → Prog L V Unit) : Prog L V Unit :=
  Prog.loop (hi - lo) () (fun k _ => body (lo + k))

variable [DecidableEq L]

/-- The items `0 .. n-1` are distributed over tasks `0 .. nt-1` in disjoint ranges. -/
structure Split (n nt : Nat) (lo hi : Nat → Nat) : Prop where
  bound : ∀ t, t < nt → hi t ≤ n
  disj : ∀ t t', t < nt → t' < nt → t ≠ t' → ∀ i, lo t ≤ i → i < hi t → ¬ (lo t' ≤ i ∧ i < hi t')
  cover : ∀ i, i < n → ∃ t, t < nt ∧ lo t ≤ i ∧ i < hi t

section
variable {n nt : Nat} {lo hi : Nat → Nat} {R W : Nat → Set L} {P : Nat → (L → V) → Prop} {m0 : L → V} {body : Nat → Prog L V Unit}

/-- Items that do not touch what other items write -/
structure Items (n : Nat) (R W : Nat → Set L) (P : Nat → (L → V) → Prop) (m0 : L → V) (body : Nat → Prog L V Unit) : Prop where
  disj : ∀ i j, i < n → j < n → i ≠ j → ∀ l, l ∈ W i → l ∉ R j ∧ l ∉ W j
  loc : ∀ i m m', i < n → (∀ l, l ∈ W i → m' l = m l) → P i m → P i m'
  run : ∀ i m, i < n → (∀ l, l ∈ R i ∨ l ∈ W i → m l = m0 l) → wp (R i) (W i) (body i) m (fun _ => P i)

/-- The set of locations of a range of items -/
def span (S : Nat → Set L) (lo hi : Nat) : Set L := {l | ∃ i, lo ≤ i ∧ i < hi ∧ l ∈ S i}

theorem forLt_spec (h : Items n R W P m0 body) {a b : Nat} (hb : b ≤ n) {m : L → V}
    (hm : ∀ l, (∃ i, a ≤ i ∧ i < b ∧ (l ∈ R i ∨ l ∈ W i)) → m l = m0 l) :
    wp (span R a b) (span W a b) (forLt a b body) m (fun _ m' => ∀ i, a ≤ i → i < b → P i m') := by
  unfold forLt
  have key : wp (span R a b) (span W a b) (Prog.loop (b - a) () (fun k _ => body (a + k))) m
      (fun _ m' => (∀ i, a ≤ i → i < a + (b - a) → P i m') ∧
        ∀ l, (∀ i, a ≤ i → i < a + (b - a) → l ∉ W i) → m' l = m l) := by
    refine wp_loop (fun k _ m' => (∀ i, a ≤ i → i < a + k → P i m') ∧
      ∀ l, (∀ i, a ≤ i → i < a + k → l ∉ W i) → m' l = m l) ?_ ?_
    · exact ⟨fun i h1 h2 => by omega, fun _ _ => rfl⟩
    · rintro k _ m1 hk ⟨h1, h2⟩
      have hin : a + k < n := by omega
      have hr := h.run (a + k) m1 hin (by
        intro l hl
        rw [h2, hm]
        · exact ⟨a + k, by omega, by omega, hl⟩
        · intro i hi1 hi2 hi3
          have := h.disj i (a + k) (by omega) hin (by omega) l hi3
          rcases hl with hl | hl
          · exact this.1 hl
          · exact this.2 hl)
      refine wp_mono (wp_sets ?_ ?_ (wp_frame hr)) ?_
      · intro l hl; exact ⟨a + k, by omega, by omega, hl⟩
      · intro l hl; exact ⟨a + k, by omega, by omega, hl⟩
      · rintro _ m2 ⟨h3, h4⟩
        refine ⟨fun i hi1 hi2 => ?_, fun l hl => ?_⟩
        · by_cases e : i = a + k
          · subst e; exact h3
          · refine h.loc i m1 m2 (by omega) (fun l hl => ?_) (h1 i hi1 (by omega))
            exact h4 l ((h.disj i (a + k) (by omega) hin e l hl).2)
        · rw [h4 l (hl _ (by omega) (by omega)), h2 l (fun i hi1 hi2 => hl i hi1 (by omega))]
  refine wp_mono key ?_
  rintro _ m' ⟨h1, _⟩ i hi1 hi2
  exact h1 i hi1 (by omega)

theorem items_disj (hs : Split n nt lo hi) (h : Items n R W P m0 body) (t t' : Nat) (ht : t < nt) (ht' : t' < nt) (hne : t ≠ t')
    (l : L) (hl : l ∈ span W (lo t) (hi t)) : l ∉ span R (lo t') (hi t') ∧ l ∉ span W (lo t') (hi t') := by
  obtain ⟨i, h1, h2, h3⟩ := hl
  have hi' := hs.bound t ht
  have hi'' := hs.bound t' ht'
  have hdi := hs.disj t t' ht ht' hne i h1 h2
  constructor
  · rintro ⟨j, g1, g2, g3⟩
    have : i ≠ j := by rintro rfl; exact hdi ⟨g1, g2⟩
    exact (h.disj i j (by omega) (by omega) this l h3).1 g3
  · rintro ⟨j, g1, g2, g3⟩
    have : i ≠ j := by rintro rfl; exact hdi ⟨g1, g2⟩
    exact (h.disj i j (by omega) (by omega) this l h3).2 g3

/-- **Rule.**  After a group of tasks that process disjoint ranges of independent items, all items
have been processed and nothing else has changed. -/
theorem items_spec (hs : Split n nt lo hi) (h : Items n R W P m0 body) {m' : L → V}
    (he : Phase.Ends (nt, fun t => forLt (lo t) (hi t) body) m0 m') :
    (∀ i, i < n → P i m') ∧ ∀ l, (∀ i, i < n → l ∉ W i) → m' l = m0 l := by
  obtain ⟨h1, h2⟩ := phase_spec (R := fun t => span R (lo t) (hi t)) (W := fun t => span W (lo t) (hi t))
    (Q := fun t m' => ∀ i, lo t ≤ i → i < hi t → P i m') (fun t t' ht ht' hne => items_disj hs h t t' ht ht' hne)
    (fun t ht => forLt_spec h (hs.bound t ht) (fun _ _ => rfl)) he
  refine ⟨fun i hi' => ?_, fun l hl => h2 l ?_⟩
  · obtain ⟨t, ht, g1, g2⟩ := hs.cover i hi'
    obtain ⟨mi, g3, g4, _⟩ := h1 t ht
    exact h.loc i mi m' hi' (fun l hl => g4 l ⟨i, g1, g2, hl⟩) (g3 i g1 g2)
  · rintro t ht ⟨i, g1, g2, g3⟩
    exact hl i (lt_of_lt_of_le g2 (hs.bound t ht)) g3

/-- **Rule.**  Accesses stay within the sets of the items. -/
theorem items_safe (hs : Split n nt lo hi) (h : Items n R W P m0 body) {ok : Bool → L → Prop}
    (hR : ∀ i, i < n → ∀ l, l ∈ R i → ok false l) (hW : ∀ i, i < n → ∀ l, l ∈ W i → ok true l) :
    Phase.Safe (nt, fun t => forLt (lo t) (hi t) body) ok m0 := by
  refine phase_safe (R := fun t => span R (lo t) (hi t)) (W := fun t => span W (lo t) (hi t))
    (Q := fun t m' => ∀ i, lo t ≤ i → i < hi t → P i m') (fun t t' ht ht' hne => items_disj hs h t t' ht ht' hne)
    (fun t ht => forLt_spec h (hs.bound t ht) (fun _ _ => rfl)) ?_ ?_
  · rintro t ht l ⟨i, g1, g2, g3⟩
    exact hR i (lt_of_lt_of_le g2 (hs.bound t ht)) l g3
  · rintro t ht l ⟨i, g1, g2, g3⟩
    exact hW i (lt_of_lt_of_le g2 (hs.bound t ht)) l g3

end

end Verif.Par
