import Verif.Cuda.Prefix

/-!
# The scan within a thread block
-/
namespace Verif.Cuda

open Verif.Par

variable {T V H : Type}

theorem sub32_le {a b : Nat} (ha : a < 2 ^ 32) (h : b ≤ a) : sub32 a b = a - b := by
  unfold sub32
  rw [Nat.mod_eq_of_lt (show b < 2 ^ 32 by omega), show a + 2 ^ 32 - b = (a - b) + 2 ^ 32 by omega, Nat.add_mod_right, Nat.mod_eq_of_lt (by omega)]

theorem sub32_gt {a b : Nat} (hb : b < 2 ^ 32) (h : a < b) : sub32 a b = a + 2 ^ 32 - b := by
  unfold sub32
  rw [Nat.mod_eq_of_lt hb, Nat.mod_eq_of_lt (by omega)]

/-- Effect of `shared[tid] = value` by a set of threads -/
theorem put_ends {n : Nat} (p : Nat → Bool) {m m' : SLoc → V} (h : Phase.Ends (n, fun t => if p t then putShared t else .pure ()) m m') :
    (∀ t, m' (.reg t) = m (.reg t)) ∧ ∀ i, m' (.sh i) = if i < n ∧ p i = true then m (.reg i) else m (.sh i) := by
  obtain ⟨h1, h2⟩ := phase_spec (R := fun t => {l | l = SLoc.reg t}) (W := fun t => {l | l = SLoc.sh t ∧ p t = true})
    (Q := fun t mt => p t = true → mt (.sh t) = m (.reg t)) (by
      rintro i j hi hj hne l ⟨rfl, _⟩
      refine ⟨by simp, ?_⟩
      simp only [Set.mem_setOf_eq, SLoc.sh.injEq, not_and]
      exact fun h => absurd h hne) (by
      intro t ht
      split
      · rename_i hp
        unfold putShared
        rw [wp_bind]
        refine wp_get rfl (wp_put ⟨rfl, hp⟩ ?_)
        intro _; simp [upd]
      · rename_i hp
        intro h; exact absurd h hp) h
  refine ⟨fun t => h2 _ fun i _ hl => by simp at hl, fun i => ?_⟩
  split
  · rename_i hi
    obtain ⟨mi, q1, q2, _⟩ := h1 i hi.1
    rw [q2 _ ⟨rfl, hi.2⟩, q1 hi.2]
  · rename_i hi
    refine h2 _ fun j hj hl => ?_
    simp only [Set.mem_setOf_eq, SLoc.sh.injEq] at hl
    obtain ⟨rfl, hl⟩ := hl
    exact hi ⟨hj, hl⟩

/-- Effect of `value = red(value, shared[tid - i])` -/
theorem add_ends {L : Launch} {red : V → V → V} {d : Nat} {m m' : SLoc → V} (h : Phase.Ends (L.threads, addShared red L d) m m') :
    (∀ i, m' (.sh i) = m (.sh i)) ∧ ∀ t, t < L.threads → m' (.reg t) = if sub32 (L.pos t) d < L.cs then red (m (.reg t)) (m (.sh (sub32 t d))) else m (.reg t) := by
  obtain ⟨h1, h2⟩ := phase_spec (R := fun t => {l | l = SLoc.reg t ∨ ∃ i, l = SLoc.sh i}) (W := fun t => {l | l = SLoc.reg t})
    (Q := fun t mt => mt (.reg t) = if sub32 (L.pos t) d < L.cs then red (m (.reg t)) (m (.sh (sub32 t d))) else m (.reg t)) (by
      rintro i j hi hj hne l rfl
      refine ⟨?_, ?_⟩ <;> simp [hne]) (by
      intro t ht
      unfold addShared
      split
      · rw [wp_bind]
        refine wp_get (Or.inl rfl) ?_
        rw [wp_bind]
        refine wp_get (Or.inr ⟨_, rfl⟩) (wp_put rfl ?_)
        simp [upd]
      · exact rfl) h
  refine ⟨fun i => h2 _ fun j _ hl => by simp at hl, fun t ht => ?_⟩
  obtain ⟨mi, q1, q2, _⟩ := h1 t ht
  rw [q2 _ rfl, q1]

/-- The threads whose elements thread `t` has combined after `j` iterations -/
def window (cs j t : Nat) : Finset Nat := Finset.Icc (t - min (t % cs) (2 ^ j - 1)) t

theorem window_succ (cs j t : Nat) (h : 2 ^ j ≤ t % cs) (h1 : 2 ^ j < cs) : window cs (j + 1) t = window cs j t ∪ window cs j (t - 2 ^ j) ∧ Disjoint (window cs j t) (window cs j (t - 2 ^ j)) := by
  have ht : t % cs ≤ t := Nat.mod_le _ _
  have hp : 0 < 2 ^ j := Nat.two_pow_pos j
  have hcs : 0 < cs := by omega
  have hm : (t - 2 ^ j) % cs = t % cs - 2 ^ j := by
    have hd := Nat.div_add_mod t cs
    have hlt := Nat.mod_lt t hcs
    have : t - 2 ^ j = (t % cs - 2 ^ j) + cs * (t / cs) := by omega
    rw [this, Nat.add_mul_mod_self_left, Nat.mod_eq_of_lt (by omega)]
  have hpow : 2 ^ (j + 1) = 2 * 2 ^ j := by rw [Nat.pow_succ, Nat.mul_comm]
  unfold window
  rw [hm, hpow]
  generalize 2 ^ j = p at *
  generalize t % cs = r at *
  constructor
  · ext i
    simp only [Finset.mem_union, Finset.mem_Icc]
    omega
  · rw [Finset.disjoint_left]
    intro i
    simp only [Finset.mem_Icc]
    omega

theorem window_same (cs j t : Nat) (h : t % cs < 2 ^ j) : window cs (j + 1) t = window cs j t := by
  have hpow : 2 ^ (j + 1) = 2 * 2 ^ j := by rw [Nat.pow_succ, Nat.mul_comm]
  unfold window
  rw [hpow]
  congr 2; omega

/-- After `j` iterations every thread has combined its window; the shared memory holds the values of the previous iteration. -/
theorem scan_spec {L : Launch} {red : V → V → V} {init : V} {f : Nat → V} {E : Nat → Finset Nat} {k : Nat} (hE : Apart E) (hcs : L.cs = 2 ^ k) (hth : L.threads ≤ 2 ^ 31) (hk : k ≤ 31)
    (hpos : ∀ t, t < L.threads → L.pos t = t % L.cs) {m : SLoc → V} (hm : ∀ t, t < L.threads → On red init f (E t) (m (.reg t))) (j : Nat) (hj : j ≤ k) :
    ∀ m', Ends (scanPhases red L j) m m' → (∀ t, t < L.threads → On red init f ((window L.cs j t).biUnion E) (m' (.reg t))) ∧
      (1 ≤ j → ∀ t, t < L.threads → On red init f ((window L.cs (j - 1) t).biUnion E) (m' (.sh t))) := by
  induction j with
  | zero =>
    intro m' h
    have : m' = m := h
    subst this
    refine ⟨fun t ht => ?_, fun h => absurd h (by omega)⟩
    have : window L.cs 0 t = {t} := by unfold window; simp
    rw [this, Finset.singleton_biUnion]
    exact hm t ht
  | succ j ih =>
    intro m' h
    unfold scanPhases at h
    rw [ends_append] at h
    obtain ⟨m1, h1, m2, h2, m3, h3, h4⟩ := h
    have h4' : m' = m3 := h4
    subst h4'
    obtain ⟨i1, i2⟩ := ih (by omega) m1 h1
    obtain ⟨p1, p2⟩ := put_ends (fun _ => true) (by simpa using h2)
    obtain ⟨a1, a2⟩ := add_ends h3
    have hlt : 2 ^ j < L.cs := by rw [hcs]; exact Nat.pow_lt_pow_right (by omega) (by omega)
    have hcs32 : L.cs ≤ 2 ^ 31 := by rw [hcs]; exact Nat.pow_le_pow_right (by omega) hk
    clear hcs
    have hp : 0 < 2 ^ j := Nat.two_pow_pos j
    refine ⟨fun t ht => ?_, fun _ t ht => ?_⟩
    · rw [a2 t ht, hpos t ht]
      have hml : t % L.cs < L.cs := Nat.mod_lt _ (by omega)
      have htm : t % L.cs ≤ t := Nat.mod_le _ _
      by_cases hc : 2 ^ j ≤ t % L.cs
      · rw [sub32_le (by omega) hc, if_pos (by omega), sub32_le (by omega) (by omega), p1, p2, if_pos ⟨by omega, rfl⟩]
        obtain ⟨w1, w2⟩ := window_succ L.cs j t hc hlt
        rw [w1]
        exact (i1 t ht).owners hE w2 (i1 _ (by omega))
      · rw [sub32_gt (by omega) (by omega), if_neg (by omega), p1, window_same _ _ _ (by omega)]
        exact i1 t ht
    · rw [a1, p2, if_pos ⟨ht, rfl⟩]
      exact i1 t ht

end Verif.Cuda
