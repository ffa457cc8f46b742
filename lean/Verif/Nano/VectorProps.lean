import Verif.Nano.Own
import Mathlib.Tactic.Common
import Mathlib.Data.List.Basic
import Mathlib.Data.List.Infix

/-!
# C80: vectors behave like lists
-/
namespace Verif.Nano

variable {T : Type}

/-- A block that contains the list `l` -/
def bk (c : Nat) (l : List T) : Block T := ⟨c, fun i => l[i]?⟩

theorem read_bk {h : Heap T} {p c : Nat} {l : List T} (hb : h.block p = some (bk c l)) (hl : l.length ≤ c) (i : Nat) : h.read (some p) i = l[i]? := by
  simp only [Heap.read, hb, bk]
  by_cases hi : i < c
  · rw [if_pos hi]
  · rw [if_neg hi]; exact (List.getElem?_eq_none (by omega)).symm

theorem construct_bk {h : Heap T} {p c : Nat} {l : List T} {x : T} (hb : h.block p = some (bk c l)) (hl : l.length < c) :
    h.construct (some p) l.length x = some (h.set p (some (bk c (l ++ [x])))) := by
  simp only [Heap.construct, hb]
  rw [if_pos ⟨hl, by simp [bk]⟩]
  congr 3
  refine block_ext rfl fun i => ?_
  simp only [bk]
  by_cases hi : i = l.length
  · subst hi; simp
  · rw [if_neg hi]
    by_cases h2 : i < l.length
    · rw [List.getElem?_append_left h2]
    · rw [List.getElem?_append_right (by omega), List.getElem?_eq_none (by omega), List.getElem?_eq_none (by simp; omega)]

theorem fill_bk (f : Heap T → Nat → Option T) {p c : Nat} (xs : List T) : ∀ (h : Heap T) (l : List T), h.block p = some (bk c l) → l.length + xs.length ≤ c →
    (∀ b j, j < xs.length → f (h.set p b) (l.length + j) = xs[j]?) →
    fill (some p) f xs.length l.length h = some (h.set p (some (bk c (l ++ xs)))) := by
  induction xs with
  | nil => intro h l hb _ _; simp [fill, set_eq h p hb]
  | cons x xs ih =>
    intro h l hb hl hf
    have h0 := hf (h.block p) 0 (by simp)
    rw [set_eq h p rfl] at h0
    simp only [Nat.add_zero, List.getElem?_cons_zero] at h0
    simp only [List.length_cons] at hl
    show (f h l.length).bind _ = _
    rw [h0, Option.bind_some, construct_bk hb (by omega), Option.bind_some]
    have := ih (h.set p (some (bk c (l ++ [x])))) (l ++ [x]) (by simp) (by simp; omega) (by
      intro b j hj
      have := hf b (j + 1) (by simp; omega)
      rw [set_set]
      simp only [List.length_append, List.length_cons, List.length_nil, List.getElem?_cons_succ] at this ⊢
      rw [show l.length + (0 + 1) + j = l.length + (j + 1) by omega]
      exact this)
    simp only [List.length_append, List.length_cons, List.length_nil] at this
    rw [show l.length + 1 = l.length + (0 + 1) by omega, this]
    simp

theorem destroyLoop_spec {p c : Nat} (k : Nat) : ∀ (i : Nat) (h : Heap T) (g : Nat → Option T), h.block p = some ⟨c, g⟩ → i + k ≤ c →
    (∀ j, j < k → (g (i + j)).isSome) → destroyLoop (some p) k i h = some (h.set p (some ⟨c, fun j => if i ≤ j ∧ j < i + k then none else g j⟩)) := by
  induction k with
  | zero =>
    intro i h g hb _ _
    simp only [destroyLoop]
    rw [set_eq h p]
    rw [hb]; congr 1; refine block_ext rfl fun j => ?_; dsimp only; rw [if_neg (by omega)]
  | succ k ih =>
    intro i h g hb hc hg
    have h0 := hg 0 (by omega)
    have hd : h.destroy (some p) i = some (h.set p (some ⟨c, fun j => if j = i then none else g j⟩)) := by
      simp only [Heap.destroy, hb]
      rw [if_pos ⟨by omega, h0⟩]
    show (h.destroy (some p) i).bind _ = _
    rw [hd, Option.bind_some, ih (i + 1) _ (fun j => if j = i then none else g j) (by simp) (by omega) (by
      intro j hj
      rw [if_neg (by omega)]
      have := hg (j + 1) (by omega)
      rw [show i + 1 + j = i + (j + 1) by omega]; exact this), set_set]
    congr 3
    refine block_ext rfl fun j => ?_
    dsimp only
    by_cases h1 : i + 1 ≤ j ∧ j < i + 1 + k
    · rw [if_pos h1, if_pos (by omega)]
    · rw [if_neg h1]
      by_cases h2 : j = i
      · rw [if_pos h2, if_pos (by omega)]
      · rw [if_neg h2, if_neg (by omega)]

/-- What the heap contains for a vector that represents the list `l` -/
def Rep (h : Heap T) (v : Vec) (l : List T) : Prop :=
  (v = Vec.empty ∧ l = []) ∨ ∃ p, v.data = some p ∧ h.block p = some (bk v.cap l) ∧ v.size = l.length ∧ l.length ≤ v.cap

theorem Rep.size {h : Heap T} {v : Vec} {l : List T} (r : Rep h v l) : v.size = l.length ∧ v.size ≤ v.cap := by
  rcases r with ⟨rfl, rfl⟩ | ⟨p, _, _, h1, h2⟩
  · exact ⟨rfl, Nat.le_refl _⟩
  · exact ⟨h1, by omega⟩

theorem Rep.read {h : Heap T} {v : Vec} {l : List T} (r : Rep h v l) {i : Nat} (hi : i < l.length) : h.read v.data i = l[i]? := by
  rcases r with ⟨rfl, rfl⟩ | ⟨p, h0, h1, h2, h3⟩
  · simp at hi
  · rw [h0]; exact read_bk h1 h3 i

theorem Rep.frame {h h' : Heap T} {v : Vec} {l : List T} (r : Rep h v l) (hf : ∀ p, v.data = some p → h'.block p = h.block p) : Rep h' v l := by
  rcases r with r | ⟨p, h0, h1, h2⟩
  · exact Or.inl r
  · exact Or.inr ⟨p, h0, by rw [hf p h0]; exact h1, h2⟩

theorem Rep.live {h : Heap T} {v : Vec} {l : List T} (r : Rep h v l) {p : Nat} (hp : v.data = some p) : h.block p ≠ none := by
  rcases r with ⟨rfl, _⟩ | ⟨p', h0, h1, _⟩
  · simp [Vec.empty] at hp
  · rw [h0] at hp; have := Option.some.inj hp; subst this; rw [h1]; simp

theorem good_rep : Good (Rep (T := T)) := ⟨fun r h => r.frame h, fun r _ h => r.live h⟩

theorem release_spec {h : Heap T} {v : Vec} {l : List T} (r : Rep h v l) :
    ∃ h', release v h = some h' ∧ Trans h v.data h' none ∧ ∀ q, v.data ≠ some q → h'.block q = h.block q := by
  rcases r with ⟨rfl, rfl⟩ | ⟨p, h0, h1, h2, h3⟩
  · exact ⟨h, rfl, Trans.refl _ _, fun _ _ => rfl⟩
  · refine ⟨h.set p none, ?_, ?_, ?_⟩
    · unfold release clear
      rw [h0, destroyLoop_spec v.size 0 h (fun i => l[i]?) h1 (by omega) (by
        intro j hj; rw [Nat.zero_add, List.getElem?_eq_getElem (by omega)]; rfl)]
      simp only [Option.map_some, Option.bind_some, Heap.free, set_same, if_true, set_set]
    · rw [h0]
      refine ⟨fun q hq _ => set_other h _ (fun h => hq (by rw [h])), fun q hq => by simp at hq, ?_, ?_⟩
      · intro q hq _
        have := Option.some.inj hq
        subst this; simp
      · intro hf q hq
        by_cases hqp : q = p
        · subst hqp; simp
        · rw [set_other _ _ hqp]; exact hf q hq
    · intro q hq
      exact set_other h _ (fun h => hq (by rw [h0, h]))

theorem alloc_fresh {h : Heap T} (hf : ∀ q, h.next ≤ q → h.block q = none) (n : Nat) :
    (h.alloc n).2.block h.next = some (bk n []) ∧ (∀ q, q ≠ h.next → (h.alloc n).2.block q = h.block q) ∧ Trans h none (h.alloc n).2 (some h.next) := by
  have h1 : ∀ q, q ≠ h.next → (h.alloc n).2.block q = h.block q := fun q hq => set_other h _ hq
  refine ⟨?_, h1, ?_⟩
  · simp only [Heap.alloc, set_same]
    congr 1
  · refine ⟨fun q _ hq => h1 q (fun h => hq (by rw [h])), ?_, fun q hq => by simp at hq, ?_⟩
    · intro q hq
      have := Option.some.inj hq
      subst this
      exact Or.inr (hf _ (Nat.le_refl _))
    · intro _ q hq
      have : (h.alloc n).2.next = h.next + 1 := rfl
      rw [h1 q (by omega)]
      exact hf q (by omega)

theorem build_spec {h : Heap T} (hf : ∀ q, h.next ≤ q → h.block q = none) (xs : List T) (f : Heap T → Nat → Option T)
    (hx : ∀ h' : Heap T, (∀ q, q ≠ h.next → h'.block q = h.block q) → ∀ j, j < xs.length → f h' j = xs[j]?) :
    ∃ v h', build xs.length f h = some (v, h') ∧ Rep h' v xs ∧ Trans h none h' v.data ∧ v.data = some h.next ∧ ∀ q, q ≠ h.next → h'.block q = h.block q := by
  obtain ⟨a1, a2, a3⟩ := alloc_fresh hf xs.length
  have hfill := fill_bk f (p := h.next) (c := xs.length) xs (h.alloc xs.length).2 [] a1 (by simp) (by
    intro b j hj
    rw [List.length_nil, Nat.zero_add]
    exact hx _ (fun q hq => by rw [set_other _ _ hq]; exact a2 q hq) j hj)
  refine ⟨⟨some h.next, xs.length, xs.length⟩, (h.alloc xs.length).2.set h.next (some (bk xs.length ([] ++ xs))), ?_, ?_, ?_, rfl, ?_⟩
  · unfold build
    show (fill (some h.next) f xs.length 0 (h.alloc xs.length).2).map _ = _
    rw [show (0 : Nat) = ([] : List T).length from rfl, hfill]
    rfl
  · exact Or.inr ⟨h.next, rfl, by simp, rfl, Nat.le_refl _⟩
  · exact a3.trans (Trans.set (by rw [a1]; simp))
  · intro q hq; rw [set_other _ _ hq]; exact a2 q hq

theorem moveLoop_spec (moved : T → T) {p q c c' : Nat} (hpq : p ≠ q) (r : List T) : ∀ (l m : List T) (h : Heap T), h.block p = some (bk c l) →
    h.block q = some (bk c' (m ++ r)) → m.length = l.length → l.length + r.length ≤ c → l.length + r.length ≤ c' →
    moveLoop moved (some p) (some q) r.length l.length h = some ((h.set p (some (bk c (l ++ r)))).set q (some (bk c' (m ++ r.map moved)))) := by
  induction r with
  | nil =>
    intro l m h hp hq _ _ _
    simp only [List.append_nil, List.map_nil, List.length_nil, moveLoop] at *
    rw [set_eq h p hp, set_eq h q hq]
  | cons x r ih =>
    intro l m h hp hq hm hc hc'
    simp only [List.length_cons] at hc hc'
    have hread : h.read (some q) l.length = some x := by
      rw [read_bk hq (by simp; omega), ← hm]; simp
    have hw : (h.set p (some (bk c (l ++ [x])))).write (some q) l.length (moved x)
        = some ((h.set p (some (bk c (l ++ [x])))).set q (some (bk c' ((m ++ [moved x]) ++ r)))) := by
      simp only [Heap.write, set_other _ _ hpq.symm, hq]
      rw [if_pos ⟨by simp only [bk]; omega, by simp [bk, ← hm]⟩]
      congr 3
      refine block_ext rfl fun j => ?_
      simp only [bk, List.append_assoc, List.cons_append, List.nil_append]
      by_cases hj : j = l.length
      · subst hj; rw [if_pos rfl, ← hm]; simp
      · rw [if_neg hj]
        by_cases h2 : j < m.length
        · rw [List.getElem?_append_left h2, List.getElem?_append_left h2]
        · rw [List.getElem?_append_right (by omega), List.getElem?_append_right (by omega)]
          obtain ⟨d, hd⟩ : ∃ d, j - m.length = d + 1 := ⟨j - m.length - 1, by omega⟩
          rw [hd]; rfl
    show (h.read (some q) l.length).bind _ = _
    rw [hread, Option.bind_some, construct_bk hp (by omega), Option.bind_some, hw, Option.bind_some]
    have := ih (l ++ [x]) (m ++ [moved x]) ((h.set p (some (bk c (l ++ [x])))).set q (some (bk c' ((m ++ [moved x]) ++ r))))
      (by rw [set_other _ _ hpq]; simp) (by simp) (by simp [hm]) (by simp; omega) (by simp; omega)
    simp only [List.length_append, List.length_cons, List.length_nil] at this
    rw [show l.length + 1 = l.length + (0 + 1) by omega, this]
    rw [set_comm _ _ _ hpq, set_set, set_comm _ _ _ hpq.symm, set_set]
    simp

theorem reserve_spec (moved : T → T) {h : Heap T} (hf : ∀ q, h.next ≤ q → h.block q = none) {v : Vec} {l : List T} (r : Rep h v l) (n : Nat) :
    ∃ v' h', reserve moved v n h = some (v', h') ∧ Rep h' v' l ∧ Trans h v.data h' v'.data ∧ v'.size = v.size ∧ n ≤ v'.cap ∧ v.cap ≤ v'.cap ∧
      (∀ q, v.data ≠ some q → h.block q ≠ none → h'.block q = h.block q) ∧ ∀ q, h'.next ≤ q → h'.block q = none := by
  by_cases hn : n ≤ v.cap
  · exact ⟨v, h, by simp [reserve, hn], r, Trans.refl _ _, rfl, hn, Nat.le_refl _, fun _ _ _ => rfl, hf⟩
  · obtain ⟨a1, a2, a3⟩ := alloc_fresh hf n
    have hsz := r.size
    -- the state after the elements were moved
    have hmv : ∃ h1, moveLoop moved (some h.next) v.data v.size 0 (h.alloc n).2 = some h1 ∧ h1.block h.next = some (bk n l) ∧
        Rep h1 v (l.map moved) ∧ (∀ q, q ≠ h.next → v.data ≠ some q → h1.block q = h.block q) ∧ h1.next = h.next + 1 ∧ v.data ≠ some h.next := by
      rcases r with ⟨rfl, rfl⟩ | ⟨p, h0, h1, h2, h3⟩
      · exact ⟨(h.alloc n).2, rfl, a1, Or.inl ⟨rfl, rfl⟩, fun q hq _ => a2 q hq, rfl, by simp [Vec.empty]⟩
      · have hne : h.next ≠ p := by
          intro heq
          have := hf p (by omega)
          rw [h1] at this; simp at this
        have := moveLoop_spec moved (c := n) (c' := v.cap) hne l [] [] (h.alloc n).2 a1 (by rw [a2 p (Ne.symm hne)]; simpa using h1) rfl (by simp; omega) (by simp; omega)
        rw [h0, h2]
        refine ⟨((h.alloc n).2.set h.next (some (bk n ([] ++ l)))).set p (some (bk v.cap ([] ++ l.map moved))), this, ?_, ?_, ?_, rfl, fun h => hne (Option.some.inj h).symm⟩
        · rw [set_other _ _ hne]; simp
        · exact Or.inr ⟨p, h0, by simp, by simp [h2], by simpa using h3⟩
        · intro q hq hq2
          rw [set_other _ _ (fun h => hq2 (by rw [h])), set_other _ _ hq]
          exact a2 q hq
    obtain ⟨h1, e1, e2, e3, e4, e5, e6⟩ := hmv
    obtain ⟨h2, f1, f2, f3⟩ := release_spec e3
    have hblk : h2.block h.next = some (bk n l) := by rw [f3 _ e6]; exact e2
    have hT : Trans h v.data h2 (some h.next) := by
      refine ⟨?_, ?_, ?_, ?_⟩
      · intro q q1 q2
        rw [f3 q q1]
        exact e4 q (fun h => q2 (by rw [h])) q1
      · intro q hq
        have := Option.some.inj hq
        subst this
        exact Or.inr (hf _ (Nat.le_refl _))
      · intro q q1 _
        exact f2.gone q q1 (by simp)
      · intro _
        apply f2.fresh
        intro q hq
        rw [e5] at hq
        by_cases hv : v.data = some q
        · -- the block of the vector lies below
          rcases r with ⟨rfl, _⟩ | ⟨p, h0, h1', _⟩
          · simp [Vec.empty] at hv
          · rw [h0] at hv
            have := Option.some.inj hv
            subst this
            have := hf p (by omega)
            rw [h1'] at this; simp at this
        · rw [e4 q (by omega) hv]; exact hf q (by omega)
    refine ⟨⟨some h.next, v.size, n⟩, h2, ?_, ?_, hT, rfl, Nat.le_refl _, by dsimp only; omega, ?_, hT.fresh hf⟩
    · unfold reserve
      rw [if_neg hn]
      show (moveLoop moved (some h.next) v.data v.size 0 (h.alloc n).2).bind _ = _
      rw [e1, Option.bind_some, f1]; rfl
    · exact Or.inr ⟨h.next, rfl, hblk, hsz.1, by dsimp only; omega⟩
    · intro q q1 q2
      rw [f3 q q1]
      exact e4 q (fun h' => q2 (by rw [h']; exact hf _ (Nat.le_refl _))) q1

theorem push_spec (moved : T → T) {h : Heap T} (hf : ∀ q, h.next ≤ q → h.block q = none) {v : Vec} {l : List T} (r : Rep h v l) (f : Heap T → Option T) (a : T)
    (ha : ∀ h' : Heap T, (∀ q, v.data ≠ some q → h.block q ≠ none → h'.block q = h.block q) → f h' = some a) :
    ∃ v' h', pushBack moved v f h = some (v', h') ∧ Rep h' v' (l ++ [a]) ∧ Trans h v.data h' v'.data := by
  have hsz := r.size
  have hexp : ∃ v1 h1, (if v.size = v.cap then expand moved v h else some (v, h)) = some (v1, h1) ∧ Rep h1 v1 l ∧ Trans h v.data h1 v1.data ∧ l.length < v1.cap ∧
      (∀ q, v.data ≠ some q → h.block q ≠ none → h1.block q = h.block q) := by
    by_cases hc : v.size = v.cap
    · rw [if_pos hc]
      obtain ⟨v1, h1, e1, e2, e3, _, e5, _, e7, _⟩ := reserve_spec moved hf r (if v.cap ≠ 0 then v.cap * 2 else 1)
      refine ⟨v1, h1, e1, e2, e3, ?_, e7⟩
      by_cases h0 : v.cap ≠ 0
      · rw [if_pos h0] at e5; omega
      · rw [if_neg h0] at e5; omega
    · rw [if_neg hc]
      exact ⟨v, h, rfl, r, Trans.refl _ _, by omega, fun _ _ _ => rfl⟩
  obtain ⟨v1, h1, e1, e2, e3, e4, e5⟩ := hexp
  rcases e2 with ⟨rfl, _⟩ | ⟨p, g0, g1, g2, g3⟩
  · simp [Vec.empty] at e4
  · refine ⟨{ v1 with size := v1.size + 1 }, h1.set p (some (bk v1.cap (l ++ [a]))), ?_, ?_, ?_⟩
    · unfold pushBack
      rw [e1, Option.bind_some]
      dsimp only
      rw [ha h1 e5, Option.bind_some, g0, g2, construct_bk g1 e4]; rfl
    · exact Or.inr ⟨p, g0, by simp, by simp [g2], by simp; omega⟩
    · exact e3.trans (by dsimp only; rw [g0]; exact Trans.set (by rw [g1]; simp))

theorem shrink_spec {p c : Nat} (k : Nat) : ∀ (h : Heap T) (l : List T), h.block p = some (bk c l) → l.length ≤ c → k ≤ l.length →
    shrink (some p) l.length k h = some (h.set p (some (bk c (l.take (l.length - k))))) := by
  induction k with
  | zero => intro h l hb _ _; simp [shrink, set_eq h p hb]
  | succ k ih =>
    intro h l hb hc hk
    have hd : h.destroy (some p) (l.length - 1) = some (h.set p (some (bk c l.dropLast))) := by
      simp only [Heap.destroy, hb]
      rw [if_pos ⟨by simp only [bk]; omega, by simp only [bk]; rw [List.getElem?_eq_getElem (by omega)]; rfl⟩]
      congr 3
      refine block_ext rfl fun j => ?_
      simp only [bk, List.getElem?_dropLast]
      by_cases hj : j = l.length - 1
      · rw [if_pos hj, if_neg (by omega)]
      · rw [if_neg hj]
        by_cases h2 : j < l.length - 1
        · rw [if_pos h2]
        · rw [if_neg h2, List.getElem?_eq_none (by omega)]
    show (h.destroy (some p) (l.length - 1)).bind _ = _
    rw [hd, Option.bind_some]
    have := ih (h.set p (some (bk c l.dropLast))) l.dropLast (by simp) (by simp; omega) (by simp; omega)
    simp only [List.length_dropLast] at this
    rw [this, set_set]
    congr 4
    rw [List.dropLast_eq_take, List.take_take]
    congr 1; omega

theorem resize_spec (moved : T → T) {h : Heap T} (hf : ∀ q, h.next ≤ q → h.block q = none) {v : Vec} {l : List T} (r : Rep h v l) (n : Nat) (a : T) :
    ∃ v' h', resize moved v n a h = some (v', h') ∧ Rep h' v' (l.take n ++ List.replicate (n - l.length) a) ∧ Trans h v.data h' v'.data := by
  obtain ⟨v1, h1, e1, e2, e3, e4, e5, _, _, _⟩ := reserve_spec moved hf r n
  have hsz := r.size
  unfold resize
  rw [e1, Option.bind_some]
  dsimp only
  rcases e2 with ⟨rfl, rfl⟩ | ⟨p, g0, g1, g2, g3⟩
  · have hn : n = 0 := by simpa [Vec.empty] using e5
    subst hn
    exact ⟨Vec.empty, h1, by simp [Vec.empty, fill], Or.inl ⟨rfl, by simp⟩, e3⟩
  · by_cases hc : v1.size > n
    · rw [if_pos hc]
      refine ⟨{ v1 with size := n }, h1.set p (some (bk v1.cap (l.take (l.length - (l.length - n))))), ?_, ?_, e3.trans ?_⟩
      · rw [g0, g2, shrink_spec (l.length - n) h1 l g1 g3 (by omega)]; rfl
      · refine Or.inr ⟨p, g0, ?_, ?_, ?_⟩
        · rw [show n - l.length = 0 by omega, show l.length - (l.length - n) = n by omega]; simp
        · dsimp only; rw [show n - l.length = 0 by omega]; simp; omega
        · rw [show n - l.length = 0 by omega]; simp; omega
      · dsimp only; rw [g0]; exact Trans.set (by rw [g1]; simp)
    · rw [if_neg hc]
      have hfill := fill_bk (fun _ _ => some a) (p := p) (c := v1.cap) (List.replicate (n - l.length) a) h1 l g1 (by simp; omega) (by
        intro b j hj
        simp only [List.length_replicate] at hj
        simp [List.getElem?_replicate, hj])
      simp only [List.length_replicate] at hfill
      refine ⟨{ v1 with size := n }, h1.set p (some (bk v1.cap (l ++ List.replicate (n - l.length) a))), ?_, ?_, e3.trans ?_⟩
      · rw [g0, g2, hfill]; rfl
      · refine Or.inr ⟨p, g0, ?_, ?_, ?_⟩
        · rw [List.take_of_length_le (by omega)]; simp
        · dsimp only; rw [List.take_of_length_le (by omega)]; simp; omega
        · rw [List.take_of_length_le (by omega)]; simp; omega
      · dsimp only; rw [g0]; exact Trans.set (by rw [g1]; simp)

/-! ### Programs -/

theorem step_spec (moved : T → T) {w : World T} {s s' : Lists T} (inv : Inv Rep w s) (o : Op T) (hna : o.NoAlias) (hs : s.step o = some s') :
    ∃ w', w.step moved o = some w' ∧ Inv Rep w' s' := by
  have hmake : ∀ x, s x = none → w.obj x = none := fun x h => (inv.dom x).2 h
  cases o with
  | make x =>
    simp only [Lists.step] at hs
    by_cases hx : s x = none
    · rw [if_pos hx] at hs
      rw [← Option.some.inj hs]
      refine ⟨w.put x (Vec.empty, w.heap), by simp only [World.step]; rw [if_pos (hmake x hx)], ?_⟩
      exact Inv.put good_rep inv x Vec.empty w.heap [] (by rw [dataOf_none (hmake x hx)]; exact Trans.refl _ _) (Or.inl ⟨rfl, rfl⟩)
    · rw [if_neg hx] at hs; simp at hs
  | makeFill x n a =>
    simp only [Lists.step] at hs
    by_cases hx : s x = none
    · rw [if_pos hx] at hs
      rw [← Option.some.inj hs]
      obtain ⟨v, h', e1, e2, e3, _⟩ := build_spec inv.fresh (List.replicate n a) (fun _ _ => some a) (by
        intro h' _ j hj; simp only [List.length_replicate] at hj; simp [List.getElem?_replicate, hj])
      simp only [List.length_replicate] at e1
      refine ⟨w.put x (v, h'), by simp only [World.step]; rw [if_pos (hmake x hx), e1]; rfl, ?_⟩
      exact Inv.put good_rep inv x v h' _ (by rw [dataOf_none (hmake x hx)]; exact e3) e2
    · rw [if_neg hx] at hs; simp at hs
  | makeRange x l =>
    simp only [Lists.step] at hs
    by_cases hx : s x = none
    · rw [if_pos hx] at hs
      rw [← Option.some.inj hs]
      obtain ⟨v, h', e1, e2, e3, _⟩ := build_spec inv.fresh l (fun _ i => l[i]?) (fun _ _ _ _ => rfl)
      refine ⟨w.put x (v, h'), by simp only [World.step]; rw [if_pos (hmake x hx), e1]; rfl, ?_⟩
      exact Inv.put good_rep inv x v h' _ (by rw [dataOf_none (hmake x hx)]; exact e3) e2
    · rw [if_neg hx] at hs; simp at hs
  | makeCopy x y =>
    simp only [Lists.step] at hs
    by_cases hx : s x = none
    · rw [if_pos hx] at hs
      obtain ⟨l, hl, rfl⟩ := Option.map_eq_some_iff.1 hs
      obtain ⟨u, hu, r⟩ := inv.get hl
      obtain ⟨v, h', e1, e2, e3, _⟩ := build_spec inv.fresh l (fun h i => h.read u.data i) (by
        intro h' hh j hj
        refine (r.frame fun p hp => hh p ?_).read hj
        rintro rfl
        exact r.live hp (inv.fresh _ (Nat.le_refl _)))
      rw [← r.size.1] at e1
      refine ⟨w.put x (v, h'), by simp only [World.step]; rw [if_pos (hmake x hx), hu, Option.bind_some, e1]; rfl, ?_⟩
      exact Inv.put good_rep inv x v h' _ (by rw [dataOf_none (hmake x hx)]; exact e3) e2
    · rw [if_neg hx] at hs; simp at hs
  | makeMove x y =>
    simp only [Lists.step] at hs
    by_cases hx : s x = none
    · rw [if_pos hx] at hs
      obtain ⟨l, hl, rfl⟩ := Option.map_eq_some_iff.1 hs
      obtain ⟨v, hv, r⟩ := inv.get hl
      have hyx : y ≠ x := by rintro rfl; rw [hx] at hl; simp at hl
      refine ⟨w.steal x y v w.heap, by simp only [World.step]; rw [if_pos (hmake x hx), hv]; rfl, ?_⟩
      have i1 := Inv.put good_rep inv x Vec.empty w.heap [] (by rw [dataOf_none (hmake x hx)]; exact Trans.refl _ _) (Or.inl ⟨rfl, rfl⟩)
      have i2 := Inv.swap good_rep i1 (x := x) (y := y) (v := Vec.empty) (u := v) (l := []) (k := l) (by simp [World.put]) (by simp [World.put, hyx, hv])
        (by simp [Lists.upd]) (by simp [Lists.upd, hyx, hl])
      have e1 : ((w.put x (Vec.empty, w.heap)).put x (v, w.heap)).put y (Vec.empty, w.heap) = w.steal x y v w.heap := by
        simp only [World.steal, World.put, World.mk.injEq, true_and]
        funext z; by_cases h1 : z = y <;> by_cases h2 : z = x <;> simp [h1, h2]
      have e2 : ((s.upd x (some [])).upd x (some l)).upd y (some []) = (s.upd x (some l)).upd y (some []) := by
        funext z; simp only [Lists.upd]; by_cases h1 : z = y <;> by_cases h2 : z = x <;> simp [h1, h2]
      rw [← e1, ← e2]
      exact i2
    · rw [if_neg hx] at hs; simp at hs
  | drop x =>
    simp only [Lists.step] at hs
    obtain ⟨l, hl, rfl⟩ := Option.map_eq_some_iff.1 hs
    obtain ⟨v, hv, r⟩ := inv.get hl
    obtain ⟨h', e1, e2, _⟩ := release_spec r
    refine ⟨_, by simp only [World.step]; rw [hv, Option.bind_some, e1]; rfl, ?_⟩
    exact Inv.drop good_rep inv x h' (by rw [dataOf_some hv]; exact e2)
  | assignCopy x y =>
    simp only [Lists.step] at hs
    obtain ⟨lx, hlx, hs⟩ := Option.bind_eq_some_iff.1 hs
    obtain ⟨l, hl, rfl⟩ := Option.map_eq_some_iff.1 hs
    obtain ⟨u, hu, rx⟩ := inv.get hlx
    obtain ⟨v, hv, r⟩ := inv.get hl
    obtain ⟨v', h1, e1, e2, e3, e4, e5⟩ := build_spec inv.fresh l (fun h i => h.read v.data i) (by
      intro h' hh j hj
      refine (r.frame fun p hp => hh p ?_).read hj
      rintro rfl
      exact r.live hp (inv.fresh _ (Nat.le_refl _)))
    rw [← r.size.1] at e1
    have hne : u.data ≠ some w.heap.next := fun h => rx.live h (inv.fresh _ (Nat.le_refl _))
    have rx1 : Rep h1 u lx := rx.frame fun p hp => e5 p (by rintro rfl; exact hne hp)
    obtain ⟨h2, f1, f2, f3⟩ := release_spec rx1
    refine ⟨w.put x (v', h2), by simp only [World.step]; rw [hv, Option.bind_some, hu, Option.bind_some, e1, Option.bind_some, f1]; rfl, ?_⟩
    refine Inv.put good_rep inv x v' h2 l ?_ (e2.frame fun p hp => f3 p ?_)
    · rw [dataOf_some hu]
      refine ⟨?_, ?_, ?_, fun hf => f2.fresh (e3.fresh hf)⟩
      · intro q q1 q2
        rw [f3 q q1]
        exact e5 q (by rintro rfl; exact q2 e4)
      · intro q hq
        rcases e3.new q hq with h | h
        · simp at h
        · exact Or.inr h
      · intro q q1 _
        exact f2.gone q q1 (by simp)
    · rw [e4] at hp
      have := Option.some.inj hp
      subst this; exact hne
  | assignMove x y =>
    simp only [Lists.step] at hs
    obtain ⟨lx, hlx, hs⟩ := Option.bind_eq_some_iff.1 hs
    obtain ⟨l, hl, rfl⟩ := Option.map_eq_some_iff.1 hs
    obtain ⟨u, hu, rx⟩ := inv.get hlx
    obtain ⟨v, hv, r⟩ := inv.get hl
    obtain ⟨h', e1, e2, e3⟩ := release_spec rx
    refine ⟨w.steal x y v h', by simp only [World.step]; rw [hu, Option.bind_some, hv, Option.bind_some, e1]; rfl, ?_⟩
    have i0 := Inv.drop good_rep inv x h' (by rw [dataOf_some hu]; exact e2)
    have hx0 : (⟨h', fun z => if z = x then none else w.obj z⟩ : World T).obj x = none := by simp
    have i1 := Inv.put good_rep i0 x Vec.empty h' [] (by rw [dataOf_none hx0]; exact Trans.refl _ _) (Or.inl ⟨rfl, rfl⟩)
    by_cases hyx : y = x
    · subst hyx
      have a1 : (World.put ⟨h', fun z => if z = y then none else w.obj z⟩ y (Vec.empty, h')) = w.steal y y v h' := by
        simp only [World.steal, World.put, World.mk.injEq, true_and]
        funext z; by_cases h1 : z = y <;> simp [h1]
      have a2 : (s.upd y none).upd y (some []) = (s.upd y (some l)).upd y (some []) := by
        funext z; simp only [Lists.upd]; by_cases h1 : z = y <;> simp [h1]
      rw [← a1, ← a2]; exact i1
    · have i2 := Inv.swap good_rep i1 (x := x) (y := y) (v := Vec.empty) (u := v) (l := []) (k := l) (by simp [World.put]) (by simp [World.put, hyx, hv])
        (by simp [Lists.upd]) (by simp [Lists.upd, hyx, hl])
      have a1 : (((World.put ⟨h', fun z => if z = x then none else w.obj z⟩ x (Vec.empty, h')).put x (v, h')).put y (Vec.empty, h')) = w.steal x y v h' := by
        simp only [World.steal, World.put, World.mk.injEq, true_and]
        funext z; by_cases h1 : z = y <;> by_cases h2 : z = x <;> simp [h1, h2]
      have a2 : (((s.upd x none).upd x (some [])).upd x (some l)).upd y (some []) = (s.upd x (some l)).upd y (some []) := by
        funext z; simp only [Lists.upd]; by_cases h1 : z = y <;> by_cases h2 : z = x <;> simp [h1, h2]
      rw [← a1, ← a2]; exact i2
  | push x a =>
    simp only [Lists.step] at hs
    obtain ⟨l, hl, rfl⟩ := Option.map_eq_some_iff.1 hs
    obtain ⟨v, hv, r⟩ := inv.get hl
    obtain ⟨v', h', e1, e2, e3⟩ := push_spec moved inv.fresh r (fun _ => some a) a (fun _ _ => rfl)
    refine ⟨w.put x (v', h'), by simp only [World.step]; rw [hv, Option.bind_some, e1]; rfl, ?_⟩
    exact Inv.put good_rep inv x v' h' _ (by rw [dataOf_some hv]; exact e3) e2
  | pushElem x y i =>
    simp only [Lists.step] at hs
    obtain ⟨l, hl, hs⟩ := Option.bind_eq_some_iff.1 hs
    obtain ⟨k, hk, hs⟩ := Option.bind_eq_some_iff.1 hs
    obtain ⟨a, ha, rfl⟩ := Option.map_eq_some_iff.1 hs
    obtain ⟨v, hv, r⟩ := inv.get hl
    obtain ⟨u, hu, ru⟩ := inv.get hk
    have hxy : x ≠ y := hna
    have hlen : i < k.length := (List.getElem?_eq_some_iff.1 ha).1
    obtain ⟨v', h', e1, e2, e3⟩ := push_spec moved inv.fresh r (fun h => h.read u.data i) a (by
      intro h' hh
      have := (ru.frame fun p hp => hh p (fun h => hxy (inv.uniq x y v u p hv hu h hp)) (ru.live hp)).read hlen
      rw [this]; exact ha)
    refine ⟨w.put x (v', h'), by simp only [World.step]; rw [hv, Option.bind_some, hu, Option.bind_some, e1]; rfl, ?_⟩
    exact Inv.put good_rep inv x v' h' _ (by rw [dataOf_some hv]; exact e3) e2
  | pop x =>
    simp only [Lists.step] at hs
    obtain ⟨l, hl, hs⟩ := Option.bind_eq_some_iff.1 hs
    by_cases hne : l = []
    · rw [if_pos hne] at hs; simp at hs
    · rw [if_neg hne] at hs
      rw [← Option.some.inj hs]
      obtain ⟨v, hv, r⟩ := inv.get hl
      rcases r with ⟨rfl, h0⟩ | ⟨p, g0, g1, g2, g3⟩
      · exact absurd h0 hne
      · have hpos : 0 < l.length := List.length_pos_iff.2 hne
        have hsh := shrink_spec 1 w.heap l g1 g3 (by omega)
        have hd : w.heap.destroy (some p) (l.length - 1) = some (w.heap.set p (some (bk v.cap (l.take (l.length - 1))))) := by
          simp only [shrink] at hsh
          cases hd : w.heap.destroy (some p) (l.length - 1) with
          | none => rw [hd] at hsh; simp at hsh
          | some h' => rw [hd] at hsh; simpa using hsh
        refine ⟨w.put x ({ v with size := v.size - 1 }, w.heap.set p (some (bk v.cap (l.take (l.length - 1))))), ?_, ?_⟩
        · simp only [World.step]
          rw [hv, Option.bind_some]
          unfold popBack
          rw [if_neg (by omega), g0, g2, hd]; rfl
        · refine Inv.put good_rep inv x _ _ _ ?_ (Or.inr ⟨p, g0, ?_, ?_, ?_⟩)
          · rw [dataOf_some hv]; dsimp only; rw [g0]; exact Trans.set (by rw [g1]; simp)
          · rw [List.dropLast_eq_take]; simp
          · simp [g2]
          · simp; omega
  | set x i a =>
    simp only [Lists.step] at hs
    obtain ⟨l, hl, hs⟩ := Option.bind_eq_some_iff.1 hs
    by_cases hi : i < l.length
    · rw [if_pos hi] at hs
      rw [← Option.some.inj hs]
      obtain ⟨v, hv, r⟩ := inv.get hl
      rcases r with ⟨rfl, rfl⟩ | ⟨p, g0, g1, g2, g3⟩
      · simp at hi
      · have hw : w.heap.write (some p) i a = some (w.heap.set p (some (bk v.cap (l.set i a)))) := by
          simp only [Heap.write, g1]
          rw [if_pos ⟨by simp only [bk]; omega, by simp only [bk]; rw [List.getElem?_eq_getElem hi]; rfl⟩]
          congr 3
          refine block_ext rfl fun j => ?_
          simp only [bk, List.getElem?_set]
          by_cases hj : j = i
          · subst hj; simp [hi]
          · rw [if_neg hj, if_neg (fun h => hj h.symm)]
        refine ⟨w.put x (v, w.heap.set p (some (bk v.cap (l.set i a)))), ?_, ?_⟩
        · simp only [World.step]; rw [hv, Option.bind_some, g0, hw]; rfl
        · refine Inv.put good_rep inv x _ _ _ ?_ (Or.inr ⟨p, g0, by simp, by simp [g2], by simpa using g3⟩)
          rw [dataOf_some hv, g0]; exact Trans.set (by rw [g1]; simp)
    · rw [if_neg hi] at hs; simp at hs
  | resize x n a =>
    simp only [Lists.step] at hs
    obtain ⟨l, hl, rfl⟩ := Option.map_eq_some_iff.1 hs
    obtain ⟨v, hv, r⟩ := inv.get hl
    obtain ⟨v', h', e1, e2, e3⟩ := resize_spec moved inv.fresh r n a
    refine ⟨w.put x (v', h'), by simp only [World.step]; rw [hv, Option.bind_some, e1]; rfl, ?_⟩
    exact Inv.put good_rep inv x v' h' _ (by rw [dataOf_some hv]; exact e3) e2
  | reserve x n =>
    simp only [Lists.step] at hs
    obtain ⟨l, hl, rfl⟩ := Option.map_eq_some_iff.1 hs
    obtain ⟨v, hv, r⟩ := inv.get hl
    obtain ⟨v', h', e1, e2, e3, _⟩ := reserve_spec moved inv.fresh r n
    refine ⟨w.put x (v', h'), by simp only [World.step]; rw [hv, Option.bind_some, e1]; rfl, ?_⟩
    have := Inv.put good_rep inv x v' h' l (by rw [dataOf_some hv]; exact e3) e2
    have e : s.upd x (some l) = s := by
      funext z; unfold Lists.upd; by_cases hz : z = x
      · subst hz; simpa using hl.symm
      · simp [hz]
    rw [e] at this; exact this
  | clear x =>
    simp only [Lists.step] at hs
    obtain ⟨l, hl, rfl⟩ := Option.map_eq_some_iff.1 hs
    obtain ⟨v, hv, r⟩ := inv.get hl
    rcases r with ⟨rfl, rfl⟩ | ⟨p, g0, g1, g2, g3⟩
    · refine ⟨w.put x (Vec.empty, w.heap), by simp only [World.step]; rw [hv]; rfl, ?_⟩
      exact Inv.put good_rep inv x _ _ _ (by rw [dataOf_some hv]; exact Trans.refl _ _) (Or.inl ⟨rfl, rfl⟩)
    · have hd := destroyLoop_spec v.size 0 w.heap (fun i => l[i]?) g1 (by omega) (by
        intro j hj; rw [Nat.zero_add, List.getElem?_eq_getElem (by omega)]; rfl)
      have hb : (⟨v.cap, fun j => if 0 ≤ j ∧ j < 0 + v.size then none else l[j]?⟩ : Block T) = bk v.cap [] := by
        refine block_ext rfl fun j => ?_
        simp only [bk, List.getElem?_nil]
        by_cases hj : j < v.size
        · rw [if_pos ⟨by omega, by omega⟩]
        · rw [if_neg (by omega), List.getElem?_eq_none (by omega)]
      rw [hb] at hd
      refine ⟨w.put x ({ v with size := 0 }, w.heap.set p (some (bk v.cap []))), ?_, ?_⟩
      · simp only [World.step]
        rw [hv, Option.bind_some]
        unfold Nano.clear
        rw [g0, hd]; rfl
      · refine Inv.put good_rep inv x _ _ _ ?_ (Or.inr ⟨p, g0, by simp, rfl, by simp⟩)
        rw [dataOf_some hv]; dsimp only; rw [g0]; exact Trans.set (by rw [g1]; simp)
  | swap x y =>
    simp only [Lists.step] at hs
    obtain ⟨l, hl, hs⟩ := Option.bind_eq_some_iff.1 hs
    obtain ⟨k, hk, rfl⟩ := Option.map_eq_some_iff.1 hs
    obtain ⟨v, hv, _⟩ := inv.get hl
    obtain ⟨u, hu, _⟩ := inv.get hk
    exact ⟨_, by simp only [World.step]; rw [hv, Option.bind_some, hu]; rfl, Inv.swap good_rep inv hv hu hl hk⟩

theorem run_spec (moved : T → T) (os : List (Op T)) : ∀ (w : World T) (s s' : Lists T), Inv Rep w s → (∀ o ∈ os, o.NoAlias) → s.run os = some s' →
    ∃ w', w.run moved os = some w' ∧ Inv Rep w' s' := by
  induction os with
  | nil => intro w s s' inv _ h; simp only [Lists.run, Option.some.injEq] at h; subst h; exact ⟨w, rfl, inv⟩
  | cons o os ih =>
    intro w s s' inv hna h
    obtain ⟨s1, h1, h2⟩ := Option.bind_eq_some_iff.1 h
    obtain ⟨w1, e1, i1⟩ := step_spec moved inv o (hna o (by simp)) h1
    obtain ⟨w', e2, i2⟩ := ih w1 s1 s' i1 (fun o' ho' => hna o' (by simp [ho'])) h2
    exact ⟨w', by show (w.step moved o).bind _ = _; rw [e1]; exact e2, i2⟩

theorem Inv.init : Inv Rep (World.init : World T) (fun _ => none) :=
  ⟨fun _ _ => rfl, fun _ => ⟨fun _ => rfl, fun _ => rfl⟩, fun _ _ _ h => (by simp [World.init] at h), fun _ _ _ _ _ h => (by simp [World.init] at h),
    fun _ h => absurd rfl h⟩

theorem Inv.shows {w : World T} {s : Lists T} (inv : Inv Rep w s) : Shows w s := by
  intro x
  cases hv : w.obj x with
  | none => rw [(inv.dom x).1 hv]; trivial
  | some v =>
    obtain ⟨l, hl, r⟩ := inv.get' hv
    rw [hl]
    exact ⟨r.size.1, r.size.2, fun i hi => r.read hi⟩

theorem Inv.noLeak {w : World T} {s : Lists T} (inv : Inv Rep w s) : NoLeak w := by
  intro p b hb
  obtain ⟨x, v, h1, h2⟩ := inv.owned p (by rw [hb]; simp)
  obtain ⟨l, hl, r⟩ := inv.get' h1
  refine ⟨x, v, h1, h2, ?_, fun y u h3 h4 => inv.uniq y x u v p h3 h1 h4 h2⟩
  rcases r with ⟨rfl, _⟩ | ⟨p', g0, g1, _⟩
  · simp [Vec.empty] at h2
  · rw [g0] at h2
    have := Option.some.inj h2
    subst this
    rw [hb] at g1
    rw [Option.some.inj g1]; rfl

/-- **C80.**  Every permitted program of vector operations runs without touching memory that it must not touch; afterwards the vectors contain the
lists of the specification, and every block of memory belongs to exactly one vector.  (Programs that append an element of a vector to the same vector by
reference are excluded, see below.) -/
theorem C80_vector_partial (moved : T → T) (os : List (Op T)) (s : Lists T) (hs : Lists.run (fun _ => none) os = some s) (hna : ∀ o ∈ os, o.NoAlias) :
    ∃ w, World.init.run moved os = some w ∧ Shows w s ∧ NoLeak w := by
  obtain ⟨w, h1, h2⟩ := run_spec moved os World.init (fun _ => none) s Inv.init hna hs
  exact ⟨w, h1, h2.shows, h2.noLeak⟩

/-- When all vectors are gone, so is their memory. -/
theorem C80_vector_freed (moved : T → T) (os : List (Op T)) (s : Lists T) (hs : Lists.run (fun _ => none) os = some s) (hna : ∀ o ∈ os, o.NoAlias) (hend : ∀ x, s x = none) :
    ∃ w, World.init.run moved os = some w ∧ ∀ p, w.heap.block p = none := by
  obtain ⟨w, h1, h2, h3⟩ := C80_vector_partial moved os s hs hna
  refine ⟨w, h1, fun p => ?_⟩
  cases hb : w.heap.block p with
  | none => rfl
  | some b =>
    obtain ⟨x, v, hx, _⟩ := h3 p b hb
    have := h2 x
    rw [hx, hend x] at this
    exact this.elim

theorem eqLoop_spec [DecidableEq T] {h : Heap T} {v u : Vec} (l : List T) : ∀ (k i : Nat) (m : List T), Rep h v l → Rep h u m → l.length = i + k → m.length = i + k →
    eqLoop h v.data u.data k i = some (decide (l.drop i = m.drop i)) := by
  intro k
  induction k with
  | zero =>
    intro i m _ _ h1 h2
    rw [List.drop_of_length_le (by omega), List.drop_of_length_le (by omega)]; simp [eqLoop]
  | succ k ih =>
    intro i m r1 r2 h1 h2
    unfold eqLoop
    rw [r1.read (by omega), r2.read (by omega), List.getElem?_eq_getElem (by omega), List.getElem?_eq_getElem (by omega), Option.bind_some, Option.bind_some]
    rw [List.drop_eq_getElem_cons (l := l) (by omega), List.drop_eq_getElem_cons (l := m) (by omega)]
    by_cases he : l[i] = m[i]
    · rw [if_neg (fun h => h he), ih (i + 1) m r1 r2 (by omega) (by omega)]
      congr 1
      rw [he]
      exact decide_eq_decide.2 ⟨fun h => by rw [h], fun h => (List.cons.inj h).2⟩
    · rw [if_pos he]
      congr 1
      exact (decide_eq_false fun h => he (List.cons.inj h).1).symm

/-- Comparison of vectors is comparison of lists. -/
theorem C80_vector_eq [DecidableEq T] (moved : T → T) (os : List (Op T)) (s : Lists T) (hs : Lists.run (fun _ => none) os = some s) (hna : ∀ o ∈ os, o.NoAlias)
    (x y : Nat) (l m : List T) (hl : s x = some l) (hm : s y = some m) :
    ∃ w v u, World.init.run moved os = some w ∧ w.obj x = some v ∧ w.obj y = some u ∧ vecEq w.heap v u = some (decide (l = m)) := by
  obtain ⟨w, h1, inv⟩ := run_spec moved os World.init (fun _ => none) s Inv.init hna hs
  obtain ⟨v, hv, r⟩ := inv.get hl
  obtain ⟨u, hu, r'⟩ := inv.get hm
  refine ⟨w, v, u, h1, hv, hu, ?_⟩
  unfold vecEq
  have s1 := r.size.1
  have s2 := r'.size.1
  by_cases hsz : v.size = u.size
  · rw [if_neg (fun h => h hsz)]
    by_cases h0 : v.size = 0
    · rw [if_pos h0, List.length_eq_zero_iff.1 (show l.length = 0 by omega), List.length_eq_zero_iff.1 (show m.length = 0 by omega)]; simp
    · rw [if_neg h0, eqLoop_spec l u.size 0 m r r' (by omega) (by omega)]; simp
  · rw [if_pos hsz]
    have : l ≠ m := by rintro rfl; omega
    simp [this]

/-- The specification permits a program with all kinds of operations. -/
example : ∃ s, Lists.run (fun _ => none) [.make 0, .push 0 10, .push 0 20, .push 0 30, .makeCopy 1 0, .set 1 0 5, .pushElem 0 1 0, .assignMove 1 0, .pop 1,
    .swap 0 1, .resize 0 5 7, .assignCopy 0 0, .makeFill 2 3 1, .assignCopy 2 0, .clear 1, .reserve 1 9, .makeMove 3 2, .drop 2] = some s ∧
    s 3 = some [10, 20, 30, 7, 7] ∧ s 1 = some [] ∧ s 2 = none := by
  refine ⟨_, rfl, ?_, ?_, ?_⟩ <;> rfl

/-- `v.push_back(v[0])` reads freed memory if the vector is full: `expand` frees the memory to which the argument refers.  The operation is permitted by the
specification (and for `std::vector`). -/
theorem C80_alias_counterexample (moved : T → T) (a : T) :
    Lists.run (fun _ => none) [.make 0, .push 0 a, .pushElem 0 0 0] = some (fun x => if x = 0 then some [a, a] else none) ∧
    World.init.run moved [.make 0, .push 0 a, .pushElem 0 0 0] = none := by
  constructor
  · have : Lists.run (fun _ => none) [.make 0, .push 0 a, .pushElem 0 0 0]
        = some (Lists.upd (Lists.upd (Lists.upd (fun _ => none) 0 (some [])) 0 (some [a])) 0 (some [a, a])) := by
      simp [Lists.run, Lists.step, Lists.upd]
    rw [this]
    congr 1
    funext x; by_cases h : x = 0 <;> simp [h, Lists.upd]
  · simp [World.run, World.step, World.init, World.put, Vec.empty, pushBack, expand, reserve, moveLoop, release, Nano.clear, destroyLoop, Heap.free, Heap.alloc, Heap.set,
      Heap.construct, Heap.read, Heap.write, Heap.destroy]

end Verif.Nano
