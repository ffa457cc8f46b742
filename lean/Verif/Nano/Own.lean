import Verif.Nano.VectorSpec
import Mathlib.Tactic.Common
import Mathlib.Data.List.Basic

/-!
# Objects that own memory

Lemmas that are common to vectors and strings: changes of the heap by operations on one object, and the invariant that every block belongs to one object.
-/
namespace Verif.Nano

variable {T : Type}

theorem block_ext {b b' : Block T} (h1 : b.cap = b'.cap) (h2 : ∀ i, b.cell i = b'.cell i) : b = b' := by
  cases b; cases b'; simp only [Block.mk.injEq] at *; exact ⟨h1, funext h2⟩

@[simp] theorem set_same (h : Heap T) (p : Nat) (b : Option (Block T)) : (h.set p b).block p = b := by simp [Heap.set]

theorem set_other (h : Heap T) {p q : Nat} (b : Option (Block T)) (hne : q ≠ p) : (h.set p b).block q = h.block q := by simp [Heap.set, hne]

@[simp] theorem set_next (h : Heap T) (p : Nat) (b : Option (Block T)) : (h.set p b).next = h.next := rfl

@[simp] theorem set_set (h : Heap T) (p : Nat) (b b' : Option (Block T)) : (h.set p b).set p b' = h.set p b' := by
  simp only [Heap.set, Heap.mk.injEq, and_true]
  funext q; by_cases hq : q = p <;> simp [hq]

theorem set_eq (h : Heap T) (p : Nat) {b : Option (Block T)} (hb : h.block p = b) : h.set p b = h := by
  cases h with | mk blk n =>
  simp only [Heap.set, Heap.mk.injEq, and_true]
  funext q; by_cases hq : q = p
  · subst hq; simp [← hb]
  · simp [hq]

theorem set_comm (h : Heap T) {p q : Nat} (b b' : Option (Block T)) (hne : p ≠ q) : (h.set p b).set q b' = (h.set q b').set p b := by
  simp only [Heap.set, Heap.mk.injEq, and_true]
  funext r
  by_cases h1 : r = p
  · subst h1; rw [if_neg hne]; simp
  · by_cases h2 : r = q <;> simp [h1, h2]
    intro h3; exact absurd h3.symm hne

/-- The change of the heap by an operation on a vector that had the memory `d` and has the memory `d'` afterwards -/
structure Trans (h : Heap T) (d : Option Nat) (h' : Heap T) (d' : Option Nat) : Prop where
  frame : ∀ q, d ≠ some q → d' ≠ some q → h'.block q = h.block q
  new : ∀ q, d' = some q → d = some q ∨ h.block q = none
  gone : ∀ q, d = some q → d' ≠ some q → h'.block q = none
  fresh : (∀ q, h.next ≤ q → h.block q = none) → ∀ q, h'.next ≤ q → h'.block q = none

theorem Trans.refl (h : Heap T) (d : Option Nat) : Trans h d h d :=
  ⟨fun _ _ _ => rfl, fun _ h => Or.inl h, fun _ h1 h2 => absurd h1 h2, fun h => h⟩

theorem Trans.trans {h h1 h2 : Heap T} {d d1 d2 : Option Nat} (a : Trans h d h1 d1) (b : Trans h1 d1 h2 d2) : Trans h d h2 d2 := by
  refine ⟨?_, ?_, ?_, fun hf => b.fresh (a.fresh hf)⟩
  · intro q h1 h2
    by_cases hq : d1 = some q
    · rcases a.new q hq with h | h
      · exact absurd h h1
      · rw [b.gone q hq h2, h]
    · rw [b.frame q hq h2, a.frame q h1 hq]
  · intro q h2
    by_cases hd : d = some q
    · exact Or.inl hd
    · right
      rcases b.new q h2 with h | h
      · rcases a.new q h with h | h
        · exact absurd h hd
        · exact h
      · by_cases hq : d1 = some q
        · rcases a.new q hq with h | h
          · exact absurd h hd
          · exact h
        · rw [← a.frame q hd hq]; exact h
  · intro q h1 h2
    by_cases hq : d1 = some q
    · exact b.gone q hq h2
    · rw [b.frame q hq h2]; exact a.gone q h1 hq

/-- A change within a block -/
theorem Trans.set {h : Heap T} {p : Nat} {b : Block T} (hb : h.block p ≠ none) : Trans h (some p) (h.set p (some b)) (some p) := by
  refine ⟨?_, fun q h => Or.inl h, fun q h1 h2 => absurd h1 h2, ?_⟩
  · intro q h1 _
    exact set_other h _ (fun h => h1 (by rw [h]))
  · intro hf q hq
    rw [set_other]
    · exact hf q hq
    · rintro rfl; exact hb (hf q hq)

/-- What is required of the relation between an object and its contents: it depends only on the memory of the object, which is live. -/
structure Good (R : Heap T → Vec → List T → Prop) : Prop where
  frame : ∀ {h h' : Heap T} {v : Vec} {l : List T}, R h v l → (∀ p, v.data = some p → h'.block p = h.block p) → R h' v l
  live : ∀ {h : Heap T} {v : Vec} {l : List T}, R h v l → ∀ {p : Nat}, v.data = some p → h.block p ≠ none

/-! ### Programs -/

/-- The invariant of programs -/
structure Inv (R : Heap T → Vec → List T → Prop) (w : World T) (s : Lists T) : Prop where
  fresh : ∀ q, w.heap.next ≤ q → w.heap.block q = none
  dom : ∀ x, w.obj x = none ↔ s x = none
  rep : ∀ x v l, w.obj x = some v → s x = some l → R w.heap v l
  uniq : ∀ x y v u p, w.obj x = some v → w.obj y = some u → v.data = some p → u.data = some p → x = y
  owned : ∀ p, w.heap.block p ≠ none → ∃ x v, w.obj x = some v ∧ v.data = some p

/-- The memory of a vector, if it exists -/
def dataOf (w : World T) (x : Nat) : Option Nat := (w.obj x).bind Vec.data

variable {R : Heap T → Vec → List T → Prop}

theorem Inv.get {w : World T} {s : Lists T} (inv : Inv R w s) {x : Nat} {l : List T} (h : s x = some l) : ∃ v, w.obj x = some v ∧ R w.heap v l := by
  cases hv : w.obj x with
  | none => rw [(inv.dom x).1 hv] at h; simp at h
  | some v => exact ⟨v, rfl, inv.rep x v l hv h⟩

theorem Inv.get' {w : World T} {s : Lists T} (inv : Inv R w s) {x : Nat} {v : Vec} (h : w.obj x = some v) : ∃ l, s x = some l ∧ R w.heap v l := by
  cases hv : s x with
  | none => rw [(inv.dom x).2 hv] at h; simp at h
  | some l => exact ⟨l, rfl, inv.rep x v l h hv⟩

/-- Other vectors are not affected. -/
theorem Inv.others (g : Good R) {w : World T} {s : Lists T} (inv : Inv R w s) {x : Nat} {h' : Heap T} {d' : Option Nat} (t : Trans w.heap (dataOf w x) h' d')
    {y : Nat} {u : Vec} {p : Nat} (hy : w.obj y = some u) (hxy : y ≠ x) (hp : u.data = some p) : dataOf w x ≠ some p ∧ d' ≠ some p ∧ h'.block p = w.heap.block p := by
  have h1 : dataOf w x ≠ some p := by
    intro hd
    unfold dataOf at hd
    cases hx : w.obj x with
    | none => rw [hx] at hd; simp at hd
    | some v => rw [hx] at hd; exact hxy (inv.uniq y x u v p hy hx hp hd)
  have h2 : d' ≠ some p := by
    intro hd
    obtain ⟨l, _, r⟩ := inv.get' hy
    rcases t.new p hd with h | h
    · exact h1 h
    · exact g.live r hp h
  exact ⟨h1, h2, t.frame p h1 h2⟩

theorem Inv.put (g : Good R) {w : World T} {s : Lists T} (inv : Inv R w s) (x : Nat) (v' : Vec) (h' : Heap T) (l' : List T) (t : Trans w.heap (dataOf w x) h' v'.data) (r : R h' v' l') :
    Inv R (w.put x (v', h')) (s.upd x (some l')) := by
  refine ⟨t.fresh inv.fresh, ?_, ?_, ?_, ?_⟩
  · intro y
    simp only [World.put, Lists.upd]
    by_cases hy : y = x
    · simp [hy]
    · simp only [if_neg hy]; exact inv.dom y
  · intro y v l h1 h2
    simp only [World.put, Lists.upd] at h1 h2
    by_cases hy : y = x
    · rw [if_pos hy] at h1 h2
      rw [← Option.some.inj h1, ← Option.some.inj h2]; exact r
    · rw [if_neg hy] at h1 h2
      exact g.frame (inv.rep y v l h1 h2) fun p hp => (Inv.others g inv t h1 hy hp).2.2
  · intro y z v u p h1 h2 h3 h4
    simp only [World.put] at h1 h2
    by_cases hy : y = x
    · by_cases hz : z = x
      · rw [hy, hz]
      · rw [if_pos hy] at h1
        rw [if_neg hz] at h2
        rw [← Option.some.inj h1] at h3
        exact absurd h3 (Inv.others g inv t h2 hz h4).2.1
    · rw [if_neg hy] at h1
      by_cases hz : z = x
      · rw [if_pos hz] at h2
        rw [← Option.some.inj h2] at h4
        exact absurd h4 (Inv.others g inv t h1 hy h3).2.1
      · rw [if_neg hz] at h2
        exact inv.uniq y z v u p h1 h2 h3 h4
  · intro p hp
    simp only [World.put] at hp ⊢
    by_cases hv : v'.data = some p
    · exact ⟨x, v', by simp, hv⟩
    · by_cases hd : dataOf w x = some p
      · exact absurd (t.gone p hd hv) hp
      · rw [t.frame p hd hv] at hp
        obtain ⟨y, u, h1, h2⟩ := inv.owned p hp
        have hy : y ≠ x := by
          rintro rfl
          apply hd
          unfold dataOf; rw [h1]; exact h2
        exact ⟨y, u, by rw [if_neg hy]; exact h1, h2⟩

theorem Inv.drop (g : Good R) {w : World T} {s : Lists T} (inv : Inv R w s) (x : Nat) (h' : Heap T) (t : Trans w.heap (dataOf w x) h' none) :
    Inv R ⟨h', fun y => if y = x then none else w.obj y⟩ (s.upd x none) := by
  refine ⟨t.fresh inv.fresh, ?_, ?_, ?_, ?_⟩
  · intro y
    simp only [Lists.upd]
    by_cases hy : y = x
    · simp [hy]
    · simp only [if_neg hy]; exact inv.dom y
  · intro y v l h1 h2
    simp only [Lists.upd] at h1 h2
    by_cases hy : y = x
    · rw [if_pos hy] at h1; simp at h1
    · rw [if_neg hy] at h1 h2
      exact g.frame (inv.rep y v l h1 h2) fun p hp => (Inv.others g inv t h1 hy hp).2.2
  · intro y z v u p h1 h2 h3 h4
    dsimp only at h1 h2
    by_cases hy : y = x
    · rw [if_pos hy] at h1; simp at h1
    · by_cases hz : z = x
      · rw [if_pos hz] at h2; simp at h2
      · rw [if_neg hy] at h1; rw [if_neg hz] at h2
        exact inv.uniq y z v u p h1 h2 h3 h4
  · intro p hp
    dsimp only at hp ⊢
    by_cases hd : dataOf w x = some p
    · exact absurd (t.gone p hd (by simp)) hp
    · rw [t.frame p hd (by simp)] at hp
      obtain ⟨y, u, h1, h2⟩ := inv.owned p hp
      have hy : y ≠ x := by
        rintro rfl
        apply hd
        unfold dataOf; rw [h1]; exact h2
      exact ⟨y, u, by rw [if_neg hy]; exact h1, h2⟩

theorem Inv.swap (g : Good R) {w : World T} {s : Lists T} (inv : Inv R w s) {x y : Nat} {v u : Vec} {l k : List T} (hx : w.obj x = some v) (hy : w.obj y = some u)
    (hl : s x = some l) (hk : s y = some k) : Inv R ((w.put x (u, w.heap)).put y (v, w.heap)) ((s.upd x (some k)).upd y (some l)) := by
  by_cases hxy : x = y
  · subst hxy
    have : w.put x (u, w.heap) = w := by
      cases w with | mk h o =>
      simp only [World.put, World.mk.injEq, true_and]
      funext z; by_cases hz : z = x
      · subst hz; simpa using hy.symm
      · simp [hz]
    rw [this]
    have : s.upd x (some k) = s := by
      funext z; unfold Lists.upd; by_cases hz : z = x
      · subst hz; simpa using hk.symm
      · simp [hz]
    rw [this]
    refine Inv.put g inv x v w.heap l ?_ (inv.rep x v l hx hl)
    have : dataOf w x = v.data := by unfold dataOf; rw [hx]; rfl
    rw [this]; exact Trans.refl _ _
  · -- who has the vector of `z` afterwards
    have hobj : ∀ z, ((w.put x (u, w.heap)).put y (v, w.heap)).obj z = w.obj (if z = x then y else if z = y then x else z) := by
      intro z
      simp only [World.put]
      by_cases h1 : z = x
      · subst h1; rw [if_neg hxy]; simp [hy]
      · by_cases h2 : z = y
        · subst h2; simp [h1, hx]
        · simp [h1, h2]
    have hls : ∀ z, ((s.upd x (some k)).upd y (some l)) z = s (if z = x then y else if z = y then x else z) := by
      intro z
      simp only [Lists.upd]
      by_cases h1 : z = x
      · subst h1; rw [if_neg hxy]; simp [hk]
      · by_cases h2 : z = y
        · subst h2; simp [h1, hl]
        · simp [h1, h2]
    refine ⟨inv.fresh, ?_, ?_, ?_, ?_⟩
    · intro z; rw [hobj, hls]; exact inv.dom _
    · intro z v' l' h1 h2
      rw [hobj] at h1; rw [hls] at h2
      exact inv.rep _ v' l' h1 h2
    · intro z z' v' u' p h1 h2 h3 h4
      rw [hobj] at h1 h2
      have := inv.uniq _ _ v' u' p h1 h2 h3 h4
      by_cases a1 : z = x <;> by_cases a2 : z = y <;> by_cases b1 : z' = x <;> by_cases b2 : z' = y <;> simp_all
    · intro p hp
      obtain ⟨z, u', h1, h2⟩ := inv.owned p hp
      refine ⟨if z = x then y else if z = y then x else z, u', ?_, h2⟩
      rw [hobj, ← h1]
      congr 1
      by_cases a1 : z = x
      · subst a1; rw [if_pos rfl, if_neg (fun h => hxy h.symm), if_pos rfl]
      · by_cases a2 : z = y
        · subst a2; rw [if_neg a1, if_pos rfl, if_pos rfl]
        · rw [if_neg a1, if_neg a2, if_neg a1, if_neg a2]

theorem dataOf_some {w : World T} {x : Nat} {v : Vec} (h : w.obj x = some v) : dataOf w x = v.data := by unfold dataOf; rw [h]; rfl
theorem dataOf_none {w : World T} {x : Nat} (h : w.obj x = none) : dataOf w x = none := by unfold dataOf; rw [h]; rfl


end Verif.Nano
