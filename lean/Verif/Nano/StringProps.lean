import Verif.Nano.Own
import Verif.Nano.StringSpec
import Mathlib.Tactic.Common
import Mathlib.Data.List.Basic
import Mathlib.Data.List.Infix

/-!
# C81: strings behave like lists of characters
-/
namespace Verif.Nano.Str

/-- What the heap contains for a string with the characters `l` -/
def Rep (h : Heap Ch) (v : Vec) (l : List Ch) : Prop :=
  (v = Vec.empty ∧ l = []) ∨ ∃ p b, v.data = some p ∧ h.block p = some b ∧ b.cap = v.cap + 1 ∧ v.size = l.length ∧ l.length ≤ v.cap ∧
    (∀ i, i < l.length → b.cell i = l[i]?) ∧ b.cell l.length = some 0

theorem good_rep : Good Rep := by
  refine ⟨?_, ?_⟩
  · intro h h' v l r hf
    rcases r with r | ⟨p, b, h0, h1, h2⟩
    · exact Or.inl r
    · exact Or.inr ⟨p, b, h0, by rw [hf p h0]; exact h1, h2⟩
  · intro h v l r p hp
    rcases r with ⟨rfl, _⟩ | ⟨p', b, h0, h1, _⟩
    · simp [Vec.empty] at hp
    · rw [h0] at hp; have := Option.some.inj hp; subst this; rw [h1]; simp

theorem Rep.size {h : Heap Ch} {v : Vec} {l : List Ch} (r : Rep h v l) : v.size = l.length ∧ v.size ≤ v.cap := by
  rcases r with ⟨rfl, rfl⟩ | ⟨p, b, _, _, _, h1, h2, _⟩
  · exact ⟨rfl, Nat.le_refl _⟩
  · exact ⟨h1, by omega⟩

theorem Rep.read {h : Heap Ch} {v : Vec} {l : List Ch} (r : Rep h v l) {i : Nat} (hi : i < l.length) : h.read v.data i = l[i]? := by
  rcases r with ⟨rfl, rfl⟩ | ⟨p, b, h0, h1, h2, h3, h4, h5, _⟩
  · simp at hi
  · rw [h0]; simp only [Heap.read, h1]; rw [if_pos (by omega)]; exact h5 i hi

theorem storeList_spec {p : Nat} (xs : List Ch) : ∀ (i : Nat) (h : Heap Ch) (b : Block Ch), h.block p = some b → i + xs.length ≤ b.cap →
    storeList (some p) i xs h = some (h.set p (some ⟨b.cap, fun j => if i ≤ j ∧ j < i + xs.length then xs[j - i]? else b.cell j⟩)) := by
  induction xs with
  | nil =>
    intro i h b hb _
    simp only [storeList]
    rw [set_eq h p]
    rw [hb]; congr 1; refine block_ext rfl fun j => ?_; dsimp only; rw [if_neg (by simp)]
  | cons x xs ih =>
    intro i h b hb hc
    simp only [List.length_cons] at hc
    have h0 : store h (some p) i x = some (h.set p (some ⟨b.cap, fun j => if j = i then some x else b.cell j⟩)) := by
      simp only [store, hb]; rw [if_pos (by omega)]
    show (store h (some p) i x).bind _ = _
    rw [h0, Option.bind_some, ih (i + 1) _ ⟨b.cap, fun j => if j = i then some x else b.cell j⟩ (by simp) (by dsimp only; omega), set_set]
    congr 3
    refine block_ext rfl fun j => ?_
    dsimp only
    simp only [List.length_cons]
    by_cases h1 : i + 1 ≤ j ∧ j < i + 1 + xs.length
    · rw [if_pos h1, if_pos (by omega)]
      obtain ⟨d, hd⟩ : ∃ d, j - i = d + 1 := ⟨j - i - 1, by omega⟩
      rw [hd, List.getElem?_cons_succ]; congr 1; omega
    · rw [if_neg h1]
      by_cases h2 : j = i
      · subst h2; rw [if_pos rfl, if_pos (by omega)]; simp
      · rw [if_neg h2, if_neg (by omega)]

theorem store_spec {p : Nat} {h : Heap Ch} {b : Block Ch} (hb : h.block p = some b) {i : Nat} (hi : i < b.cap) (x : Ch) :
    store h (some p) i x = some (h.set p (some ⟨b.cap, fun j => if j = i then some x else b.cell j⟩)) := by
  simp only [store, hb]; rw [if_pos hi]

theorem readN_spec (h : Heap Ch) (p : Option Nat) (l : List Ch) : ∀ (n i : Nat), i + n ≤ l.length → (∀ j, j < l.length → h.read p j = l[j]?) →
    readN h p i n = some ((l.drop i).take n) := by
  intro n
  induction n with
  | zero => intro i _ _; simp [readN]
  | succ n ih =>
    intro i hi hr
    unfold readN
    rw [hr i (by omega), List.getElem?_eq_getElem (by omega), Option.bind_some, ih (i + 1) (by omega) hr]
    rw [List.drop_eq_getElem_cons (l := l) (i := i) (by omega)]
    rfl

/-- A source with at least `n` characters, of which the first `n` are `xs` -/
def Src.Has (h : Heap Ch) (d : Option Nat) (i : Nat) (xs : List Ch) : Src → Prop
  | .ext l => xs.length ≤ l.length ∧ xs = l.take xs.length
  | .mem p => (p = d → xs.length ≤ i) ∧ ∀ j, j < xs.length → h.read p j = xs[j]?

theorem memcpy_spec {h : Heap Ch} {p : Nat} {b : Block Ch} (hb : h.block p = some b) {i : Nat} {src : Src} {xs : List Ch} (hs : src.Has h (some p) i xs)
    (hi : i + xs.length ≤ b.cap) :
    memcpy h (some p) i src xs.length = some (h.set p (some ⟨b.cap, fun j => if i ≤ j ∧ j < i + xs.length then xs[j - i]? else b.cell j⟩)) := by
  cases src with
  | ext l =>
    obtain ⟨h1, h2⟩ := hs
    simp only [memcpy]
    rw [if_pos h1, ← h2]
    exact storeList_spec xs i h b hb hi
  | mem q =>
    obtain ⟨h1, h2⟩ := hs
    simp only [memcpy]
    rw [if_neg (by rintro ⟨e, hlt⟩; have := h1 e; omega), readN_spec h q xs xs.length 0 (by omega) h2, Option.bind_some]
    simp only [List.drop_zero, List.take_length]
    exact storeList_spec xs i h b hb hi

theorem put_spec {h : Heap Ch} {v : Vec} {l xs : List Ch} (r : Rep h v l) (hc : l.length + xs.length ≤ v.cap) {src : Src} (hs : src.Has h v.data l.length xs) :
    ∃ v' h', putUnchecked v src xs.length h = some (v', h') ∧ Rep h' v' (l ++ xs) ∧ v'.data = v.data ∧ v'.cap = v.cap ∧ Trans h v.data h' v'.data ∧
      ∀ q, v.data ≠ some q → h'.block q = h.block q := by
  by_cases h0 : xs.length = 0
  · have : xs = [] := List.length_eq_zero_iff.1 h0
    subst this
    exact ⟨v, h, rfl, by simpa using r, rfl, rfl, Trans.refl _ _, fun _ _ => rfl⟩
  · rcases r with ⟨rfl, rfl⟩ | ⟨p, b, g0, g1, g2, g3, g4, g5, g6⟩
    · simp [Vec.empty] at hc; exact absurd (by simp [hc]) h0
    · have hm := memcpy_spec (i := l.length) g1 (by rw [← g0]; exact hs) (by omega)
      refine ⟨{ v with size := v.size + xs.length }, h.set p (some ⟨b.cap, fun j => if j = l.length + xs.length then some 0 else
          if l.length ≤ j ∧ j < l.length + xs.length then xs[j - l.length]? else b.cell j⟩), ?_, ?_, rfl, rfl, ?_, ?_⟩
      · unfold putUnchecked
        rw [if_neg h0, g0, g3, hm, Option.bind_some, store_spec (set_same _ _ _) (by dsimp only; omega)]
        simp
      · refine Or.inr ⟨p, _, g0, set_same _ _ _, g2, by simp [g3], by simp; omega, ?_, ?_⟩
        · intro i hi
          simp only [List.length_append] at hi
          dsimp only
          rw [if_neg (by omega)]
          by_cases h1 : l.length ≤ i
          · rw [if_pos ⟨h1, by omega⟩, List.getElem?_append_right h1]
          · rw [if_neg (by omega), List.getElem?_append_left (by omega)]; exact g5 i (by omega)
        · dsimp only; rw [List.length_append, if_pos rfl]
      · dsimp only; rw [g0]; exact Trans.set (by rw [g1]; simp)
      · intro q hq; exact set_other h _ (fun h => hq (by rw [g0, h]))

theorem delete_spec {h : Heap Ch} {v : Vec} {l : List Ch} (r : Rep h v l) :
    ∃ h', delete h v.data = some h' ∧ Trans h v.data h' none ∧ ∀ q, v.data ≠ some q → h'.block q = h.block q := by
  rcases r with ⟨rfl, rfl⟩ | ⟨p, b, h0, h1, _⟩
  · exact ⟨h, rfl, Trans.refl _ _, fun _ _ => rfl⟩
  · refine ⟨h.set p none, ?_, ?_, ?_⟩
    · rw [h0]; simp [delete, h1]
    · rw [h0]
      refine ⟨fun q hq _ => set_other h _ (fun h => hq (by rw [h])), fun q hq => by simp at hq, ?_, ?_⟩
      · intro q hq _
        have := Option.some.inj hq
        subst this; simp
      · intro hf q hq
        by_cases hqp : q = p
        · subst hqp; simp
        · rw [set_other _ _ hqp]; exact hf q hq
    · intro q hq
      exact set_other h _ (fun h => hq (by rw [h0, h]))

theorem alloc_spec {h : Heap Ch} (hf : ∀ q, h.next ≤ q → h.block q = none) (n : Nat) :
    (h.alloc n).2.block h.next = some ⟨n, fun _ => none⟩ ∧ (∀ q, q ≠ h.next → (h.alloc n).2.block q = h.block q) ∧ Trans h none (h.alloc n).2 (some h.next) := by
  have h1 : ∀ q, q ≠ h.next → (h.alloc n).2.block q = h.block q := fun q hq => set_other h _ hq
  refine ⟨by simp only [Heap.alloc, set_same], h1, ?_⟩
  refine ⟨fun q _ hq => h1 q (fun h => hq (by rw [h])), ?_, fun q hq => by simp at hq, ?_⟩
  · intro q hq
    have := Option.some.inj hq
    subst this
    exact Or.inr (hf _ (Nat.le_refl _))
  · intro _ q hq
    have : (h.alloc n).2.next = h.next + 1 := rfl
    rw [h1 q (by omega)]
    exact hf q (by omega)

theorem grow_spec (mg : Bool) {h : Heap Ch} (hf : ∀ q, h.next ≤ q → h.block q = none) {v : Vec} {l : List Ch} (r : Rep h v l) (n : Nat) :
    ∃ v' h', grow mg v n h = some (v', h') ∧ Rep h' v' l ∧ Trans h v.data h' v'.data ∧ l.length + n ≤ v'.cap ∧
      (∀ q, v.data ≠ some q → h.block q ≠ none → h'.block q = h.block q) ∧ ∀ q, h'.next ≤ q → h'.block q = none := by
  have hsz := r.size
  unfold grow
  by_cases hn : v.size + n > v.cap
  · dsimp only
    rw [if_pos hn]
    obtain ⟨cap, hcap⟩ : ∃ cap, cap = if mg = true ∧ v.size + n < v.cap * 2 then v.cap * 2 else v.size + n := ⟨_, rfl⟩
    have hge : v.size + n ≤ cap := by rw [hcap]; split <;> omega
    rw [← hcap]
    obtain ⟨a1, a2, a3⟩ := alloc_spec hf (cap + 1)
    have hne : v.data ≠ some h.next := fun hd => good_rep.live r hd (hf _ (Nat.le_refl _))
    -- the copy
    have hcopy : ∃ h1, (if v.size ≠ 0 then memcpy (h.alloc (cap + 1)).2 (some (h.alloc (cap + 1)).1) 0 (.mem v.data) v.size else some (h.alloc (cap + 1)).2) = some h1 ∧
        ∃ b1, h1.block h.next = some b1 ∧ b1.cap = cap + 1 ∧ (∀ i, i < l.length → b1.cell i = l[i]?) ∧ (∀ q, q ≠ h.next → h1.block q = h.block q) ∧ h1.next = h.next + 1 := by
      by_cases h0 : v.size ≠ 0
      · rw [if_pos h0, hsz.1]
        have hfr : Rep (h.alloc (cap + 1)).2 v l := good_rep.frame r fun p hp => a2 p (by rintro rfl; exact hne hp)
        have hm := memcpy_spec (h := (h.alloc (cap + 1)).2) (p := h.next) a1 (i := 0) (src := .mem v.data) (xs := l)
          ⟨fun e => absurd e hne, fun j hj => hfr.read hj⟩ (by dsimp only; omega)
        refine ⟨_, hm, _, set_same _ _ _, rfl, ?_, ?_, rfl⟩
        · intro i hi; dsimp only; rw [if_pos (by omega)]; rfl
        · intro q hq; rw [set_other _ _ hq]; exact a2 q hq
      · rw [if_neg h0]
        exact ⟨_, rfl, _, a1, rfl, fun i hi => by omega, a2, rfl⟩
    obtain ⟨h1, e1, b1, e2, e3, e4, e5, e6⟩ := hcopy
    rw [e1, Option.bind_some]
    have hst := store_spec e2 (i := v.size) (by omega) 0
    show ∃ v' h', ((store h1 (some h.next) v.size 0).bind _) = _ ∧ _
    rw [hst, Option.bind_some]
    have hr2 : Rep (h1.set h.next (some ⟨b1.cap, fun j => if j = v.size then some 0 else b1.cell j⟩)) v l := by
      refine good_rep.frame r fun p hp => ?_
      have : p ≠ h.next := by rintro rfl; exact hne hp
      rw [set_other _ _ this, e5 p this]
    obtain ⟨h2, f1, f2, f3⟩ := delete_spec hr2
    rw [f1]
    have hblk : h2.block h.next = some ⟨b1.cap, fun j => if j = v.size then some 0 else b1.cell j⟩ := by rw [f3 _ hne]; simp
    have hT : Trans h v.data h2 (some h.next) := by
      refine ⟨?_, ?_, ?_, ?_⟩
      · intro q q1 q2
        have hq : q ≠ h.next := by rintro rfl; exact q2 rfl
        rw [f3 q q1, set_other _ _ hq, e5 q hq]
      · intro q hq
        have := Option.some.inj hq
        subst this
        exact Or.inr (hf _ (Nat.le_refl _))
      · intro q q1 _
        exact f2.gone q q1 (by simp)
      · intro _
        apply f2.fresh
        intro q hq
        rw [set_next, e6] at hq
        rw [set_other _ _ (by omega), e5 q (by omega)]
        exact hf q (by omega)
    refine ⟨⟨some h.next, v.size, cap⟩, h2, rfl, ?_, hT, by dsimp only; omega, ?_, hT.fresh hf⟩
    · refine Or.inr ⟨h.next, _, rfl, hblk, e3, hsz.1, by dsimp only; omega, ?_, ?_⟩
      · intro i hi; dsimp only; rw [if_neg (by omega)]; exact e4 i hi
      · dsimp only; rw [if_pos hsz.1.symm]
    · intro q q1 q2
      have hq : q ≠ h.next := by rintro rfl; exact q2 (hf _ (Nat.le_refl _))
      rw [f3 q q1, set_other _ _ hq, e5 q hq]
  · dsimp only
    rw [if_neg hn]
    exact ⟨v, h, rfl, r, Trans.refl _ _, by omega, fun _ _ _ => rfl, hf⟩

theorem reserve_spec {h : Heap Ch} (hf : ∀ q, h.next ≤ q → h.block q = none) {v : Vec} {l : List Ch} (r : Rep h v l) (n : Nat) :
    ∃ v' h', reserve v n h = some (v', h') ∧ Rep h' v' l ∧ Trans h v.data h' v'.data ∧ n ≤ v'.cap := by
  have hsz := r.size
  unfold reserve
  by_cases hn : n > v.cap
  · rw [if_pos hn]
    obtain ⟨v', h', e1, e2, e3, e4, _⟩ := grow_spec false hf r (n - v.size)
    exact ⟨v', h', e1, e2, e3, by omega⟩
  · rw [if_neg hn]
    exact ⟨v, h, rfl, r, Trans.refl _ _, by omega⟩

theorem resize_spec {h : Heap Ch} (hf : ∀ q, h.next ≤ q → h.block q = none) {v : Vec} {l : List Ch} (r : Rep h v l) (n : Nat) (c : Ch) :
    ∃ v' h', resize v n c h = some (v', h') ∧ Rep h' v' (l.take n ++ List.replicate (n - l.length) c) ∧ Trans h v.data h' v'.data := by
  obtain ⟨v1, h1, e1, e2, e3, e4⟩ := reserve_spec hf r n
  unfold resize
  rw [e1, Option.bind_some]
  dsimp only
  rcases e2 with ⟨rfl, rfl⟩ | ⟨p, b, g0, g1, g2, g3, g4, g5, g6⟩
  · have hn : n = 0 := by simpa [Vec.empty] using e4
    subst hn
    exact ⟨Vec.empty, h1, by simp [Vec.empty], Or.inl ⟨rfl, by simp⟩, e3⟩
  · rw [if_pos (by rw [g0]; simp), g0, g3, storeList_spec (List.replicate (n - l.length) c) l.length h1 b g1 (by simp; omega), Option.bind_some,
      store_spec (set_same _ _ _) (by dsimp only; omega)]
    refine ⟨{ v1 with size := n }, h1.set p (some ⟨b.cap, fun j => if j = n then some 0 else
      if l.length ≤ j ∧ j < l.length + (List.replicate (n - l.length) c).length then (List.replicate (n - l.length) c)[j - l.length]? else b.cell j⟩), by simp [g0], ?_, ?_⟩
    · have hlen : (l.take n ++ List.replicate (n - l.length) c).length = n := by simp; omega
      refine Or.inr ⟨p, _, g0, set_same _ _ _, g2, hlen.symm, by rw [hlen]; exact e4, ?_, ?_⟩
      · intro i hi
        rw [hlen] at hi
        dsimp only
        rw [if_neg (by omega)]
        simp only [List.length_replicate]
        by_cases h1 : l.length ≤ i
        · rw [if_pos ⟨h1, by omega⟩, List.getElem?_append_right (by simp; omega)]
          congr 1; simp; omega
        · rw [if_neg (by omega), List.getElem?_append_left (by simp; omega), List.getElem?_take_of_lt hi]
          exact g5 i (by omega)
      · dsimp only; rw [hlen, if_pos rfl]
    · exact e3.trans (by dsimp only; rw [g0]; exact Trans.set (by rw [g1]; simp))

theorem clear_spec {h : Heap Ch} {v : Vec} {l : List Ch} (r : Rep h v l) :
    ∃ v' h', clear v h = some (v', h') ∧ Rep h' v' [] ∧ Trans h v.data h' v'.data ∧ v'.data = v.data := by
  unfold clear
  rcases r with ⟨rfl, rfl⟩ | ⟨p, b, g0, g1, g2, g3, g4, g5, g6⟩
  · exact ⟨Vec.empty, h, by simp [Vec.empty], Or.inl ⟨rfl, rfl⟩, Trans.refl _ _, rfl⟩
  · rw [if_pos (by rw [g0]; simp), g0, store_spec g1 (by omega)]
    refine ⟨{ v with size := 0 }, h.set p (some ⟨b.cap, fun j => if j = 0 then some 0 else b.cell j⟩), by simp [g0],
      Or.inr ⟨p, ⟨b.cap, fun j => if j = 0 then some 0 else b.cell j⟩, g0, set_same _ _ _, g2, rfl, by simp, fun i hi => by simp at hi, by simp⟩, ?_, g0⟩
    dsimp only; rw [g0]; exact Trans.set (by rw [g1]; simp)

theorem indent_spec {h : Heap Ch} (hf : ∀ q, h.next ≤ q → h.block q = none) {v : Vec} {l : List Ch} (r : Rep h v l) (n : Nat) :
    ∃ v' h', indent v n h = some (v', h') ∧ Rep h' v' (l ++ List.replicate n 32) ∧ Trans h v.data h' v'.data := by
  unfold indent
  by_cases h0 : n = 0
  · subst h0; exact ⟨v, h, rfl, by simpa using r, Trans.refl _ _⟩
  · rw [if_neg h0]
    obtain ⟨v1, h1, e1, e2, e3, e4, _⟩ := grow_spec true hf r n
    rw [e1, Option.bind_some]
    dsimp only
    have hput := put_spec (xs := List.replicate n 32) e2 (by simpa using e4) (src := .ext (List.replicate n 32)) ⟨Nat.le_refl _, by simp⟩
    obtain ⟨v2, h2, f1, f2, f3, f4, f5, _⟩ := hput
    refine ⟨v2, h2, ?_, f2, e3.trans f5⟩
    unfold putUnchecked at f1
    simp only [List.length_replicate] at f1
    rw [if_neg h0] at f1
    rw [← f1]
    simp [memcpy]

theorem ofBuf_spec {h : Heap Ch} (hf : ∀ q, h.next ≤ q → h.block q = none) (l : List Ch) :
    ∃ v' h', ofBuf l h = some (v', h') ∧ Rep h' v' l ∧ Trans h none h' v'.data := by
  unfold ofBuf
  by_cases h0 : l.length = 0
  · rw [if_pos h0]
    exact ⟨_, _, rfl, Or.inl ⟨rfl, List.length_eq_zero_iff.1 h0⟩, Trans.refl _ _⟩
  · rw [if_neg h0]
    obtain ⟨a1, a2, a3⟩ := alloc_spec hf (l.length + 1)
    have hm := memcpy_spec (h := (h.alloc (l.length + 1)).2) (p := h.next) a1 (i := 0) (src := .ext l) (xs := l) ⟨Nat.le_refl _, by simp⟩ (by dsimp only; omega)
    show ∃ v' h', (memcpy (h.alloc (l.length + 1)).2 (some h.next) 0 (.ext l) l.length).bind _ = _ ∧ _
    rw [hm, Option.bind_some]
    have hst := store_spec (set_same (h.alloc (l.length + 1)).2 h.next (some ⟨l.length + 1, fun j => if 0 ≤ j ∧ j < 0 + l.length then l[j - 0]? else none⟩))
      (i := l.length) (by dsimp only; omega) 0
    show ∃ v' h', (store _ (some h.next) l.length 0).map _ = _ ∧ _
    rw [hst, set_set]
    refine ⟨⟨some h.next, l.length, l.length⟩, _, rfl, Or.inr ⟨h.next, _, rfl, set_same _ _ _, rfl, rfl, Nat.le_refl _, ?_, ?_⟩, ?_⟩
    · intro i hi; dsimp only; rw [if_neg (by omega), if_pos (by omega)]; rfl
    · dsimp only; rw [if_pos rfl]
    · exact a3.trans (Trans.set (by rw [a1]; simp))

/-! ### Arguments -/

theorem strlen_spec {h : Heap Ch} {p : Nat} {b : Block Ch} (l : List Ch) (hb : h.block p = some b) (hlt : l.length < b.cap) (h5 : ∀ i, i < l.length → b.cell i = l[i]?)
    (h6 : b.cell l.length = some 0) : ∀ (k i : Nat), i ≤ l.length → l.length < i + k → strlen h p k i = some (i + ((l.drop i).takeWhile fun c => c ≠ 0).length) := by
  intro k
  induction k with
  | zero => intro i h1 h2; omega
  | succ k ih =>
    intro i h1 h2
    unfold strlen
    by_cases hi : i < l.length
    · have : h.read (some p) i = some l[i] := by
        simp only [Heap.read, hb]; rw [if_pos (by omega), h5 i hi, List.getElem?_eq_getElem hi]
      rw [this, Option.bind_some, List.drop_eq_getElem_cons hi]
      by_cases hz : l[i] = 0
      · rw [if_pos hz, List.takeWhile_cons_of_neg (by simp [hz])]; rfl
      · rw [if_neg hz, ih (i + 1) (by omega) (by omega), List.takeWhile_cons_of_pos (by simp [hz]), List.length_cons]
        congr 1; omega
    · have hil : i = l.length := by omega
      subst hil
      have : h.read (some p) l.length = some 0 := by
        simp only [Heap.read, hb]; rw [if_pos hlt, h6]
      rw [this, Option.bind_some, if_pos rfl]; simp

/-- The text of a value in a call on the string `x` -/
def Means (w : World Ch) (s : Lists Ch) (x : Nat) : Val → List Ch → Prop
  | .text l _, xs => xs = l
  | .str y, xs => s y = some xs
  | .ptr p, xs => ∃ y u k, y ≠ x ∧ w.obj y = some u ∧ u.data = p ∧ s y = some k ∧ xs = k.takeWhile fun c => c ≠ 0

theorem bound_spec {w : World Ch} {s : Lists Ch} (inv : Inv Rep w s) {x : Nat} {a : Val} {xs : List Ch} (h : Means w s x a xs) :
    ∃ n, a.bound w = some n ∧ xs.length ≤ n ∧ ((∀ l k, a ≠ .text l k) → n = xs.length) := by
  cases a with
  | text l k => refine ⟨l.length + k, rfl, ?_, fun hh => absurd rfl (hh l k)⟩; rw [show xs = l from h]; omega
  | str y =>
    obtain ⟨u, hu, r⟩ := inv.get (show s y = some xs from h)
    exact ⟨u.size, by simp [Val.bound, hu], by rw [r.size.1], fun _ => r.size.1⟩
  | ptr p =>
    obtain ⟨y, u, k, _, hu, rfl, hk, rfl⟩ := h
    have r := inv.rep y u k hu hk
    rcases r with ⟨rfl, rfl⟩ | ⟨p, b, g0, g1, g2, g3, g4, g5, g6⟩
    · exact ⟨0, rfl, by simp, fun _ => by simp⟩
    · refine ⟨(k.takeWhile fun c => c ≠ 0).length, ?_, Nat.le_refl _, fun _ => rfl⟩
      simp only [g0, Val.bound, g1]
      rw [strlen_spec k g1 (by omega) g5 g6 b.cap 0 (by omega) (by omega)]
      simp

theorem takeWhile_read {k : List Ch} {f : Ch → Bool} {j : Nat} (hj : j < (k.takeWhile f).length) : (k.takeWhile f)[j]? = k[j]? := by
  have hp := List.takeWhile_prefix (l := k) f
  obtain ⟨t, ht⟩ := hp
  conv_rhs => rw [← ht]
  rw [List.getElem?_append_left hj]

theorem format_spec {w : World Ch} {s : Lists Ch} (inv : Inv Rep w s) {x : Nat} {l : List Ch} (hl : s x = some l) {a : Val} {xs : List Ch} (hm : Means w s x a xs)
    {n : Nat} (hb : (∀ l k, a ≠ .text l k) → n = xs.length) {v : Vec} {h : Heap Ch} {acc : List Ch} (r : Rep h v (l ++ acc)) (t : Trans w.heap (dataOf w x) h v.data)
    (hc : (l ++ acc).length + xs.length ≤ v.cap) :
    ∃ v' h', a.format w x v h n = some (v', h') ∧ Rep h' v' ((l ++ acc) ++ xs) ∧ v'.cap = v.cap ∧ Trans w.heap (dataOf w x) h' v'.data := by
  -- another string as the source
  have hother : ∀ (y : Nat) (u : Vec) (k : List Ch), y ≠ x → w.obj y = some u → s y = some k → xs.length ≤ k.length → (∀ j, j < xs.length → xs[j]? = k[j]?) →
      (Src.mem u.data).Has h v.data (l ++ acc).length xs := by
    intro y u k hyx hu hk hlen hj
    have ru := inv.rep y u k hu hk
    have ru' : Rep h u k := good_rep.frame ru fun p hp => (Inv.others good_rep inv t hu hyx hp).2.2
    refine ⟨?_, fun j hjl => by rw [hj j hjl]; exact ru'.read (by omega)⟩
    intro he
    cases hd : u.data with
    | none =>
      rcases ru with ⟨_, rfl⟩ | ⟨p, _, g0, _⟩
      · simp only [List.length_nil] at hlen; omega
      · rw [hd] at g0; simp at g0
    | some p => exact absurd (by rw [← he]; exact hd) (Inv.others good_rep inv t hu hyx hd).2.1
  have hfin : ∀ (src : Src), src.Has h v.data (l ++ acc).length xs → ∃ v' h', putUnchecked v src xs.length h = some (v', h') ∧ Rep h' v' ((l ++ acc) ++ xs) ∧ v'.cap = v.cap ∧
      Trans w.heap (dataOf w x) h' v'.data := by
    intro src hs
    obtain ⟨v', h', e1, e2, e3, e4, e5, _⟩ := put_spec r hc hs
    exact ⟨v', h', e1, e2, e4, t.trans e5⟩
  cases a with
  | text l' k =>
    have : xs = l' := hm
    subst this
    exact hfin (.ext xs) ⟨Nat.le_refl _, by simp⟩
  | str y =>
    have hn := hb (by intro l k h; cases h)
    subst hn
    by_cases hyx : y = x
    · subst hyx
      have : xs = l := by
        have h1 : s y = some xs := hm
        rw [hl] at h1; exact (Option.some.inj h1).symm
      subst this
      simp only [Val.format, if_true]
      refine hfin (.mem v.data) ⟨fun _ => by simp, fun j hj => ?_⟩
      rw [r.read (by simp; omega), List.getElem?_append_left hj]
    · obtain ⟨u, hu, _⟩ := inv.get (show s y = some xs from hm)
      simp only [Val.format, if_neg hyx, hu, Option.bind_some]
      exact hfin _ (hother y u xs hyx hu hm (Nat.le_refl _) fun _ _ => rfl)
  | ptr p =>
    have hn := hb (by intro l k h; cases h)
    subst hn
    obtain ⟨y, u, k, hyx, hu, rfl, hk, rfl⟩ := hm
    exact hfin _ (hother y u k hyx hu hk (List.IsPrefix.length_le (List.takeWhile_prefix _)) fun j hj => takeWhile_read hj)

theorem formatAll_spec {w : World Ch} {s : Lists Ch} (inv : Inv Rep w s) {x : Nat} {l : List Ch} (hl : s x = some l) {as : List Val} {xss : List (List Ch)}
    (hm : List.Forall₂ (Means w s x) as xss) :
    ∃ bs, bounds w as = some bs ∧ xss.flatten.length ≤ (bs.map Prod.snd).sum ∧
      ∀ (acc : List Ch) (v : Vec) (h : Heap Ch), Rep h v (l ++ acc) → Trans w.heap (dataOf w x) h v.data → (l ++ acc).length + xss.flatten.length ≤ v.cap →
        ∃ v' h', formatAll w x bs v h = some (v', h') ∧ Rep h' v' ((l ++ acc) ++ xss.flatten) ∧ Trans w.heap (dataOf w x) h' v'.data := by
  induction hm with
  | nil => exact ⟨[], rfl, by simp, fun acc v h r t _ => ⟨v, h, rfl, by simpa using r, t⟩⟩
  | @cons a xs as xss hm _ ih =>
    obtain ⟨n, h1, h2, h3⟩ := bound_spec inv hm
    obtain ⟨bs, e1, e2, e3⟩ := ih
    refine ⟨(a, n) :: bs, by simp [bounds, h1, e1], by
      simp only [List.flatten_cons, List.length_append, List.map_cons, List.sum_cons]; omega, ?_⟩
    intro acc v h r t hc
    simp only [List.flatten_cons, List.length_append] at hc
    obtain ⟨v1, g1, f1, f2, f3, f4⟩ := format_spec inv hl hm h3 r t (by simp only [List.length_append]; omega)
    rw [List.append_assoc] at f2
    obtain ⟨v2, g2, f5, f6, f7⟩ := e3 (acc ++ xs) v1 g1 f2 f4 (by simp only [List.length_append]; omega)
    refine ⟨v2, g2, ?_, ?_, f7⟩
    · simp only [formatAll]; rw [f1, Option.bind_some]; exact f5
    · simpa [List.append_assoc] using f6

theorem put_world {w : World Ch} {s : Lists Ch} (inv : Inv Rep w s) {x : Nat} {l : List Ch} (hl : s x = some l) {as : List Val} {xss : List (List Ch)}
    (hm : List.Forall₂ (Means w s x) as xss) : ∃ w', put w x as = some w' ∧ Inv Rep w' (s.upd x (some (l ++ xss.flatten))) := by
  obtain ⟨v, hv, r⟩ := inv.get hl
  obtain ⟨bs, e1, e2, e3⟩ := formatAll_spec inv hl hm
  obtain ⟨v1, h1, f1, f2, f3, f4, _⟩ := grow_spec true inv.fresh r (bs.map Prod.snd).sum
  obtain ⟨v2, h2, g1, g2, g3⟩ := e3 [] v1 h1 (by simpa using f2) (by rw [dataOf_some hv]; exact f3) (by simp only [List.append_nil]; omega)
  refine ⟨w.put x (v2, h2), ?_, ?_⟩
  · unfold put
    rw [hv, Option.bind_some, e1, Option.bind_some, f1, Option.bind_some]
    dsimp only
    rw [g1]; rfl
  · have := Inv.put good_rep inv x v2 h2 _ g3 g2
    simpa using this

theorem val_spec {w : World Ch} {s : Lists Ch} (inv : Inv Rep w s) {x : Nat} {a : Arg} (hna : ∀ y, a = .cstr y → x ≠ y) {xs : List Ch} (hc : a.chars s = some xs) :
    ∃ v, a.val w = some v ∧ Means w s x v xs ∧ ∀ y, v = .str y → a = .str y := by
  cases a with
  | text l k => exact ⟨.text l k, rfl, (Option.some.inj hc).symm, fun y h => by cases h⟩
  | str y =>
    obtain ⟨u, hu, _⟩ := inv.get (show s y = some xs from hc)
    exact ⟨.str y, by simp [Arg.val, hu], hc, fun y' h => by injection h with h; rw [h]⟩
  | cstr y =>
    obtain ⟨k, hk, rfl⟩ := Option.map_eq_some_iff.1 (show (s y).map _ = some xs from hc)
    obtain ⟨u, hu, _⟩ := inv.get hk
    exact ⟨.ptr u.data, by simp [Arg.val, hu], ⟨y, u, k, (hna y rfl).symm, hu, rfl, hk, rfl⟩, fun y h => by cases h⟩

theorem vals_spec {w : World Ch} {s : Lists Ch} (inv : Inv Rep w s) {x : Nat} (as : List Arg) : (∀ y, Arg.cstr y ∈ as → x ≠ y) → ∀ r, chars s as = some r →
    ∃ vs xss, vals w as = some vs ∧ List.Forall₂ (Means w s x) vs xss ∧ xss.flatten = r := by
  induction as with
  | nil => intro _ r hr; exact ⟨[], [], rfl, .nil, Option.some.inj hr⟩
  | cons a as ih =>
    intro hna r hr
    obtain ⟨l, hl, hr⟩ := Option.bind_eq_some_iff.1 (show (a.chars s).bind _ = some r from hr)
    obtain ⟨r', hr', rfl⟩ := Option.map_eq_some_iff.1 hr
    obtain ⟨v, h1, h2, _⟩ := val_spec inv (x := x) (fun y hy => hna y (by simp [hy])) hl
    obtain ⟨vs, xss, h3, h4, rfl⟩ := ih (fun y hy => hna y (by simp [hy])) r' hr'
    exact ⟨v :: vs, l :: xss, by simp [vals, h1, h3], .cons h2 h4, rfl⟩

theorem Means.put {w : World Ch} {s : Lists Ch} {x : Nat} {a : Val} {xs : List Ch} (h : Means w s x a xs) (hna : ∀ y, a = .str y → y ≠ x) (r : Vec × Heap Ch) (o : Option (List Ch)) :
    Means (w.put x r) (s.upd x o) x a xs := by
  cases a with
  | text l k => exact h
  | str y => simp only [Means, Lists.upd, if_neg (hna y rfl)]; exact h
  | ptr p =>
    obtain ⟨y, u, k, h1, h2, h3, h4, h5⟩ := h
    exact ⟨y, u, k, h1, by simp only [World.put, if_neg h1]; exact h2, h3, by simp only [Lists.upd, if_neg h1]; exact h4, h5⟩

theorem upd_upd (s : Lists Ch) (x : Nat) (o o' : Option (List Ch)) : (s.upd x o).upd x o' = s.upd x o' := by
  funext z; simp only [Lists.upd]; by_cases h : z = x <;> simp [h]

theorem upd_self (s : Lists Ch) {x : Nat} {l : List Ch} (hl : s x = some l) : s.upd x (some l) = s := by
  funext z; unfold Lists.upd; by_cases hz : z = x
  · subst hz; simpa using hl.symm
  · simp [hz]

theorem step_spec {w : World Ch} {s s' : Lists Ch} (inv : Inv Rep w s) (o : Op) (hna : o.NoAlias) (hs : specStep s o = some s') :
    ∃ w', step w o = some w' ∧ Inv Rep w' s' := by
  have hmake : ∀ x, s x = none → w.obj x = none := fun x h => (inv.dom x).2 h
  -- moving into an object that does not exist
  have hsteal : ∀ (w : World Ch) (s : Lists Ch) (x y : Nat) (v : Vec) (l : List Ch), Inv Rep w s → w.obj x = none → w.obj y = some v → s y = some l →
      Inv Rep (w.steal x y v w.heap) ((s.upd x (some l)).upd y (some [])) := by
    intro w s x y v l inv hx hv hl
    have hyx : y ≠ x := by rintro rfl; rw [hx] at hv; simp at hv
    have i1 := Inv.put good_rep inv x Vec.empty w.heap [] (by rw [dataOf_none hx]; exact Trans.refl _ _) (Or.inl ⟨rfl, rfl⟩)
    have i2 := Inv.swap good_rep i1 (x := x) (y := y) (v := Vec.empty) (u := v) (l := []) (k := l) (by simp [World.put]) (by simp [World.put, hyx, hv])
      (by simp [Lists.upd]) (by simp [Lists.upd, hyx, hl])
    rw [upd_upd] at i2
    have e1 : ((w.put x (Vec.empty, w.heap)).put x (v, w.heap)).put y (Vec.empty, w.heap) = w.steal x y v w.heap := by
      simp only [World.steal, World.put, World.mk.injEq, true_and]
      funext z; by_cases h1 : z = y <;> by_cases h2 : z = x <;> simp [h1, h2]
    rw [← e1]; exact i2
  cases o with
  | make x =>
    simp only [specStep] at hs
    by_cases hx : s x = none
    · rw [if_pos hx] at hs
      rw [← Option.some.inj hs]
      refine ⟨w.put x (Vec.empty, w.heap), by simp only [step]; rw [if_pos (hmake x hx)], ?_⟩
      exact Inv.put good_rep inv x Vec.empty w.heap [] (by rw [dataOf_none (hmake x hx)]; exact Trans.refl _ _) (Or.inl ⟨rfl, rfl⟩)
    · rw [if_neg hx] at hs; simp at hs
  | makeBuf x l =>
    simp only [specStep] at hs
    by_cases hx : s x = none
    · rw [if_pos hx] at hs
      rw [← Option.some.inj hs]
      obtain ⟨v, h', e1, e2, e3⟩ := ofBuf_spec inv.fresh l
      refine ⟨w.put x (v, h'), by simp only [step]; rw [if_pos (hmake x hx), e1]; rfl, ?_⟩
      exact Inv.put good_rep inv x v h' _ (by rw [dataOf_none (hmake x hx)]; exact e3) e2
    · rw [if_neg hx] at hs; simp at hs
  | makeFrom x a =>
    simp only [specStep] at hs
    by_cases hx : s x = none
    · rw [if_pos hx] at hs
      obtain ⟨l, hl, rfl⟩ := Option.map_eq_some_iff.1 hs
      obtain ⟨v, h1, h2, h3⟩ := val_spec inv (x := x) (by
        rintro y rfl rfl
        simp only [Arg.chars, hx] at hl; simp at hl) hl
      have i1 := Inv.put good_rep inv x Vec.empty w.heap [] (by rw [dataOf_none (hmake x hx)]; exact Trans.refl _ _) (Or.inl ⟨rfl, rfl⟩)
      obtain ⟨w', e1, e2⟩ := put_world i1 (x := x) (l := []) (by simp [Lists.upd]) (List.Forall₂.cons (h2.put (by
        rintro y hy rfl
        rw [h3 y hy] at hl
        simp only [Arg.chars, hx] at hl; simp at hl) (Vec.empty, w.heap) (some [])) .nil)
      refine ⟨w', by simp only [step]; rw [if_pos (hmake x hx), h1, Option.bind_some]; exact e1, ?_⟩
      rw [upd_upd] at e2
      simpa using e2
    · rw [if_neg hx] at hs; simp at hs
  | makeMove x y =>
    simp only [specStep] at hs
    by_cases hx : s x = none
    · rw [if_pos hx] at hs
      obtain ⟨l, hl, rfl⟩ := Option.map_eq_some_iff.1 hs
      obtain ⟨v, hv, r⟩ := inv.get hl
      exact ⟨w.steal x y v w.heap, by simp only [step]; rw [if_pos (hmake x hx), hv]; rfl, hsteal w s x y v l inv (hmake x hx) hv hl⟩
    · rw [if_neg hx] at hs; simp at hs
  | drop x =>
    simp only [specStep] at hs
    obtain ⟨l, hl, rfl⟩ := Option.map_eq_some_iff.1 hs
    obtain ⟨v, hv, r⟩ := inv.get hl
    obtain ⟨h', e1, e2, _⟩ := delete_spec r
    refine ⟨_, by simp only [step]; rw [hv, Option.bind_some, e1]; rfl, ?_⟩
    exact Inv.drop good_rep inv x h' (by rw [dataOf_some hv]; exact e2)
  | assign x a =>
    simp only [specStep] at hs
    obtain ⟨lx, hlx, hs⟩ := Option.bind_eq_some_iff.1 hs
    obtain ⟨l, hl, rfl⟩ := Option.map_eq_some_iff.1 hs
    obtain ⟨u, hu, rx⟩ := inv.get hlx
    obtain ⟨v, h1, h2, h3⟩ := val_spec inv (x := x) (by rintro y rfl; exact hna) hl
    obtain ⟨v1, g1, f1, f2, f3, _⟩ := clear_spec rx
    have i1 := Inv.put good_rep inv x v1 g1 [] (by rw [dataOf_some hu]; exact f3) f2
    obtain ⟨w', e1, e2⟩ := put_world i1 (x := x) (l := []) (by simp [Lists.upd]) (List.Forall₂.cons (h2.put (by
      intro y hy
      have := h3 y hy
      subst this
      exact fun h => hna h.symm) (v1, g1) (some [])) .nil)
    refine ⟨w', by simp only [step]; rw [h1, Option.bind_some, hu, Option.bind_some, f1, Option.bind_some]; exact e1, ?_⟩
    rw [upd_upd] at e2
    simpa using e2
  | assignMove x y =>
    simp only [specStep] at hs
    obtain ⟨lx, hlx, hs⟩ := Option.bind_eq_some_iff.1 hs
    obtain ⟨l, hl, rfl⟩ := Option.map_eq_some_iff.1 hs
    obtain ⟨u, hu, rx⟩ := inv.get hlx
    obtain ⟨v, hv, r⟩ := inv.get hl
    obtain ⟨h', e1, e2, e3⟩ := delete_spec rx
    refine ⟨w.steal x y v h', by simp only [step]; rw [hu, Option.bind_some, hv, Option.bind_some, e1]; rfl, ?_⟩
    have i0 := Inv.drop good_rep inv x h' (by rw [dataOf_some hu]; exact e2)
    have hx0 : (⟨h', fun z => if z = x then none else w.obj z⟩ : World Ch).obj x = none := by simp
    by_cases hyx : y = x
    · subst hyx
      have i1 := Inv.put good_rep i0 y Vec.empty h' [] (by rw [dataOf_none hx0]; exact Trans.refl _ _) (Or.inl ⟨rfl, rfl⟩)
      have a1 : (World.put ⟨h', fun z => if z = y then none else w.obj z⟩ y (Vec.empty, h')) = w.steal y y v h' := by
        simp only [World.steal, World.put, World.mk.injEq, true_and]
        funext z; by_cases h1 : z = y <;> simp [h1]
      rw [upd_upd] at i1 ⊢
      rw [← a1]; exact i1
    · have i2 := hsteal _ _ x y v l i0 hx0 (by simp [hyx, hv]) (by simp [Lists.upd, hyx, hl])
      have a1 : World.steal ⟨h', fun z => if z = x then none else w.obj z⟩ x y v h' = w.steal x y v h' := by
        simp only [World.steal, World.put, World.mk.injEq, true_and]
        funext z; by_cases h1 : z = y <;> by_cases h2 : z = x <;> simp [h1, h2]
      rw [upd_upd] at i2
      rw [← a1]; exact i2
  | put x as =>
    simp only [specStep] at hs
    obtain ⟨l, hl, hs⟩ := Option.bind_eq_some_iff.1 hs
    obtain ⟨r, hr, rfl⟩ := Option.map_eq_some_iff.1 hs
    obtain ⟨vs, xss, h1, h2, rfl⟩ := vals_spec inv (x := x) as hna r hr
    obtain ⟨w', e1, e2⟩ := put_world inv hl h2
    exact ⟨w', by simp only [step]; rw [h1]; exact e1, e2⟩
  | indent x n =>
    simp only [specStep] at hs
    obtain ⟨l, hl, rfl⟩ := Option.map_eq_some_iff.1 hs
    obtain ⟨v, hv, r⟩ := inv.get hl
    obtain ⟨v', h', e1, e2, e3⟩ := indent_spec inv.fresh r n
    refine ⟨w.put x (v', h'), by simp only [step]; rw [hv, Option.bind_some, e1]; rfl, ?_⟩
    exact Inv.put good_rep inv x v' h' _ (by rw [dataOf_some hv]; exact e3) e2
  | resize x n c =>
    simp only [specStep] at hs
    obtain ⟨l, hl, rfl⟩ := Option.map_eq_some_iff.1 hs
    obtain ⟨v, hv, r⟩ := inv.get hl
    obtain ⟨v', h', e1, e2, e3⟩ := resize_spec inv.fresh r n c
    refine ⟨w.put x (v', h'), by simp only [step]; rw [hv, Option.bind_some, e1]; rfl, ?_⟩
    exact Inv.put good_rep inv x v' h' _ (by rw [dataOf_some hv]; exact e3) e2
  | reserve x n =>
    simp only [specStep] at hs
    obtain ⟨l, hl, rfl⟩ := Option.map_eq_some_iff.1 hs
    obtain ⟨v, hv, r⟩ := inv.get hl
    obtain ⟨v', h', e1, e2, e3, _⟩ := reserve_spec inv.fresh r n
    refine ⟨w.put x (v', h'), by simp only [step]; rw [hv, Option.bind_some, e1]; rfl, ?_⟩
    have := Inv.put good_rep inv x v' h' l (by rw [dataOf_some hv]; exact e3) e2
    rw [upd_self s hl] at this; exact this
  | clear x =>
    simp only [specStep] at hs
    obtain ⟨l, hl, rfl⟩ := Option.map_eq_some_iff.1 hs
    obtain ⟨v, hv, r⟩ := inv.get hl
    obtain ⟨v', h', e1, e2, e3, _⟩ := clear_spec r
    refine ⟨w.put x (v', h'), by simp only [step]; rw [hv, Option.bind_some, e1]; rfl, ?_⟩
    exact Inv.put good_rep inv x v' h' _ (by rw [dataOf_some hv]; exact e3) e2
  | swap x y =>
    simp only [specStep] at hs
    obtain ⟨l, hl, hs⟩ := Option.bind_eq_some_iff.1 hs
    obtain ⟨k, hk, rfl⟩ := Option.map_eq_some_iff.1 hs
    obtain ⟨v, hv, _⟩ := inv.get hl
    obtain ⟨u, hu, _⟩ := inv.get hk
    exact ⟨_, by simp only [step]; rw [hv, Option.bind_some, hu]; rfl, Inv.swap good_rep inv hv hu hl hk⟩

theorem run_spec (os : List Op) : ∀ (w : World Ch) (s s' : Lists Ch), Inv Rep w s → (∀ o ∈ os, o.NoAlias) → specRun s os = some s' →
    ∃ w', run w os = some w' ∧ Inv Rep w' s' := by
  induction os with
  | nil => intro w s s' inv _ h; simp only [specRun, Option.some.injEq] at h; subst h; exact ⟨w, rfl, inv⟩
  | cons o os ih =>
    intro w s s' inv hna h
    obtain ⟨s1, h1, h2⟩ := Option.bind_eq_some_iff.1 h
    obtain ⟨w1, e1, i1⟩ := step_spec inv o (hna o (by simp)) h1
    obtain ⟨w', e2, i2⟩ := ih w1 s1 s' i1 (fun o' ho' => hna o' (by simp [ho'])) h2
    exact ⟨w', by show (step w o).bind _ = _; rw [e1]; exact e2, i2⟩

theorem inv_init : Inv Rep (World.init : World Ch) (fun _ => none) :=
  ⟨fun _ _ => rfl, fun _ => ⟨fun _ => rfl, fun _ => rfl⟩, fun _ _ _ h => (by simp [World.init] at h), fun _ _ _ _ _ h => (by simp [World.init] at h),
    fun _ h => absurd rfl h⟩

/-- **C81.**  Every permitted program of string operations runs without touching memory that it must not touch; afterwards the strings contain the characters
of the specification and are terminated by zero, and every block of memory belongs to exactly one string.  (Assignments of a string to itself and
`c_str()` of a string as an argument of the same string are excluded, see below.) -/
theorem C81_string_partial (os : List Op) (s : Lists Ch) (hs : specRun (fun _ => none) os = some s) (hna : ∀ o ∈ os, o.NoAlias) :
    ∃ w, run World.init os = some w ∧ Shows w s ∧ NoLeak w := by
  obtain ⟨w, h1, inv⟩ := run_spec os World.init (fun _ => none) s inv_init hna hs
  refine ⟨w, h1, ?_, ?_⟩
  · intro x
    cases hv : w.obj x with
    | none => rw [(inv.dom x).1 hv]; trivial
    | some v =>
      obtain ⟨l, hl, r⟩ := inv.get' hv
      rw [hl]
      refine ⟨r.size.1, r.size.2, fun i hi => r.read hi, ?_⟩
      rcases r with ⟨rfl, _⟩ | ⟨p, b, g0, g1, g2, g3, g4, g5, g6⟩
      · exact Or.inl rfl
      · right; rw [g0]; simp only [Heap.read, g1]; rw [if_pos (by omega)]; exact g6
  · intro p b hb
    obtain ⟨x, v, h1, h2⟩ := inv.owned p (by rw [hb]; simp)
    exact ⟨x, v, h1, h2, fun y u h3 h4 => inv.uniq y x u v p h3 h1 h4 h2⟩

/-- Once all strings are destroyed, all memory has been freed. -/
theorem C81_string_freed (os : List Op) (s : Lists Ch) (hs : specRun (fun _ => none) os = some s) (hna : ∀ o ∈ os, o.NoAlias) (he : ∀ x, s x = none) :
    ∃ w, run World.init os = some w ∧ ∀ p, w.heap.block p = none := by
  obtain ⟨w, h1, h2, h3⟩ := C81_string_partial os s hs hna
  refine ⟨w, h1, fun p => ?_⟩
  cases hb : w.heap.block p with
  | none => rfl
  | some b =>
    obtain ⟨x, v, hv, _⟩ := h3 p b hb
    have := h2 x
    rw [hv, he x] at this
    exact this.elim

/-- The specification permits a program with all kinds of operations; appending a string to itself is among them. -/
example : ∃ s, specRun (fun _ => none) [.make 0, .put 0 [.text [65, 66] 0, .text [49] 9], .put 0 [.str 0, .text [67] 0, .str 0], .makeFrom 1 (.str 0), .indent 1 2,
    .resize 1 3 0, .makeBuf 2 [70, 0, 71], .put 1 [.cstr 2, .str 2], .assign 0 (.cstr 1), .swap 0 2, .makeMove 3 1, .assignMove 2 3, .clear 0, .reserve 0 40, .drop 0] = some s ∧
    s 2 = some [65, 66, 49, 70, 70, 0, 71] ∧ s 1 = some [] ∧ s 3 = some [] ∧ s 0 = none := by
  refine ⟨_, rfl, ?_, ?_, ?_, ?_⟩ <;> rfl

/-- `s = s` empties the string. -/
theorem C81_self_counterexample :
    (specRun (fun _ => none) [.makeBuf 0 [65, 66], .assign 0 (.str 0)]).map (fun s => s 0) = some (some [65, 66]) ∧
    (run World.init [.makeBuf 0 [65, 66], .assign 0 (.str 0)]).map (fun w => (w.obj 0).map Vec.size) = some (some 0) := by
  constructor <;> decide

/-- `s += s.c_str()` reads freed memory. -/
theorem C81_cstr_counterexample :
    (specRun (fun _ => none) [.makeBuf 0 [65, 66], .put 0 [.cstr 0]]).map (fun s => s 0) = some (some [65, 66, 65, 66]) ∧
    (run World.init [.makeBuf 0 [65, 66], .put 0 [.cstr 0]]).isNone = true := by
  constructor <;> decide

end Verif.Nano.Str
