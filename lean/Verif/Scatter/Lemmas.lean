import Verif.Scatter.Model
import Mathlib.Tactic.Common
import Mathlib.Tactic.SplitIfs

/-
Scatter operations (C48): the invariant, and values of variables.
-/

namespace Verif.Scatter

@[simp] theorem set_same {α : Type} (f : Nat → α) (i : Nat) (a : α) : set f i a i = a := by simp [set]
theorem set_other {α : Type} (f : Nat → α) {i j : Nat} (a : α) (h : j ≠ i) : set f i a j = f j := by
  simp [set, h]
theorem set_self {α : Type} (f : Nat → α) (i : Nat) : set f i (f i) = f := by
  funext j; by_cases h : j = i <;> simp [set, h]

/-- Variables that stand for an array. -/
def Kind.isVal : Kind → Bool
  | .lit _ => true
  | .data _ _ => true
  | .op _ _ => true
  | .gather _ _ _ => true
  | _ => false

/-- There is a pointer for writing to the array of a variable. -/
def Dirty (s : St) (t : Nat) : Prop := ∃ j a, s.alive j = true ∧ s.kind j = .ptr a t true

/-- An array without pending writes, or an expression. -/
def Clean (s : St) (i : Nat) : Prop :=
  s.alive i = true ∧ (s.kind i).isVal = true ∧ ∀ a o, s.kind i = .data a o → ¬ Dirty s i

/-- The operands of a variable are of suitable kind. -/
def Typed (s : St) (i : Nat) : Prop :=
  match s.kind i with
  | .lit _ => True
  | .data a o => o = 0 ∧ a < s.top ∧ (s.mem a).length = s.size i
  | .op _ args => ∀ d ∈ args, Clean s d ∧ (s.size d = s.size i ∨ s.size d = 1)
  | .gather p idx msk => (∃ a t, s.kind p = .ptr a t false ∧ Clean s t) ∧
      ∀ d ∈ [idx, msk], Clean s d ∧ (s.size d = s.size i ∨ s.size d = 1)
  | .ptr a t _ => s.kind t = .data a 0
  | .scatter _ ord p val idx msk => (∃ a t, s.kind p = .ptr a t true) ∧ (∀ l ∈ ord, l < s.size i) ∧
      ∀ d ∈ [val, idx, msk], Clean s d ∧ (s.size d = s.size i ∨ s.size d = 1)

/-- The target of a scatter. -/
def Target (s : St) (q t : Nat) : Prop :=
  ∃ op ord p v i m a, s.kind q = .scatter op ord p v i m ∧ s.kind p = .ptr a t true

def OpOf (s : St) (q : Nat) (op : ROp) : Prop := ∃ ord p v i m, s.kind q = .scatter op ord p v i m

/-- The invariant. -/
structure Inv (s : St) : Prop where
  bound : ∀ i, s.alive i = true → 0 < i ∧ i < s.next
  deps : ∀ i, s.alive i = true → ∀ d, d ∈ (s.kind i).deps ∨ d ∈ (s.kind i).depsSe → d < i ∧ s.alive d = true
  hs : ∀ i ∈ s.hs, i ≠ 0 → s.alive i = true ∧ (s.kind i).isVal = true
  queue : ∀ q ∈ s.queue, s.alive q = true ∧ ∃ op, OpOf s q op
  nodup : s.queue.Nodup
  typed : ∀ i, s.alive i = true → Typed s i
  inj : ∀ i j a, s.alive i = true → s.alive j = true → s.kind i = .data a 0 → s.kind j = .data a 0 → i = j
  stash : ∀ i, (s.vars i).stash = 0
  conflict : ∀ q q' t, q ∈ s.queue → q' ∈ s.queue → Target s q t → Target s q' t → q ≠ q' →
    ∃ op, OpOf s q op ∧ OpOf s q' op ∧ op.Comm
  pos : 0 < s.next

/-! ### Values -/

theorem den_fuel (vars : Nat → Var) (mem : Nat → Arr) (P : Nat → Prop)
    (hop : ∀ i f args, P i → (vars i).kind = .op f args → ∀ d ∈ args, P d ∧ d < i)
    (hg : ∀ i p idx msk, P i → (vars i).kind = .gather p idx msk → ∀ d ∈ [idx, msk], P d ∧ d < i) :
    ∀ i, P i → ∀ n m, i < n → i < m → ∀ l, den vars mem n i l = den vars mem m i l := by
  intro i
  induction i using Nat.strongRecOn with
  | _ i ih =>
    intro hp n m hn hm l
    obtain ⟨n, rfl⟩ : ∃ k, n = k + 1 := ⟨n - 1, by omega⟩
    obtain ⟨m, rfl⟩ : ∃ k, m = k + 1 := ⟨m - 1, by omega⟩
    rw [den, den]
    split <;> try rfl
    · rename_i f args hk
      congr 1
      apply List.map_congr_left
      intro d hd
      have := hop i f args hp hk d hd
      exact ih d this.2 this.1 _ _ (by omega) (by omega) l
    · rename_i p idx msk hk
      have h1 := hg i p idx msk hp hk idx (by simp)
      have h2 := hg i p idx msk hp hk msk (by simp)
      rw [ih msk h2.2 h2.1 n m (by omega) (by omega) l, ih idx h1.2 h1.1 n m (by omega) (by omega) l]

/-- A lane of a variable of the given size. -/
def Lane (size l : Nat) : Prop := size = 1 ∨ l < size

theorem den_unif (vars : Nat → Var) (mem : Nat → Arr) (P : Nat → Prop)
    (hop : ∀ i f args, P i → (vars i).kind = .op f args → ∀ d ∈ args, P d ∧ ((vars d).size = (vars i).size ∨ (vars d).size = 1))
    (hg : ∀ i p idx msk, P i → (vars i).kind = .gather p idx msk → ∀ d ∈ [idx, msk], P d ∧ ((vars d).size = (vars i).size ∨ (vars d).size = 1)) :
    ∀ n i, P i → (vars i).size = 1 → ∀ l, den vars mem n i l = den vars mem n i 0 := by
  intro n
  induction n with
  | zero => intros; rfl
  | succ n ih =>
    intro i hp hs l
    rw [den, den]
    split <;> try rfl
    · simp [hs]
    · rename_i f args hk
      congr 1
      apply List.map_congr_left
      intro d hd
      have := hop i f args hp hk d hd
      exact ih d this.1 (by omega) l
    · rename_i p idx msk hk
      have h1 := hg i p idx msk hp hk idx (by simp)
      have h2 := hg i p idx msk hp hk msk (by simp)
      rw [ih msk h2.1 (by omega) l, ih idx h1.1 (by omega) l]

/-- When a variable of one state has the same value in another one. -/
theorem den_sim (vars vars' : Nat → Var) (mem mem' : Nat → Arr) (P : Nat → Prop)
    (h : ∀ i, P i → (vars' i).size = (vars i).size ∧
      ((∃ a o, (vars' i).kind = .data a o ∧ ∀ l, Lane (vars i).size l → ∀ n, i < n →
          (mem' a).getD (if (vars i).size = 1 then 0 else l) 0 = den vars mem n i l) ∨
       ((vars' i).kind = (vars i).kind ∧
        match (vars i).kind with
        | .data a _ => mem' a = mem a
        | .op _ args => ∀ d ∈ args, P d ∧ d < i ∧ ((vars d).size = (vars i).size ∨ (vars d).size = 1)
        | .gather p idx msk => (∃ a t w, (vars p).kind = .ptr a t w ∧ (vars' p).kind = .ptr a t w ∧ mem' a = mem a) ∧
            ∀ d ∈ [idx, msk], P d ∧ d < i ∧ ((vars d).size = (vars i).size ∨ (vars d).size = 1)
        | _ => True))) :
    ∀ i, P i → ∀ n m, i < n → i < m → ∀ l, Lane (vars i).size l → den vars' mem' m i l = den vars mem n i l := by
  intro i
  induction i using Nat.strongRecOn with
  | _ i ih =>
    intro hp n m hn hm l hl
    obtain ⟨n, rfl⟩ : ∃ k, n = k + 1 := ⟨n - 1, by omega⟩
    obtain ⟨m, rfl⟩ : ∃ k, m = k + 1 := ⟨m - 1, by omega⟩
    obtain ⟨hs, ⟨a, o, hk, hd⟩ | ⟨hk, hr⟩⟩ := h i hp
    · rw [den, hk]; dsimp only; rw [hs]; exact hd l hl _ hn
    · have lane : ∀ d, ((vars d).size = (vars i).size ∨ (vars d).size = 1) → Lane (vars d).size l := by
        intro d hd
        rcases hd with hd | hd
        · rw [hd]; exact hl
        · exact Or.inl hd
      rw [den, den, hk]
      split <;> try rfl
      · rename_i a o hk'
        rw [hk'] at hr
        rw [show mem' a = mem a from hr, hs]
      · rename_i f args hk'
        rw [hk'] at hr
        congr 1
        apply List.map_congr_left
        intro d hd
        obtain ⟨h1, h2, h3⟩ := hr d hd
        exact ih d h2 h1 _ _ (by omega) (by omega) l (lane d h3)
      · rename_i p idx msk hk'
        rw [hk'] at hr
        obtain ⟨⟨a, t, w, h1, h2, h3⟩, h4⟩ := hr
        obtain ⟨i1, i2, i3⟩ := h4 idx (by simp)
        obtain ⟨m1, m2, m3⟩ := h4 msk (by simp)
        rw [ih msk m2 m1 n m (by omega) (by omega) l (lane _ m3), ih idx i2 i1 n m (by omega) (by omega) l (lane _ i3), h1, h2]
        dsimp only
        rw [h3]

theorem Inv.typed_op {s : St} (I : Inv s) {i : Nat} {f : List UInt32 → UInt32} {args : List Nat} (ha : s.alive i = true)
    (hk : s.kind i = .op f args) : ∀ d ∈ args, Clean s d ∧ (s.size d = s.size i ∨ s.size d = 1) ∧ d < i := by
  intro d hd
  have := I.typed i ha
  simp only [Typed, hk] at this
  exact ⟨(this d hd).1, (this d hd).2, (I.deps i ha d (Or.inl (by rw [hk]; exact hd))).1⟩

theorem Inv.typed_gather {s : St} (I : Inv s) {i p idx msk : Nat} (ha : s.alive i = true)
    (hk : s.kind i = .gather p idx msk) : (∃ a t, s.kind p = .ptr a t false ∧ Clean s t ∧ s.kind t = .data a 0 ∧ s.alive p = true) ∧
      ∀ d ∈ [idx, msk], Clean s d ∧ (s.size d = s.size i ∨ s.size d = 1) ∧ d < i := by
  have := I.typed i ha
  simp only [Typed, hk] at this
  obtain ⟨⟨a, t, h1, h2⟩, h3⟩ := this
  have hp := I.deps i ha p (Or.inl (by rw [hk]; simp [Kind.deps]))
  have ht := I.typed p hp.2
  simp only [Typed, h1] at ht
  refine ⟨⟨a, t, h1, h2, ht, hp.2⟩, fun d hd => ⟨(h3 d hd).1, (h3 d hd).2, (I.deps i ha d (Or.inl ?_)).1⟩⟩
  rw [hk]; simp [Kind.deps] at hd ⊢; omega

theorem Inv.typed_scat {s : St} (I : Inv s) {i p val idx msk : Nat} {op : ROp} {ord : List Nat} (ha : s.alive i = true)
    (hk : s.kind i = .scatter op ord p val idx msk) :
    (∃ a t, s.kind p = .ptr a t true ∧ s.kind t = .data a 0 ∧ s.alive t = true ∧ s.alive p = true ∧ Dirty s t) ∧
      (∀ l ∈ ord, l < s.size i) ∧
      ∀ d ∈ [val, idx, msk], Clean s d ∧ (s.size d = s.size i ∨ s.size d = 1) ∧ d < i := by
  have := I.typed i ha
  simp only [Typed, hk] at this
  obtain ⟨⟨a, t, h1⟩, h2, h3⟩ := this
  have hp := I.deps i ha p (Or.inl (by rw [hk]; simp [Kind.deps]))
  have ht := I.typed p hp.2
  simp only [Typed, h1] at ht
  have hta := I.deps p hp.2 t (Or.inr (by rw [h1]; simp [Kind.depsSe]))
  refine ⟨⟨a, t, h1, ht, hta.2, hp.2, p, a, hp.2, h1⟩, h2, fun d hd => ⟨(h3 d hd).1, (h3 d hd).2, (I.deps i ha d (Or.inl ?_)).1⟩⟩
  rw [hk]; simp [Kind.deps] at hd ⊢; omega

/-- Entries of variables do not depend on the bound of the recursion. -/
theorem Inv.fuel {s : St} (I : Inv s) (mem : Nat → Arr) {i n m : Nat} (ha : s.alive i = true) (hn : i < n) (hm : i < m)
    (l : Nat) : den s.vars mem n i l = den s.vars mem m i l := by
  refine den_fuel s.vars mem (fun i => s.alive i = true) ?_ ?_ i ha n m hn hm l
  · intro i f args ha hk d hd
    have := I.typed_op ha hk d hd
    exact ⟨this.1.1, this.2.2⟩
  · intro i p idx msk ha hk d hd
    have := (I.typed_gather ha hk).2 d hd
    exact ⟨this.1.1, this.2.2⟩

theorem Inv.unif {s : St} (I : Inv s) (mem : Nat → Arr) {i : Nat} (n : Nat) (ha : s.alive i = true) (hs : s.size i = 1)
    (l : Nat) : den s.vars mem n i l = den s.vars mem n i 0 := by
  refine den_unif s.vars mem (fun i => s.alive i = true) ?_ ?_ n i ha hs l
  · intro i f args ha hk d hd
    have := I.typed_op ha hk d hd
    exact ⟨this.1.1, this.2.1⟩
  · intro i p idx msk ha hk d hd
    have := (I.typed_gather ha hk).2 d hd
    exact ⟨this.1.1, this.2.1⟩

/-- The contents of a variable. -/
def contents (vars : Nat → Var) (mem : Nat → Arr) (i : Nat) : Arr :=
  (List.range (vars i).size).map (den vars mem (i + 1) i)

@[simp] theorem contents_length (vars : Nat → Var) (mem : Nat → Arr) (i : Nat) :
    (contents vars mem i).length = (vars i).size := by simp [contents]

theorem Inv.entry {s : St} (I : Inv s) (mem : Nat → Arr) {i l n : Nat} (ha : s.alive i = true) (hl : Lane (s.size i) l)
    (hn : i < n) : entry (contents s.vars mem i) l = den s.vars mem n i l := by
  unfold Scatter.entry
  rw [contents_length]
  change (contents s.vars mem i).getD (if s.size i = 1 then 0 else l) 0 = _
  rw [I.fuel mem ha hn (Nat.lt_succ_self i)]
  split
  · next h =>
    rw [I.unif mem _ ha h l]
    have : (s.vars i).size = 1 := h
    simp [contents, this]
  · next h =>
    have hl : l < s.size i := by rcases hl with hl | hl; · exact absurd hl h
                                 · exact hl
    have : l < (s.vars i).size := hl
    simp [contents, this]

/-- The contents of an array in memory. -/
theorem contents_data {vars : Nat → Var} {mem : Nat → Arr} {i a o : Nat} (hk : (vars i).kind = .data a o)
    (hl : (mem a).length = (vars i).size) : contents vars mem i = mem a := by
  apply List.ext_getElem
  · simp [hl]
  · intro l h1 h2
    simp only [contents, List.getElem_map, List.getElem_range, den, hk]
    rw [← hl]
    split
    · next h => 
      have : l = 0 := by omega
      subst this
      simp [h2]
    · simp [h2]

/-- Contents agree if entries do. -/
theorem contents_congr {vars vars' : Nat → Var} {mem mem' : Nat → Arr} {i : Nat} (hs : (vars' i).size = (vars i).size)
    (h : ∀ l, l < (vars i).size → den vars' mem' (i + 1) i l = den vars mem (i + 1) i l) :
    contents vars' mem' i = contents vars mem i := by
  unfold contents
  rw [hs]
  apply List.map_congr_left
  intro l hl
  exact h l (by simpa using hl)

end Verif.Scatter
