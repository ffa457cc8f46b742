import Verif.Var.Build
import Mathlib.Data.List.Sort
/-!
# Scopes (`src/var.cpp:1100-1172`, `src/api.cpp:118-138`)
-/
namespace Verif.Var
open Verif.FreeSlots (FreeSlots Rep)
set_option linter.dupNamespace false

/-! ## Model -/

/-- `std::unique()` on a list: remove an element that equals its predecessor. -/
def unique : List Nat → List Nat
  | [] => []
  | [a] => [a]
  | a :: b :: l => if a = b then unique (b :: l) else a :: unique (b :: l)

/-- The scopes collected by `jitc_compact_scopes()` (src/var.cpp:1104-1118): those of the
variables in use and of the thread states.  `SCOPE_DYNAMIC` is 2 (src/internal.h:29). -/
def liveScopes (s : Store) : List Nat :=
  (((List.range s.len).filter (fun i => i ≠ 0 ∧
      ((s.vars i).refCount ≠ 0 ∨ (s.vars i).refCountSe ≠ 0))).map (fun i => (s.vars i).scope) ++
    s.scope :: s.otherScopes).filter (fun c => 2 ≤ c)

/-- `std::sort` followed by `std::unique` (src/var.cpp:1117-1118). -/
def sortedScopes (s : Store) : List Nat := unique ((liveScopes s).insertionSort (· ≤ ·))

/-- The function `remap` (src/var.cpp:1120-1126).  `std::lower_bound` returns the position of the
first element that is not less than its argument. -/
def remap (scopes : List Nat) (c : Nat) : Nat :=
  if c < 2 then c else 2 + scopes.findIdx (fun x => decide (¬ x < c))

/-- Insertion of the entries of the old LVN table into the fresh one (src/var.cpp:1139-1143). -/
def rebuildLvn (s : Store) : List (Key × Nat) → List (Key × Nat) → List (Key × Nat)
  | [], acc => acc
  | (_, i) :: l, acc =>
    let k := (s.vars i).key
    rebuildLvn s l (match acc.lookup k with
      | some _ => acc
      | none => (k, i) :: acc)

/-- The loops replacing the scopes of variables and thread states (src/var.cpp:1128-1136). -/
def remapScopes (s : Store) : Store :=
  { s with
    vars := fun i =>
      if i ≠ 0 ∧ i < s.len ∧ ((s.vars i).refCount ≠ 0 ∨ (s.vars i).refCountSe ≠ 0) then
        { s.vars i with scope := remap (sortedScopes s) (s.vars i).scope }
      else s.vars i
    scope := remap (sortedScopes s) s.scope
    otherScopes := s.otherScopes.map (remap (sortedScopes s)) }

/-- `jitc_compact_scopes()` (src/var.cpp:1103-1148). -/
def compactScopes (s : Store) : Store :=
  { remapScopes s with
    lvn := rebuildLvn (remapScopes s) s.lvn []
    scopeCtr := 1 + (sortedScopes s).length }

/-- `jitc_scope_next()` (src/var.cpp:1151-1155). -/
def scopeNext (s : Store) : Store × Nat :=
  let s := if s.scopeCtr = 0xFFFFFFFF then compactScopes s else s
  ({ s with scopeCtr := (s.scopeCtr + 1) % 2 ^ 32 }, (s.scopeCtr + 1) % 2 ^ 32)

/-- `jitc_new_scope()` (src/var.cpp:1157-1162). -/
def newScope : M Nat := fun s =>
  let r := scopeNext s
  .ok r.2 { r.1 with scope := r.2 }

/-- `jitc_advance_scope()` (src/var.cpp:1164-1172), with the addition of 32-bit integers. -/
def advanceScope (n : Nat) : M Nat := fun s =>
  let v := (s.scopeCtr + n) % 2 ^ 32
  let v := if v < s.scopeCtr then 0xFFFFFFFF else v
  .ok v { s with scopeCtr := v, scope := v }

/-- `jit_set_scope()` (src/api.cpp:123-127). -/
def setScope (c : Nat) : M Unit := fun s => .ok () { s with scope := c }

/-! ## The table of scopes -/

theorem mem_unique (l : List Nat) (a : Nat) : a ∈ unique l ↔ a ∈ l := by
  induction l using unique.induct with
  | case1 => rfl
  | case2 b => rfl
  | case3 b l ih =>
    rw [unique, if_pos rfl, ih]; simp
  | case4 b c l hne ih =>
    rw [unique, if_neg hne, List.mem_cons, ih, List.mem_cons (a := a) (b := b)]

theorem unique_sorted (l : List Nat) (h : l.Pairwise (· ≤ ·)) : (unique l).Pairwise (· < ·) := by
  induction l using unique.induct with
  | case1 => exact List.Pairwise.nil
  | case2 b => exact List.pairwise_singleton _ _
  | case3 b l ih =>
    rw [unique, if_pos rfl]
    exact ih (List.pairwise_cons.1 h).2
  | case4 b c l hne ih =>
    rw [unique, if_neg hne, List.pairwise_cons]
    refine ⟨?_, ih (List.pairwise_cons.1 h).2⟩
    intro x hx
    rw [mem_unique] at hx
    have h1 := (List.pairwise_cons.1 h).1 c List.mem_cons_self
    have h2 : c ≤ x := by
      rcases List.mem_cons.1 hx with rfl | hx
      · exact le_refl _
      · exact (List.pairwise_cons.1 (List.pairwise_cons.1 h).2).1 x hx
    omega

theorem mem_sortedScopes (s : Store) (c : Nat) : c ∈ sortedScopes s ↔ c ∈ liveScopes s := by
  unfold sortedScopes
  rw [mem_unique, List.mem_insertionSort]

theorem sortedScopes_sorted (s : Store) : (sortedScopes s).Pairwise (· < ·) := by
  exact unique_sorted _ (List.pairwise_insertionSort (· ≤ ·) _)

/-- In a strictly sorted list, `findIdx (¬ · < c)` counts the elements below `c`. -/
theorem findIdx_mono {l : List Nat} (h : l.Pairwise (· < ·)) {a b : Nat} (ha : a ∈ l) (hab : a < b) :
    l.findIdx (fun x => decide (¬ x < a)) < l.findIdx (fun x => decide (¬ x < b)) := by
  induction l with
  | nil => cases ha
  | cons x l ih =>
    rw [List.findIdx_cons, List.findIdx_cons]
    rw [List.pairwise_cons] at h
    by_cases hxa : x < a
    · have hxb : x < b := by omega
      have ha' : a ∈ l := by
        rcases List.mem_cons.1 ha with rfl | h'
        · omega
        · exact h'
      simp only [hxa, hxb, not_true_eq_false, decide_false, cond_false]
      have := ih h.2 ha'
      omega
    · have hxa' : x = a := by
        rcases List.mem_cons.1 ha with rfl | h'
        · rfl
        · have := h.1 a h'; omega
      subst hxa'
      simp only [lt_irrefl, not_false_eq_true, decide_true, cond_true, hab, not_true_eq_false,
        decide_false, cond_false]
      omega

theorem remap_lt {s : Store} {a b : Nat} (ha : a < 2 ∨ a ∈ liveScopes s)
    (hb : b < 2 ∨ b ∈ liveScopes s) : remap (sortedScopes s) a < remap (sortedScopes s) b ↔
      a < b := by
  have key : ∀ {a b : Nat}, (a < 2 ∨ a ∈ liveScopes s) → a < b →
      remap (sortedScopes s) a < remap (sortedScopes s) b := by
    intro a b ha hab
    unfold remap
    by_cases h1 : a < 2
    · rw [if_pos h1]; split <;> omega
    · rw [if_neg h1, if_neg (by omega)]
      have := findIdx_mono (sortedScopes_sorted s)
        ((mem_sortedScopes s a).2 (ha.resolve_left h1)) hab
      omega
  constructor
  · intro h
    by_contra hn
    rcases Nat.lt_or_eq_of_le (not_lt.1 hn) with h' | h'
    · have := key hb h'; omega
    · subst h'; omega
  · exact key ha

theorem remap_inj {s : Store} {a b : Nat} (ha : a < 2 ∨ a ∈ liveScopes s)
    (hb : b < 2 ∨ b ∈ liveScopes s) (h : remap (sortedScopes s) a = remap (sortedScopes s) b) :
    a = b := by
  have h1 := remap_lt ha hb
  have h2 := remap_lt hb ha
  omega

theorem remap_le {s : Store} {a : Nat} (ha : a < 2 ∨ a ∈ liveScopes s) :
    remap (sortedScopes s) a ≤ 1 + (sortedScopes s).length := by
  unfold remap
  by_cases h1 : a < 2
  · rw [if_pos h1]; omega
  · rw [if_neg h1]
    have : (sortedScopes s).findIdx (fun x => decide (¬ x < a)) < (sortedScopes s).length := by
      rw [List.findIdx_lt_length]
      exact ⟨a, (mem_sortedScopes s a).2 (ha.resolve_left h1), by simp⟩
    omega

/-! ## The invariant -/

variable {s s' : Store} {U U' : List Nat} {ext extSe base u : Nat → Nat}

theorem scope_live (h : Inv s U ext extSe []) {i : Nat} (hi : Alive s U i) :
    (s.vars i).scope < 2 ∨ (s.vars i).scope ∈ liveScopes s := by
  by_cases h2 : (s.vars i).scope < 2
  · exact .inl h2
  · right
    unfold liveScopes
    rw [List.mem_filter]
    refine ⟨List.mem_append_left _ (List.mem_map.2 ⟨i, ?_, rfl⟩), by simpa using h2⟩
    rw [List.mem_filter]
    refine ⟨List.mem_range.2 hi.2.1, ?_⟩
    have := h.counts_pos hi
    simp only [decide_eq_true_eq]
    exact ⟨hi.1, by omega⟩

theorem scope_live_cur (s : Store) : s.scope < 2 ∨ s.scope ∈ liveScopes s := by
  by_cases h2 : s.scope < 2
  · exact .inl h2
  · right
    unfold liveScopes
    rw [List.mem_filter]
    exact ⟨List.mem_append_right _ List.mem_cons_self, by simpa using h2⟩

theorem scope_live_other (s : Store) {c : Nat} (hc : c ∈ s.otherScopes) :
    c < 2 ∨ c ∈ liveScopes s := by
  by_cases h2 : c < 2
  · exact .inl h2
  · right
    unfold liveScopes
    rw [List.mem_filter]
    exact ⟨List.mem_append_right _ (List.mem_cons_of_mem _ hc), by simpa using h2⟩

theorem rebuildLvn_spec (s : Store) : ∀ (l acc : List (Key × Nat)),
    (∀ p ∈ l, ∀ q ∈ l, (s.vars p.2).key = (s.vars q.2).key → p.2 = q.2) →
    (∀ p ∈ acc, (s.vars p.2).key = p.1) → (acc.map Prod.fst).Nodup →
    ((rebuildLvn s l acc).map Prod.fst).Nodup ∧
    (∀ p ∈ rebuildLvn s l acc, (s.vars p.2).key = p.1) ∧
    (∀ p ∈ rebuildLvn s l acc, p ∈ acc ∨ ∃ q ∈ l, q.2 = p.2) := by
  intro l
  induction l with
  | nil =>
    intro acc _ h2 h3
    exact ⟨h3, h2, fun p hp => .inl hp⟩
  | cons p l ih =>
    intro acc h1 h2 h3
    obtain ⟨k, i⟩ := p
    unfold rebuildLvn
    have h1' : ∀ p ∈ l, ∀ q ∈ l, (s.vars p.2).key = (s.vars q.2).key → p.2 = q.2 :=
      fun p hp q hq => h1 p (List.mem_cons_of_mem _ hp) q (List.mem_cons_of_mem _ hq)
    dsimp only
    cases hl : acc.lookup (s.vars i).key with
    | some j =>
      obtain ⟨a, b, c⟩ := ih acc h1' h2 h3
      refine ⟨a, b, fun p hp => ?_⟩
      rcases c p hp with h | ⟨q, hq, e⟩
      · exact .inl h
      · exact .inr ⟨q, List.mem_cons_of_mem _ hq, e⟩
    | none =>
      obtain ⟨a, b, c⟩ := ih (((s.vars i).key, i) :: acc) h1'
        (by
          intro p hp
          rcases List.mem_cons.1 hp with rfl | hp
          · rfl
          · exact h2 p hp)
        (by
          rw [List.map_cons, List.nodup_cons]
          exact ⟨lookup_none hl, h3⟩)
      refine ⟨a, b, fun p hp => ?_⟩
      rcases c p hp with h | ⟨q, hq, e⟩
      · rcases List.mem_cons.1 h with rfl | h
        · exact .inr ⟨(k, i), List.mem_cons_self, rfl⟩
        · exact .inl h
      · exact .inr ⟨q, List.mem_cons_of_mem _ hq, e⟩

/-- Every index that had an LVN entry still has one. -/
theorem rebuildLvn_mem (s : Store) : ∀ (l acc : List (Key × Nat)),
    (∀ p ∈ l, ∀ q ∈ l, (s.vars p.2).key = (s.vars q.2).key → p.2 = q.2) →
    (∀ p ∈ acc, ∀ q ∈ l, p.1 = (s.vars q.2).key → p.2 = q.2) →
    ∀ i, ((∃ q ∈ l, q.2 = i) ∨ ∃ p ∈ acc, p.2 = i) →
    ∃ p ∈ rebuildLvn s l acc, p.2 = i := by
  intro l
  induction l with
  | nil =>
    intro acc _ _ i h
    rcases h with ⟨q, hq, _⟩ | h
    · cases hq
    · exact h
  | cons p l ih =>
    intro acc h1 h2 i h
    obtain ⟨k, j⟩ := p
    unfold rebuildLvn
    have h1' : ∀ p ∈ l, ∀ q ∈ l, (s.vars p.2).key = (s.vars q.2).key → p.2 = q.2 :=
      fun p hp q hq => h1 p (List.mem_cons_of_mem _ hp) q (List.mem_cons_of_mem _ hq)
    have h2' : ∀ p ∈ acc, ∀ q ∈ l, p.1 = (s.vars q.2).key → p.2 = q.2 :=
      fun p hp q hq => h2 p hp q (List.mem_cons_of_mem _ hq)
    dsimp only
    cases hl : acc.lookup (s.vars j).key with
    | some m =>
      refine ih acc h1' h2' i ?_
      rcases h with ⟨q, hq, e⟩ | h
      · rcases List.mem_cons.1 hq with rfl | hq
        · have hm := lookup_mem hl
          have := h2 _ hm _ List.mem_cons_self rfl
          exact .inr ⟨_, hm, this.trans e⟩
        · exact .inl ⟨q, hq, e⟩
      · exact .inr h
    | none =>
      refine ih _ h1' ?_ i ?_
      · intro p hp q hq e
        rcases List.mem_cons.1 hp with rfl | hp
        · exact h1 _ List.mem_cons_self q (List.mem_cons_of_mem _ hq) e
        · exact h2' p hp q hq e
      · rcases h with ⟨q, hq, e⟩ | ⟨p, hp, e⟩
        · rcases List.mem_cons.1 hq with rfl | hq
          · exact .inr ⟨_, List.mem_cons_self, e⟩
          · exact .inl ⟨q, hq, e⟩
        · exact .inr ⟨p, List.mem_cons_of_mem _ hp, e⟩

/-- What compaction does to a variable. -/
theorem compact_vars (h : Inv s U ext extSe []) (i : Nat) :
    (compactScopes s).vars i = if Alive s U i then
      { s.vars i with scope := remap (sortedScopes s) (s.vars i).scope } else s.vars i := by
  change (if i ≠ 0 ∧ i < s.len ∧ ((s.vars i).refCount ≠ 0 ∨ (s.vars i).refCountSe ≠ 0) then _
    else _) = _
  by_cases hi : Alive s U i
  · rw [if_pos hi, if_pos]
    have := h.counts_pos hi
    exact ⟨hi.1, hi.2.1, by omega⟩
  · rw [if_neg hi, if_neg]
    have := h.dead i hi
    omega

theorem compact_inv (h : Inv s U ext extSe []) : Inv (compactScopes s) U ext extSe [] ∧
    (∀ i, (∃ k, (k, i) ∈ (compactScopes s).lvn) ↔ ∃ k, (k, i) ∈ s.lvn) := by
  have hv := compact_vars h
  obtain ⟨s1, hs1, hc⟩ : ∃ s1 : Store, (∀ i, s1.vars i = (compactScopes s).vars i) ∧
      (compactScopes s).lvn = rebuildLvn s1 s.lvn [] :=
    ⟨remapScopes s, fun _ => rfl, rfl⟩
  have hlen : (compactScopes s).len = s.len := rfl
  have hun : (compactScopes s).unused = s.unused := rfl
  have hvc : (compactScopes s).variableCounter = s.variableCounter := rfl
  have hfr : (compactScopes s).freed = s.freed := rfl
  have hac : (compactScopes s).acquired = s.acquired := rfl
  generalize compactScopes s = t at *
  have hal : ∀ i, Alive s U i ↔ Alive t U i := by intro i; unfold Alive; rw [hlen]
  have hrefs : ∀ k, (t.vars k).refs = (s.vars k).refs ∧ (t.vars k).refsSe = (s.vars k).refsSe ∧
      (t.vars k).uid = (s.vars k).uid ∧ (t.vars k).refCount = (s.vars k).refCount ∧
      (t.vars k).refCountSe = (s.vars k).refCountSe ∧ (t.vars k).kind = (s.vars k).kind ∧
      ∀ p, (t.vars k).owns p = (s.vars k).owns p := by
    intro k
    rw [hv k]
    split <;> exact ⟨rfl, rfl, rfl, rfl, rfl, rfl, fun _ => rfl⟩
  have hsum := refSum_congr hlen hal (fun j _ => (hrefs j).1)
  have hsumSe := refSumSe_congr hlen hal (fun j _ => (hrefs j).2.1)
  have hown := owned_congr hlen hal (fun j _ => (hrefs j).2.2.2.2.2.2)
  -- keys stay different
  have hinj : ∀ p ∈ s.lvn, ∀ q ∈ s.lvn, (s1.vars p.2).key = (s1.vars q.2).key → p.2 = q.2 := by
    rintro ⟨k, i⟩ hp ⟨k', j⟩ hq e
    dsimp only at e ⊢
    obtain ⟨a1, a2, _⟩ := h.lvn k i hp
    obtain ⟨b1, b2, _⟩ := h.lvn k' j hq
    rw [hs1, hs1, hv i, hv j, if_pos a1, if_pos b1] at e
    have hsc : (s.vars i).scope = (s.vars j).scope :=
      remap_inj (scope_live h a1) (scope_live h b1) (congrArg Key.scope e)
    have hk : (s.vars i).key = (s.vars j).key := by
      unfold Var.key at e ⊢
      simp only [Key.mk.injEq] at e ⊢
      exact ⟨hsc, e.2⟩
    rw [a2, b2] at hk
    subst hk
    have e1 := lookup_of_mem h.lvnKeys hp
    have e2 := lookup_of_mem h.lvnKeys hq
    rw [e1] at e2
    exact Option.some.inj e2
  obtain ⟨l1, l2, l3⟩ := rebuildLvn_spec s1 s.lvn [] hinj (fun p hp => by cases hp) List.nodup_nil
  have l4 := rebuildLvn_mem s1 s.lvn [] hinj (fun p hp => by cases hp)
  refine ⟨⟨?_, ?_, ?_, ?_, ?_, ?_, ?_, ?_, ?_, List.nodup_nil, ?_, ?_, ?_⟩, ?_⟩
  · rw [hun]; exact h.rep
  · rw [hlen]; exact h.ub
  · rw [hlen]; exact h.len
  · intro i hi
    rw [(hrefs i).2.2.2.1, (hrefs i).2.2.2.2.1]
    exact h.dead i (fun hh => hi ((hal i).1 hh))
  · intro j hj d hd hd0
    rw [(hrefs j).1, (hrefs j).2.1] at hd
    rw [(hrefs j).2.2.1, (hrefs d).2.2.1, ← hal]
    exact h.deps j ((hal j).2 hj) d hd hd0
  · intro i hi
    rw [(hrefs i).2.2.1, hvc]; exact h.uids i ((hal i).2 hi)
  · intro i hi
    rw [(hrefs i).2.2.2.1, hsum]; exact h.rc i ((hal i).2 hi)
  · intro i hi
    rw [(hrefs i).2.2.2.2.1, hsumSe]; exact h.rcSe i ((hal i).2 hi)
  · intro i
    rw [(hrefs i).2.2.2.1, (hrefs i).2.2.2.2.1, ← hal]; exact h.pend i
  · intro k i hm
    rw [hc] at hm
    have e1 := l2 _ hm
    obtain hacc | ⟨⟨k', i'⟩, hq, e2⟩ := l3 _ hm
    · cases hacc
    dsimp only at e2 e1
    subst e2
    obtain ⟨a1, a2, a3⟩ := h.lvn k' i' hq
    rw [hs1] at e1
    exact ⟨(hal i').1 a1, e1, by rw [(hrefs i').2.2.2.2.2.1]; exact a3⟩
  · rw [hc]; exact l1
  · intro p
    rw [hown, hfr, hac]; exact h.bal p
  · intro i
    rw [hc]
    constructor
    · rintro ⟨k, hk⟩
      obtain hacc | ⟨⟨k', i'⟩, hq, e2⟩ := l3 _ hk
      · cases hacc
      · exact ⟨k', by rw [← show i' = i from e2]; exact hq⟩
    · rintro ⟨k, hk⟩
      obtain ⟨⟨k', i'⟩, hq, e⟩ := l4 i (.inl ⟨_, hk, rfl⟩)
      dsimp only at e
      subst e
      exact ⟨k', hq⟩

end Verif.Var
