import Verif.Var.Inv
/-!
# Every function of the variable table preserves the invariant
-/
namespace Verif.Var
open Verif.FreeSlots (FreeSlots Rep sinsert mem_sinsert rep_push rep_pop)

variable {s s' : Store} {U U' : List Nat} {ext extSe base : Nat → Nat} {P : List Nat}

theorem Inv.alive_of_ext (h : Inv s U ext extSe P) {i : Nat} (hi : 0 < ext i) : Alive s U i := by
  by_contra hn
  have := (h.dead i hn).2.2.1
  omega

theorem Inv.alive_of_extSe (h : Inv s U ext extSe P) {i : Nat} (hi : 0 < extSe i) :
    Alive s U i := by
  by_contra hn
  have := (h.dead i hn).2.2.2
  omega

/-- Two stores that differ only in the counts of one variable. -/
theorem Inv.recount (h : Inv s U ext extSe P) {i a b : Nat} {ext' extSe' : Nat → Nat}
    {P' : List Nat} (hi : Alive s U i)
    (he : ∀ k, k ≠ i → ext' k = ext k) (hes : ∀ k, k ≠ i → extSe' k = extSe k)
    (ha : a = ext' i + refSum s U i) (hb : b = extSe' i + refSumSe s U i)
    (hP : ∀ k, k ≠ i → (k ∈ P' ↔ k ∈ P)) (hPi : i ∈ P' ↔ (a = 0 ∧ b = 0)) (hn : P'.Nodup) :
    Inv (s.set i { s.vars i with refCount := a, refCountSe := b }) U ext' extSe' P' := by
  have hrefs : ∀ k, ((s.set i { s.vars i with refCount := a, refCountSe := b }).vars k).refs =
      (s.vars k).refs ∧
      ((s.set i { s.vars i with refCount := a, refCountSe := b }).vars k).refsSe =
      (s.vars k).refsSe ∧
      ((s.set i { s.vars i with refCount := a, refCountSe := b }).vars k).uid = (s.vars k).uid ∧
      ((s.set i { s.vars i with refCount := a, refCountSe := b }).vars k).key = (s.vars k).key ∧
      ((s.set i { s.vars i with refCount := a, refCountSe := b }).vars k).kind =
      (s.vars k).kind ∧
      ∀ p, ((s.set i { s.vars i with refCount := a, refCountSe := b }).vars k).owns p =
      (s.vars k).owns p := by
    intro k
    by_cases hk : k = i
    · subst hk; rw [set_self]; exact ⟨rfl, rfl, rfl, rfl, rfl, fun _ => rfl⟩
    · rw [set_ne _ _ hk]; exact ⟨rfl, rfl, rfl, rfl, rfl, fun _ => rfl⟩
  have hsum := refSum_congr (s := s)
    (s' := s.set i { s.vars i with refCount := a, refCountSe := b }) (U := U) (U' := U) rfl
    (fun _ => Iff.rfl) (fun j _ => (hrefs j).1)
  have hsumSe := refSumSe_congr (s := s)
    (s' := s.set i { s.vars i with refCount := a, refCountSe := b }) (U := U) (U' := U) rfl
    (fun _ => Iff.rfl) (fun j _ => (hrefs j).2.1)
  have hown := owned_congr (s := s)
    (s' := s.set i { s.vars i with refCount := a, refCountSe := b }) (U := U) (U' := U) rfl
    (fun _ => Iff.rfl) (fun j _ => (hrefs j).2.2.2.2.2)
  refine ⟨h.rep, h.ub, h.len, ?_, ?_, ?_, ?_, ?_, ?_, hn, ?_, h.lvnKeys,
    fun p => by rw [hown]; exact h.bal p⟩
  · intro k hk
    have hk' : ¬ Alive s U k := hk
    have hki : k ≠ i := fun e => hk' (e ▸ hi)
    rw [set_ne _ _ hki, he k hki, hes k hki]
    exact h.dead k hk'
  · intro j hj d hd hd0
    rw [(hrefs j).1, (hrefs j).2.1] at hd
    rw [(hrefs j).2.2.1, (hrefs d).2.2.1]
    exact h.deps j hj d hd hd0
  · intro k hk
    rw [(hrefs k).2.2.1]
    exact h.uids k hk
  · intro k hk
    rw [hsum]
    by_cases hki : k = i
    · subst hki; rw [set_self]; exact ha
    · rw [set_ne _ _ hki, he k hki]; exact h.rc k hk
  · intro k hk
    rw [hsumSe]
    by_cases hki : k = i
    · subst hki; rw [set_self]; exact hb
    · rw [set_ne _ _ hki, hes k hki]; exact h.rcSe k hk
  · intro k
    by_cases hki : k = i
    · subst hki
      rw [set_self]
      exact hPi.trans ⟨fun h' => ⟨hi, h'⟩, fun h' => h'.2⟩
    · rw [set_ne _ _ hki, hP k hki]
      exact h.pend k
  · intro k j hkj
    obtain ⟨a1, a2, a3⟩ := h.lvn k j hkj
    exact ⟨a1, (hrefs j).2.2.2.1.trans a2, by rw [(hrefs j).2.2.2.2.1]; exact a3⟩

/-- Changing counts is within the frame. -/
theorem Frame.setCounts {i a b : Nat} :
    Frame base s U (s.set i { s.vars i with refCount := a, refCountSe := b }) U where
  env := rfl
  scope := rfl
  vc := le_refl _
  len := le_refl _
  keep := by
    intro k hk _
    refine ⟨hk, ?_⟩
    by_cases hki : k = i
    · subst hki; rw [set_self]; exact ⟨rfl, fun _ => rfl⟩
    · rw [set_ne _ _ hki]; exact ⟨rfl, fun _ => rfl⟩
  ops := by
    intro _ _ _ d _ _
    by_cases hki : d = i
    · subst hki; rw [set_self]
    · rw [set_ne _ _ hki]
  stay := by
    intro k _ hk
    refine ⟨hk, ?_⟩
    by_cases hki : k = i
    · subst hki; rw [set_self]
    · rw [set_ne _ _ hki]
  cnt := by
    intro k _
    by_cases hki : k = i
    · subst hki; rw [set_self]
    · rw [set_ne _ _ hki]
  gone := by
    intro k hk
    refine .inl ⟨hk, ?_⟩
    by_cases hki : k = i
    · subst hki; rw [set_self]
    · rw [set_ne _ _ hki]

theorem plus_self {d : Nat} (hd : d ≠ 0) : plus ext [d] d = ext d + 1 := by
  simp [plus, hd]

theorem plus_ne {d k : Nat} (h : k ≠ d) : plus ext [d] k = ext k := by
  unfold plus
  split
  · rfl
  · rw [List.count_cons_of_ne (fun e => h e.symm)]; simp

theorem plus_zero1 : plus ext [0] = ext := by rw [plus_zero, plus_nil]

/-- With no pending variables, a variable is in use iff it has references. -/
theorem Inv.counts_pos (h : Inv s U ext extSe []) {i : Nat} (hi : Alive s U i) :
    ¬ ((s.vars i).refCount = 0 ∧ (s.vars i).refCountSe = 0) := by
  intro hc
  exact absurd ((h.pend i).2 ⟨hi, hc⟩) (List.not_mem_nil)

theorem Inv.getVar_ok (h : Inv s U ext extSe []) {i : Nat} (hi : Alive s U i) :
    getVar i s = .ok (s.vars i) s := by
  unfold getVar
  rw [if_neg]
  rintro (h0 | h0 | h0)
  · exact hi.1 h0
  · exact absurd hi.2.1 (by omega)
  · exact h.counts_pos hi h0

theorem wp_getVar (h : Inv s U ext extSe []) {i : Nat} (hi : Alive s U i)
    {Q : Var → Store → Prop} {R : Store → Prop} {T : Stop → Prop} :
    wp (getVar i) s Q R T ↔ Q (s.vars i) s := by
  unfold wp; rw [h.getVar_ok hi]

/-! ## Taking references -/

theorem incRefV_spec (h : Inv s U ext extSe []) {i : Nat} (hi : Alive s U i) {R : Store → Prop} :
    wp (incRefV i) s
      (fun _ s' => Inv s' U (plus ext [i]) extSe [] ∧
        s' = s.set i { s.vars i with refCount := (s.vars i).refCount + 1 }) R
      (· = .limit) := by
  unfold wp incRefV
  dsimp only
  by_cases hl : (s.vars i).refCount + 1 ≥ 2 ^ 32
  · rw [if_pos hl]
  · rw [if_neg hl]
    refine ⟨?_, rfl⟩
    have h1 := h.rc i hi
    have h2 := h.rcSe i hi
    refine h.recount (i := i) (a := (s.vars i).refCount + 1) (b := (s.vars i).refCountSe)
      hi (fun k hk => plus_ne hk) (fun _ _ => rfl) ?_ h2 (fun _ _ => Iff.rfl) ?_ List.nodup_nil
    · rw [plus_self hi.1]; omega
    · constructor
      · intro h'; exact absurd h' (List.not_mem_nil)
      · intro h'; omega

theorem incRef_spec (h : Inv s U ext extSe []) {i : Nat} (hi : i = 0 ∨ Alive s U i)
    {R : Store → Prop} :
    wp (incRef i) s
      (fun _ s' => Inv s' U (plus ext [i]) extSe [] ∧ Frame base s U s' U) R
      (· = .limit) := by
  unfold incRef
  by_cases h0 : i = 0
  · subst h0
    rw [if_pos rfl, wp_pure, plus_zero1]
    exact ⟨h, Frame.refl⟩
  · rw [if_neg h0]
    have hi' : Alive s U i := hi.resolve_left h0
    rw [wp_bind, wp_getVar h hi']
    refine wp_post (incRefV_spec h hi') ?_
    rintro _ s' ⟨a1, rfl⟩
    exact ⟨a1, Frame.setCounts⟩

theorem incRefSe_spec (h : Inv s U ext extSe []) {i : Nat} (hi : i = 0 ∨ Alive s U i)
    {R : Store → Prop} :
    wp (incRefSe i) s
      (fun _ s' => Inv s' U ext (plus extSe [i]) [] ∧ Frame base s U s' U) R
      (· = .limit) := by
  unfold incRefSe
  by_cases h0 : i = 0
  · subst h0
    rw [if_pos rfl, wp_pure, plus_zero1]
    exact ⟨h, Frame.refl⟩
  · rw [if_neg h0]
    have hi' : Alive s U i := hi.resolve_left h0
    rw [wp_bind, wp_getVar h hi']
    by_cases hl : (s.vars i).refCountSe + 1 ≥ 2 ^ 16
    · rw [if_pos hl]; rfl
    · rw [if_neg hl, wp_modifyStore]
      refine ⟨?_, Frame.setCounts⟩
      have h1 := h.rc i hi'
      have h2 := h.rcSe i hi'
      refine h.recount (i := i) (a := (s.vars i).refCount) (b := (s.vars i).refCountSe + 1)
        hi' (fun _ _ => rfl) (fun k hk => plus_ne hk) h1 ?_ (fun _ _ => Iff.rfl) ?_ List.nodup_nil
      · rw [plus_self hi'.1]; omega
      · constructor
        · intro h'; exact absurd h' (List.not_mem_nil)
        · intro h'; omega

/-! ## Releasing references -/

/-- The variables that are about to be freed, as represented inside `jitc_var_free()`. -/
def pendL (a : Nat × List Nat) : List Nat := if a.1 = 0 then a.2 else a.1 :: a.2

theorem decDep_spec {d : Nat} {a : Nat × List Nat}
    (h : Inv s U (plus ext [d]) extSe (pendL a)) {R : Store → Prop} {T : Stop → Prop} :
    wp (decDep d a) s
      (fun a' s' => Inv s' U ext extSe (pendL a') ∧ Frame base s U s' U ∧ s'.len = s.len) R T := by
  unfold wp decDep
  by_cases h0 : d = 0
  · subst h0
    rw [plus_zero1] at h
    rw [if_pos rfl]
    exact ⟨h, Frame.refl, rfl⟩
  rw [if_neg h0]
  have hpos : 0 < plus ext [d] d := by rw [plus_self h0]; omega
  have hd := h.alive_of_ext hpos
  have h1 := h.rc d hd
  have h2 := h.rcSe d hd
  rw [plus_self h0] at h1
  rw [if_neg (by omega)]
  dsimp only
  have hnp : d ∉ pendL a := fun hm => by
    have := (h.pend d).1 hm
    omega
  have key := fun (P' : List Nat) (hP : ∀ k, k ≠ d → (k ∈ P' ↔ k ∈ pendL a))
      (hPi : d ∈ P' ↔ ((s.vars d).refCount - 1 = 0 ∧ (s.vars d).refCountSe = 0)) (hn : P'.Nodup) =>
    h.recount (ext' := ext) (extSe' := extSe) (P' := P') (i := d) (a := (s.vars d).refCount - 1)
      (b := (s.vars d).refCountSe) hd (fun k hk => (plus_ne hk).symm) (fun _ _ => rfl)
      (by omega) h2 hP hPi hn
  by_cases hz : (s.vars d).refCount - 1 = 0 ∧ (s.vars d).refCountSe = 0
  · rw [if_pos hz]
    by_cases ha : a.1 = 0
    · rw [if_pos ha]
      refine ⟨key _ ?_ ?_ ?_, Frame.setCounts, rfl⟩
      · intro k hk; simp [pendL, ha, h0, hk]
      · simp [pendL, h0, hz]
      · have := h.nodup
        simp only [pendL, if_pos ha] at hnp this
        simp only [pendL, if_neg h0]
        exact List.nodup_cons.2 ⟨hnp, this⟩
    · rw [if_neg ha]
      refine ⟨key _ ?_ ?_ ?_, Frame.setCounts, rfl⟩
      · intro k hk; simp [pendL, ha, hk]
      · simp [pendL, ha, hz]
      · have := h.nodup
        simp only [pendL, if_neg ha] at hnp this ⊢
        simp only [List.nodup_cons, List.mem_cons, not_or] at *
        exact ⟨⟨fun e => hnp.1 e.symm, this.1⟩, hnp.2, this.2⟩
  · rw [if_neg hz]
    exact ⟨key _ (fun _ _ => Iff.rfl) ⟨fun hm => absurd hm hnp, fun hm => absurd hm hz⟩ h.nodup,
      Frame.setCounts, rfl⟩

theorem decDepSe_spec {d : Nat} {l : List Nat}
    (h : Inv s U ext (plus extSe [d]) l) {R : Store → Prop} {T : Stop → Prop} :
    wp (decDepSe d (0, l)) s
      (fun a' s' => Inv s' U ext extSe (pendL a') ∧ Frame base s U s' U ∧ s'.len = s.len) R T := by
  unfold wp decDepSe
  by_cases h0 : d = 0
  · subst h0
    rw [plus_zero1] at h
    rw [if_pos rfl]
    exact ⟨h, Frame.refl, rfl⟩
  rw [if_neg h0]
  have hpos : 0 < plus extSe [d] d := by rw [plus_self h0]; omega
  have hd := h.alive_of_extSe hpos
  have h1 := h.rc d hd
  have h2 := h.rcSe d hd
  rw [plus_self h0] at h2
  rw [if_neg (by omega)]
  dsimp only
  have hnp : d ∉ l := fun hm => by
    have := (h.pend d).1 hm
    omega
  have key := fun (P' : List Nat) (hP : ∀ k, k ≠ d → (k ∈ P' ↔ k ∈ l))
      (hPi : d ∈ P' ↔ ((s.vars d).refCount = 0 ∧ (s.vars d).refCountSe - 1 = 0)) (hn : P'.Nodup) =>
    h.recount (ext' := ext) (extSe' := extSe) (P' := P') (i := d) (a := (s.vars d).refCount)
      (b := (s.vars d).refCountSe - 1) hd (fun _ _ => rfl) (fun k hk => (plus_ne hk).symm)
      h1 (by omega) hP hPi hn
  by_cases hz : (s.vars d).refCount = 0 ∧ (s.vars d).refCountSe - 1 = 0
  · rw [if_pos hz]
    refine ⟨key _ ?_ ?_ ?_, Frame.setCounts, rfl⟩
    · intro k hk; simp [pendL, h0, hk]
    · simp [pendL, h0, hz]
    · simp only [pendL, if_neg h0]
      exact List.nodup_cons.2 ⟨hnp, h.nodup⟩
  · rw [if_neg hz]
    refine ⟨key _ ?_ ⟨fun hm => absurd ?_ hnp, fun hm => absurd hm hz⟩ ?_,
      Frame.setCounts, rfl⟩
    · intro k _; simp [pendL]
    · simpa [pendL] using hm
    · simpa [pendL] using h.nodup

theorem lookup_mem {α β : Type} [BEq α] [LawfulBEq α] {l : List (α × β)} {k : α} {v : β}
    (h : l.lookup k = some v) : (k, v) ∈ l := by
  induction l with
  | nil => simp at h
  | cons p l ih =>
    obtain ⟨a, b⟩ := p
    rw [List.lookup_cons] at h
    cases hk : k == a with
    | true =>
      rw [hk] at h
      have := eq_of_beq hk
      simp only [Option.some.injEq] at h
      subst this; subst h
      exact List.mem_cons_self
    | false =>
      rw [hk] at h
      exact List.mem_cons_of_mem _ (ih h)

theorem lookup_none {α β : Type} [BEq α] [LawfulBEq α] {l : List (α × β)} {k : α}
    (h : l.lookup k = none) : k ∉ l.map Prod.fst := by
  induction l with
  | nil => simp
  | cons p l ih =>
    obtain ⟨a, b⟩ := p
    rw [List.lookup_cons] at h
    cases hk : k == a with
    | true => rw [hk] at h; simp at h
    | false =>
      rw [hk] at h
      simp only [List.map_cons, List.mem_cons, not_or]
      exact ⟨fun e => by rw [e] at hk; simp at hk, ih h⟩

theorem lookup_of_mem {α β : Type} [BEq α] [LawfulBEq α] {l : List (α × β)} {k : α} {v : β}
    (hn : (l.map Prod.fst).Nodup) (h : (k, v) ∈ l) : l.lookup k = some v := by
  induction l with
  | nil => cases h
  | cons p l ih =>
    obtain ⟨a, b⟩ := p
    rw [List.map_cons, List.nodup_cons] at hn
    rw [List.lookup_cons]
    rcases List.mem_cons.1 h with he | he
    · cases he; simp
    · have : ¬ (k == a) = true := by
        intro e
        have := eq_of_beq e
        subst this
        exact hn.1 (List.mem_map.2 ⟨_, he, rfl⟩)
      simp only [Bool.not_eq_true] at this
      rw [this]
      exact ih hn.2 he

/-- `lvnDrop i` removes exactly the entries pointing at `i`. -/
theorem lvnDrop_spec (hk : ∀ (k : Key) (i : Nat), (k, i) ∈ s.lvn → (s.vars i).key = k)
    (hn : (s.lvn.map Prod.fst).Nodup) (i : Nat) :
    ∃ l, s.lvnDrop i = { s with lvn := l } ∧ (l.map Prod.fst).Nodup ∧
      (∀ p : Key × Nat, p ∈ l ↔ (p ∈ s.lvn ∧ p.2 ≠ i)) ∧
      ((s.vars i).key ∈ l.map Prod.fst → ∃ j, j ≠ i ∧ ((s.vars i).key, j) ∈ s.lvn) := by
  have hlast : ∀ l : List (Key × Nat), (∀ p : Key × Nat, p ∈ l ↔ (p ∈ s.lvn ∧ p.2 ≠ i)) →
      ((s.vars i).key ∈ l.map Prod.fst → ∃ j, j ≠ i ∧ ((s.vars i).key, j) ∈ s.lvn) := by
    intro l hl hm
    obtain ⟨⟨k, j⟩, hp, e⟩ := List.mem_map.1 hm
    dsimp only at e
    subst e
    have := (hl _).1 hp
    exact ⟨j, this.2, this.1⟩
  unfold Store.lvnDrop
  cases hl : s.lvn.lookup (s.vars i).key with
  | none =>
    have h4 : ∀ p : Key × Nat, p ∈ s.lvn ↔ (p ∈ s.lvn ∧ p.2 ≠ i) := by
      rintro ⟨k, j⟩
      refine ⟨fun hm => ⟨hm, fun e => ?_⟩, fun hm => hm.1⟩
      dsimp only at e
      subst e
      have := hk k j hm
      rw [this] at hl
      exact lookup_none hl (List.mem_map.2 ⟨_, hm, rfl⟩)
    exact ⟨s.lvn, rfl, hn, h4, hlast _ h4⟩
  | some j =>
    dsimp only
    by_cases hji : j = i
    · rw [if_pos hji]
      subst hji
      have h4 : ∀ p : Key × Nat, p ∈ s.lvn.filter (fun p => p.1 ≠ (s.vars j).key) ↔
          (p ∈ s.lvn ∧ p.2 ≠ j) := by
        rintro ⟨k, m⟩
        simp only [List.mem_filter, decide_eq_true_eq, ne_eq]
        constructor
        · rintro ⟨hm, hne⟩
          refine ⟨hm, fun e => hne ?_⟩
          subst e
          exact (hk k m hm).symm
        · rintro ⟨hm, hne⟩
          refine ⟨hm, fun e => hne ?_⟩
          subst e
          have := lookup_of_mem hn hm
          rw [hl] at this
          exact (Option.some.inj this).symm
      refine ⟨_, rfl, ?_, h4, hlast _ h4⟩
      exact hn.sublist (List.Sublist.map _ List.filter_sublist)
    · rw [if_neg hji]
      have h4 : ∀ p : Key × Nat, p ∈ s.lvn ↔ (p ∈ s.lvn ∧ p.2 ≠ i) := by
        rintro ⟨k, m⟩
        refine ⟨fun hm => ⟨hm, fun e => ?_⟩, fun hm => hm.1⟩
        dsimp only at e
        subst e
        have := hk k m hm
        rw [this, lookup_of_mem hn hm] at hl
        exact hji (Option.some.inj hl).symm
      exact ⟨s.lvn, rfl, hn, h4, hlast _ h4⟩

/-! ## `jitc_var_free()` -/

theorem alive_release {i j : Nat} (hl : s'.len = s.len) :
    Alive s' (sinsert i U) j ↔ (Alive s U j ∧ j ≠ i) := by
  unfold Alive
  rw [mem_sinsert, hl]
  constructor
  · rintro ⟨a, b, c⟩
    exact ⟨⟨a, b, fun h => c (.inr h)⟩, fun h => c (.inl h)⟩
  · rintro ⟨⟨a, b, c⟩, d⟩
    exact ⟨a, b, fun h => h.elim d c⟩

/-- Shape of the store after `release`. -/
theorem release_shape (h : Inv s U ext extSe P) (i : Nat) :
    ∃ l fr, s.release i = { s.set i { s.vars i with counter := (s.vars i).counter + 1 } with
        unused := s.unused.push i, lvn := l, freed := fr } ∧
      (l.map Prod.fst).Nodup ∧ (∀ p : Key × Nat, p ∈ l ↔ (p ∈ s.lvn ∧ p.2 ≠ i)) ∧
      (∀ p, fr.count p = s.freed.count p + if (s.vars i).owns p then 1 else 0) := by
  unfold Store.release
  dsimp only
  by_cases he : (s.vars i).isEvaluated
  · have hke : (s.vars i).kind = .evaluated := by simpa [Var.isEvaluated] using he
    have h4 : ∀ p : Key × Nat, p ∈ s.lvn ↔ (p ∈ s.lvn ∧ p.2 ≠ i) := by
      rintro ⟨k, j⟩
      refine ⟨fun hm => ⟨hm, fun e => ?_⟩, fun hm => hm.1⟩
      dsimp only at e
      subst e
      exact (h.lvn k j hm).2.2 hke
    rw [if_pos he]
    by_cases hr : (s.vars i).retainData
    · rw [if_pos hr]
      refine ⟨s.lvn, s.freed, rfl, h.lvnKeys, h4, fun p => ?_⟩
      simp [Var.owns, hr]
    · rw [if_neg hr]
      refine ⟨s.lvn, (s.vars i).literal :: s.freed, rfl, h.lvnKeys, h4, fun p => ?_⟩
      have hr' : (s.vars i).retainData = false := by simpa using hr
      rw [List.count_cons]
      simp [Var.owns, hr', he]
  · rw [if_neg he]
    obtain ⟨l, e, a1, a2, _⟩ := lvnDrop_spec (fun k j hm => (h.lvn k j hm).2.1) h.lvnKeys i
    rw [e]
    refine ⟨l, s.freed, rfl, a1, a2, fun p => ?_⟩
    have he' : (s.vars i).isEvaluated = false := by simpa using he
    simp [Var.owns, he']

theorem release_spec {i : Nat} (h : Inv s U ext extSe (i :: P)) :
    Inv (s.release i) (sinsert i U) (plus ext (s.vars i).refs) (plus extSe (s.vars i).refsSe) P ∧
    Frame ext s U (s.release i) (sinsert i U) ∧ (s.release i).len = s.len := by
  obtain ⟨hi, hc, hcs⟩ := (h.pend i).1 List.mem_cons_self
  have h1 := h.rc i hi
  have h2 := h.rcSe i hi
  have hext : ext i = 0 := by omega
  obtain ⟨l, fr, e, hl1, hl2, hfr⟩ := release_shape h i
  rw [e]
  clear e
  -- properties of the new variables
  have hv : ∀ k, (({ s.set i { s.vars i with counter := (s.vars i).counter + 1 } with
        unused := s.unused.push i, lvn := l, freed := fr } : Store).vars k) =
      if k = i then { s.vars i with counter := (s.vars i).counter + 1 } else s.vars k := by
    intro k; rfl
  have hne : ∀ j, Alive s U j → ∀ d, d ∈ (s.vars j).refs ++ (s.vars j).refsSe → d ≠ i := by
    intro j hj d hd hdi
    subst hdi
    rcases List.mem_append.1 hd with hd | hd
    · have := refSum_pos hj hd; omega
    · have := refSumSe_pos hj hd; omega
  generalize hs' : ({ s.set i { s.vars i with counter := (s.vars i).counter + 1 } with
        unused := s.unused.push i, lvn := l, freed := fr } : Store) = s' at *
  have hlen : s'.len = s.len := by subst hs'; rfl
  have hlvn : s'.lvn = l := by subst hs'; rfl
  have hunused : s'.unused = s.unused.push i := by subst hs'; rfl
  have hvc : s'.variableCounter = s.variableCounter := by subst hs'; rfl
  have henv : s'.env = s.env := by subst hs'; rfl
  have hscope : s'.scope = s.scope := by subst hs'; rfl
  have hfreed : s'.freed = fr := by subst hs'; rfl
  have hacq : s'.acquired = s.acquired := by subst hs'; rfl
  clear hs'
  have hal : ∀ k, Alive s' (sinsert i U) k ↔ (Alive s U k ∧ k ≠ i) := fun k => alive_release hlen
  have hvne : ∀ k, k ≠ i → s'.vars k = s.vars k := fun k hk => by rw [hv, if_neg hk]
  have hsum : ∀ k, refSum s U k = refSum s' (sinsert i U) k + (s.vars i).refs.count k :=
    refSum_remove hlen hi (fun k hk => by rw [hvne k hk])
  have hsumSe : ∀ k, refSumSe s U k = refSumSe s' (sinsert i U) k + (s.vars i).refsSe.count k :=
    refSumSe_remove hlen hi (fun k hk => by rw [hvne k hk])
  have hown : ∀ p, owned s U p = owned s' (sinsert i U) p + if (s.vars i).owns p then 1 else 0 :=
    owned_remove hlen hi (fun k hk p => by rw [hvne k hk])
  have hi32 : i < 2 ^ 32 := lt_of_lt_of_le hi.2.1 h.len.2
  refine ⟨⟨?_, ?_, ?_, ?_, ?_, ?_, ?_, ?_, ?_, ?_, ?_, ?_, ?_⟩, ?_, hlen⟩
  · rw [hunused]; exact rep_push h.rep i hi.2.2 hi32
  · intro u hu
    rw [hlen]
    rcases (mem_sinsert _ _ _).1 hu with rfl | hu
    · exact ⟨hi.1, hi.2.1⟩
    · exact h.ub u hu
  · rw [hlen]; exact h.len
  · intro k hk
    rw [hal, not_and_or, not_not] at hk
    by_cases hki : k = i
    · subst hki
      rw [hv, if_pos rfl]
      refine ⟨hc, hcs, ?_, ?_⟩
      · unfold plus
        rw [if_neg hi.1, hext, List.count_eq_zero_of_not_mem]
        intro hm; exact hne k hi k (List.mem_append_left _ hm) rfl
      · unfold plus
        rw [if_neg hi.1, List.count_eq_zero_of_not_mem]
        · omega
        · intro hm; exact hne k hi k (List.mem_append_right _ hm) rfl
    · have hk' : ¬ Alive s U k := hk.resolve_right hki
      rw [hvne k hki]
      obtain ⟨b1, b2, b3, b4⟩ := h.dead k hk'
      refine ⟨b1, b2, ?_, ?_⟩
      · unfold plus
        split
        · omega
        · rename_i hk0
          rw [b3, List.count_eq_zero_of_not_mem]
          intro hm; exact hk' (h.deps i hi k (List.mem_append_left _ hm) hk0).1
      · unfold plus
        split
        · omega
        · rename_i hk0
          rw [b4, List.count_eq_zero_of_not_mem]
          intro hm; exact hk' (h.deps i hi k (List.mem_append_right _ hm) hk0).1
  · intro j hj d hd hd0
    obtain ⟨hj1, hj2⟩ := (hal j).1 hj
    rw [hvne j hj2] at hd ⊢
    have hdi := hne j hj1 d hd
    rw [hvne d hdi]
    obtain ⟨a1, a2⟩ := h.deps j hj1 d hd hd0
    exact ⟨(hal d).2 ⟨a1, hdi⟩, a2⟩
  · intro k hk
    obtain ⟨k1, k2⟩ := (hal k).1 hk
    rw [hvne k k2, hvc]
    exact h.uids k k1
  · intro k hk
    obtain ⟨k1, k2⟩ := (hal k).1 hk
    rw [hvne k k2, h.rc k k1, hsum k]
    unfold plus
    rw [if_neg hk.1]
    omega
  · intro k hk
    obtain ⟨k1, k2⟩ := (hal k).1 hk
    rw [hvne k k2, h.rcSe k k1, hsumSe k]
    unfold plus
    rw [if_neg hk.1]
    omega
  · intro k
    have hnd := List.nodup_cons.1 h.nodup
    have hp := h.pend k
    by_cases hki : k = i
    · subst hki
      refine ⟨fun hm => absurd hm hnd.1, fun hm => absurd ((hal k).1 hm.1).2 (by simp)⟩
    · rw [hvne k hki]
      rw [List.mem_cons] at hp
      constructor
      · intro hm
        have := hp.1 (.inr hm)
        exact ⟨(hal k).2 ⟨this.1, hki⟩, this.2⟩
      · rintro ⟨hm1, hm2⟩
        exact (hp.2 ⟨((hal k).1 hm1).1, hm2⟩).resolve_left hki
  · exact (List.nodup_cons.1 h.nodup).2
  · intro k j hm
    rw [hlvn] at hm
    obtain ⟨m1, m2⟩ := (hl2 _).1 hm
    obtain ⟨a1, a2, a3⟩ := h.lvn k j m1
    dsimp only at m2
    rw [hvne j m2]
    exact ⟨(hal j).2 ⟨a1, m2⟩, a2, a3⟩
  · rw [hlvn]; exact hl1
  · intro p
    rw [hfreed, hacq, hfr p, ← h.bal p, hown p]
    omega
  · refine ⟨henv, hscope, by rw [hvc], by rw [hlen], ?_, ?_, ?_, ?_, ?_⟩
    · intro k hk _
      obtain ⟨k1, k2⟩ := (hal k).1 hk
      rw [hvne k k2]
      exact ⟨k1, rfl, fun _ => rfl⟩
    · intro _ _ _ d _ _
      rw [hv]
      split
      · subst d; rfl
      · rfl
    · intro k hk hk1
      have hki : k ≠ i := fun e => by subst e; omega
      rw [hvne k hki]
      exact ⟨(hal k).2 ⟨hk1, hki⟩, rfl⟩
    · intro k _
      rw [hv]
      split
      · subst k; simp
      · exact le_refl _
    · intro k hk
      by_cases hki : k = i
      · right; subst hki; rw [hv, if_pos rfl]; simp
      · left; rw [hvne k hki]; exact ⟨(hal k).2 ⟨hk, hki⟩, rfl⟩

theorem plus4 (a b c d : Nat) :
    plus ext [a, b, c, d] = plus (plus (plus (plus ext [d]) [c]) [b]) [a] := by
  rw [plus_cons, plus_cons ext b, plus_cons ext c]

theorem freeBody_spec {i : Nat} {todo : List Nat} (h : Inv s U ext extSe (i :: todo))
    {R : Store → Prop} {T : Stop → Prop} :
    wp (freeBody i todo) s
      (fun a s' => Inv s' (sinsert i U) ext extSe (pendL a) ∧
        Frame ext s U s' (sinsert i U) ∧ s'.len = s.len) R T := by
  obtain ⟨h1, h2, h3⟩ := release_spec h
  by_cases hw : (s.vars i).writePtr
  · have e : wp (freeBody i todo) s = fun (Q : Nat × List Nat → Store → Prop) R T =>
        wp (decDepSe (s.vars i).d3 (0, todo)) (s.release i) Q R T := by
      funext Q R T
      unfold wp freeBody
      simp only [hw, if_true]
    rw [e]
    simp only [Var.refs, Var.refsSe, hw, if_true, plus_nil] at h1
    refine wp_post (decDepSe_spec (base := ext) h1) ?_
    rintro a s' ⟨a1, a2, a3⟩
    exact ⟨a1, h2.trans a2, a3.trans h3⟩
  · have e : wp (freeBody i todo) s = fun (Q : Nat × List Nat → Store → Prop) R T =>
        wp (do
          let a ← decDep (s.vars i).d0 (0, todo)
          let a ← decDep (s.vars i).d1 a
          let a ← decDep (s.vars i).d2 a
          decDep (s.vars i).d3 a) (s.release i) Q R T := by
      funext Q R T
      unfold freeBody
      simp only [wp, hw]
      rfl
    rw [e]
    have hw' : (s.vars i).writePtr = false := by simpa using hw
    have er : (s.vars i).refs = [(s.vars i).d0, (s.vars i).d1, (s.vars i).d2, (s.vars i).d3] := by
      simp [Var.refs, hw']
    have ers : (s.vars i).refsSe = [] := by simp [Var.refsSe, hw']
    rw [er, ers, plus_nil, plus4] at h1
    simp only [wp_bind]
    have h1' : Inv (s.release i) (sinsert i U)
      (plus (plus (plus (plus ext [(s.vars i).d3]) [(s.vars i).d2]) [(s.vars i).d1])
        [(s.vars i).d0]) extSe (pendL (0, todo)) := h1
    refine wp_post (decDep_spec (base := ext) h1') ?_
    rintro a s1 ⟨a1, a2, a3⟩
    refine wp_post (decDep_spec (base := ext) a1) ?_
    rintro b s2 ⟨b1, b2, b3⟩
    refine wp_post (decDep_spec (base := ext) b1) ?_
    rintro c s3 ⟨c1, c2, c3⟩
    refine wp_post (decDep_spec (base := ext) c1) ?_
    rintro d s4 ⟨d1, d2, d3⟩
    exact ⟨d1, ((((h2.trans a2).trans b2).trans c2).trans d2),
      d3.trans (c3.trans (b3.trans (a3.trans h3)))⟩

/-- Number of variables in use. -/
def liveCount (s : Store) (U : List Nat) : Nat :=
  ((Finset.range s.len).filter (fun j => Alive s U j)).card

theorem liveCount_release {i : Nat} (hl : s'.len = s.len) (hi : Alive s U i) :
    liveCount s' (sinsert i U) + 1 = liveCount s U := by
  unfold liveCount
  have : (Finset.range s'.len).filter (fun j => Alive s' (sinsert i U) j) =
      ((Finset.range s.len).filter (fun j => Alive s U j)).erase i := by
    ext k
    simp only [Finset.mem_filter, Finset.mem_range, Finset.mem_erase, alive_release (s := s) hl, hl]
    tauto
  rw [this, Finset.card_erase_of_mem]
  · have : 0 < ((Finset.range s.len).filter (fun j => Alive s U j)).card :=
      Finset.card_pos.2 ⟨i, by simp [hi, hi.2.1]⟩
    omega
  · simp [hi, hi.2.1]

theorem liveCount_lt (h : 0 < s.len) : liveCount s U < s.len := by
  unfold liveCount
  have : (Finset.range s.len).filter (fun j => Alive s U j) ⊂ Finset.range s.len := by
    rw [Finset.ssubset_iff_of_subset (Finset.filter_subset _ _)]
    exact ⟨0, by simpa using h, fun hm => (Finset.mem_filter.1 hm).2.1 rfl⟩
  simpa using Finset.card_lt_card this

theorem freeLoop_spec : ∀ (n : Nat) {s : Store} {U : List Nat} {i : Nat} {todo : List Nat},
    Inv s U ext extSe (i :: todo) → liveCount s U ≤ n → ∀ {R : Store → Prop} {T : Stop → Prop},
    wp (freeLoop n i todo) s
      (fun _ s' => ∃ U', Inv s' U' ext extSe [] ∧ Frame ext s U s' U' ∧ s'.len = s.len) R T := by
  intro n
  induction n with
  | zero =>
    intro s U i todo h hn R T
    obtain ⟨hi, _, _⟩ := (h.pend i).1 List.mem_cons_self
    have := liveCount_release (s' := s) rfl hi
    omega
  | succ n ih =>
    intro s U i todo h hn R T
    obtain ⟨hi, _, _⟩ := (h.pend i).1 List.mem_cons_self
    unfold freeLoop
    rw [wp_bind]
    refine wp_post (freeBody_spec h) ?_
    rintro ⟨j, l⟩ s1 ⟨a1, a2, a3⟩
    have hc := liveCount_release a3 hi
    dsimp only
    by_cases hj : j = 0
    · subst hj
      rw [if_neg (by simp)]
      cases l with
      | nil =>
        rw [wp_pure]
        exact ⟨_, a1, a2, a3⟩
      | cons t ts =>
        refine wp_post (ih a1 (by omega)) ?_
        rintro _ s2 ⟨U2, b1, b2, b3⟩
        exact ⟨U2, b1, a2.trans b2, b3.trans a3⟩
    · rw [if_pos hj]
      simp only [pendL, if_neg hj] at a1
      refine wp_post (ih a1 (by omega)) ?_
      rintro _ s2 ⟨U2, b1, b2, b3⟩
      exact ⟨U2, b1, a2.trans b2, b3.trans a3⟩

theorem varFree_spec {i : Nat} (h : Inv s U ext extSe [i]) {R : Store → Prop} {T : Stop → Prop} :
    wp (varFree i) s
      (fun _ s' => ∃ U', Inv s' U' ext extSe [] ∧ Frame ext s U s' U' ∧ s'.len = s.len) R T := by
  have := freeLoop_spec s.len h (le_of_lt (liveCount_lt h.len.1)) (R := R) (T := T)
  exact this

/-- The state after the decrement in `jitc_var_dec_ref()`. -/
theorem decRef_mid {d : Nat} (hd0 : d ≠ 0) (h : Inv s U (plus ext [d]) extSe []) :
    Alive s U d ∧ 0 < (s.vars d).refCount ∧
    Inv (s.set d { s.vars d with refCount := (s.vars d).refCount - 1 }) U ext extSe
      (if (s.vars d).refCount - 1 = 0 ∧ (s.vars d).refCountSe = 0 then [d] else []) := by
  have hpos : 0 < plus ext [d] d := by rw [plus_self hd0]; omega
  have hd := h.alive_of_ext hpos
  have h1 := h.rc d hd
  have h2 := h.rcSe d hd
  rw [plus_self hd0] at h1
  refine ⟨hd, by omega, ?_⟩
  refine h.recount (i := d) (a := (s.vars d).refCount - 1) (b := (s.vars d).refCountSe)
    hd (fun k hk => (plus_ne hk).symm) (fun _ _ => rfl) (by omega) h2 ?_ ?_ ?_
  · intro k hk; split <;> simp [hk]
  · split
    · rename_i hz; simp [hz]
    · rename_i hz; simp [hz]
  · split <;> simp

theorem decRef_spec {d : Nat} (h : Inv s U (plus ext [d]) extSe [])
    {R : Store → Prop} {T : Stop → Prop} :
    wp (decRef d) s
      (fun _ s' => ∃ U', Inv s' U' ext extSe [] ∧ Frame ext s U s' U' ∧ s'.len = s.len) R T := by
  unfold decRef
  by_cases h0 : d = 0
  · subst h0
    rw [plus_zero1] at h
    rw [if_pos rfl, wp_pure]
    exact ⟨U, h, Frame.refl, rfl⟩
  rw [if_neg h0]
  obtain ⟨hd, hpos, hmid⟩ := decRef_mid h0 h
  rw [wp_bind, wp_getVar h hd, if_neg (by omega), wp_bind, wp_modifyStore]
  by_cases hz : (s.vars d).refCount - 1 = 0 ∧ (s.vars d).refCountSe = 0
  · rw [if_neg (by omega)]
    rw [if_pos hz] at hmid
    refine wp_post (varFree_spec hmid) ?_
    rintro _ s2 ⟨U2, b1, b2, b3⟩
    exact ⟨U2, b1, Frame.trans Frame.setCounts b2, b3⟩
  · rw [if_pos (by omega), wp_pure]
    rw [if_neg hz] at hmid
    exact ⟨U, hmid, Frame.setCounts, rfl⟩

/-- Releasing a reference to a variable that another variable still refers to. -/
theorem decRef_shared {d : Nat} (h : Inv s U (plus ext [d]) extSe [])
    (hd : d = 0 ∨ 0 < refSum s U d) {R : Store → Prop} {T : Stop → Prop} :
    wp (decRef d) s
      (fun _ s' => Inv s' U ext extSe [] ∧ (s' = s ∨
        s' = s.set d { s.vars d with refCount := (s.vars d).refCount - 1 })) R T := by
  unfold decRef
  by_cases h0 : d = 0
  · subst h0
    rw [plus_zero1] at h
    rw [if_pos rfl, wp_pure]
    exact ⟨h, .inl rfl⟩
  rw [if_neg h0]
  obtain ⟨hda, hpos, hmid⟩ := decRef_mid h0 h
  have h1 := h.rc d hda
  rw [plus_self h0] at h1
  have h2 := hd.resolve_left h0
  rw [wp_bind, wp_getVar h hda, if_neg (by omega), wp_bind, wp_modifyStore, if_pos (by omega),
    wp_pure]
  rw [if_neg (by omega)] at hmid
  exact ⟨hmid, .inr rfl⟩

theorem decRefSe_mid {d : Nat} (hd0 : d ≠ 0) (h : Inv s U ext (plus extSe [d]) []) :
    Alive s U d ∧ 0 < (s.vars d).refCountSe ∧
    Inv (s.set d { s.vars d with refCountSe := (s.vars d).refCountSe - 1 }) U ext extSe
      (if (s.vars d).refCount = 0 ∧ (s.vars d).refCountSe - 1 = 0 then [d] else []) := by
  have hpos : 0 < plus extSe [d] d := by rw [plus_self hd0]; omega
  have hd := h.alive_of_extSe hpos
  have h1 := h.rc d hd
  have h2 := h.rcSe d hd
  rw [plus_self hd0] at h2
  refine ⟨hd, by omega, ?_⟩
  refine h.recount (i := d) (a := (s.vars d).refCount) (b := (s.vars d).refCountSe - 1)
    hd (fun _ _ => rfl) (fun k hk => (plus_ne hk).symm) h1 (by omega) ?_ ?_ ?_
  · intro k hk; split <;> simp [hk]
  · split
    · rename_i hz; simp [hz]
    · rename_i hz; simp [hz]
  · split <;> simp

theorem decRefSe_spec {d : Nat} (h : Inv s U ext (plus extSe [d]) [])
    {R : Store → Prop} {T : Stop → Prop} :
    wp (decRefSe d) s
      (fun _ s' => ∃ U', Inv s' U' ext extSe [] ∧ Frame ext s U s' U' ∧ s'.len = s.len) R T := by
  unfold decRefSe
  by_cases h0 : d = 0
  · subst h0
    rw [plus_zero1] at h
    rw [if_pos rfl, wp_pure]
    exact ⟨U, h, Frame.refl, rfl⟩
  rw [if_neg h0]
  obtain ⟨hd, hpos, hmid⟩ := decRefSe_mid h0 h
  rw [wp_bind, wp_getVar h hd, if_neg (by omega), wp_bind, wp_modifyStore]
  by_cases hz : (s.vars d).refCount = 0 ∧ (s.vars d).refCountSe - 1 = 0
  · rw [if_neg (by omega)]
    rw [if_pos hz] at hmid
    refine wp_post (varFree_spec hmid) ?_
    rintro _ s2 ⟨U2, b1, b2, b3⟩
    exact ⟨U2, b1, Frame.trans Frame.setCounts b2, b3⟩
  · rw [if_pos (by omega), wp_pure]
    rw [if_neg hz] at hmid
    exact ⟨U, hmid, Frame.setCounts, rfl⟩

theorem decRefSe_shared {d : Nat} (h : Inv s U ext (plus extSe [d]) [])
    (hd : d = 0 ∨ 0 < refSumSe s U d) {R : Store → Prop} {T : Stop → Prop} :
    wp (decRefSe d) s
      (fun _ s' => Inv s' U ext extSe [] ∧ (s' = s ∨
        s' = s.set d { s.vars d with refCountSe := (s.vars d).refCountSe - 1 })) R T := by
  unfold decRefSe
  by_cases h0 : d = 0
  · subst h0
    rw [plus_zero1] at h
    rw [if_pos rfl, wp_pure]
    exact ⟨h, .inl rfl⟩
  rw [if_neg h0]
  obtain ⟨hda, hpos, hmid⟩ := decRefSe_mid h0 h
  have h1 := h.rcSe d hda
  rw [plus_self h0] at h1
  have h2 := hd.resolve_left h0
  rw [wp_bind, wp_getVar h hda, if_neg (by omega), wp_bind, wp_modifyStore, if_pos (by omega),
    wp_pure]
  rw [if_neg (by omega)] at hmid
  exact ⟨hmid, .inr rfl⟩

end Verif.Var
