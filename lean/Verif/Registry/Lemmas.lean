import Verif.Registry.Spec
import Verif.FreeSlots.Lemmas
/-! Simulation between the registry model and its specification. -/
namespace Verif.Registry
open Verif.FreeSlots

@[simp] theorem upd_same {α β} [DecidableEq α] (f : α → β) (a : α) (b : β) : upd f a b a = b := by
  simp [upd]
theorem upd_ne {α β} [DecidableEq α] (f : α → β) {a x : α} (b : β) (h : x ≠ a) :
    upd f a b x = f x := by simp [upd, h]

/-- Per-domain invariant. -/
structure DomInv (rev : Nat → Option (Nat × Nat)) (n : Nat) (d : Nat) (D : Domain) : Prop where
  act : ∀ (i : Nat) (e : Entry), D.fwd[i]? = some e → e.active = true → rev e.ptr = some (d, i) ∧ e.ptr ≠ 0
  inact : ∀ (i : Nat) (e : Entry), D.fwd[i]? = some e → e.active = false → e.ptr = 0
  free : ∃ S, Rep D.free S ∧ ∀ i, i ∈ S ↔ ∃ e : Entry, D.fwd[i]? = some e ∧ e.active = false
  hi : ∀ (i : Nat) (e : Entry), D.idBound ≤ i → D.fwd[i]? = some e → e.active = false
  top : D.idBound ≠ 0 → ∃ e : Entry, D.fwd[D.idBound - 1]? = some e ∧ e.active = true
  len : D.fwd.length ≤ n

structure Sim (n : Nat) (r : Registry) (s : Spec) : Prop where
  ids : ∀ k d, r.domainIds k = some d → ∃ D, r.domains[d]? = some D ∧ D.key = k
  keys : ∀ d D, r.domains[d]? = some D → r.domainIds D.key = some d
  absent : ∀ p, r.rev p = none ↔ s.st p = .absent
  cleared : ∀ p d, r.rev p = some (d, CLEARED) → s.st p = .cleared
  live : ∀ p d i, r.rev p = some (d, i) → i ≠ CLEARED →
    ∃ D, r.domains[d]? = some D ∧ s.st p = .live D.key (i + 1) ∧ D.fwd[i]? = some ⟨p, true⟩
  dom : ∀ d D, r.domains[d]? = some D → DomInv r.rev n d D
  known : ∀ k, s.known k = (r.domainIds k).isSome
  high : ∀ k, s.high k = match r.domainIds k with
    | none => 0
    | some d => match r.domains[d]? with | none => 0 | some D => D.fwd.length
  small : n ≤ CLEARED

theorem sim_init : Sim 0 {} Spec.init where
  ids := by intro k d h; simp at h
  keys := by intro d D h; simp at h
  absent := by intro p; simp [Spec.init]
  cleared := by intro p d h; simp at h
  live := by intro p d i h; simp at h
  dom := by intro d D h; simp at h
  known := by intro k; simp [Spec.init]
  high := by intro k; simp [Spec.init]
  small := by simp [CLEARED]

theorem DomInv.mono {rev : Nat → Option (Nat × Nat)} {n d : Nat} {D : Domain} (h : DomInv rev n d D) {m} (hm : n ≤ m) : DomInv rev m d D :=
  { h with len := Nat.le_trans h.len hm }

theorem Sim.mono {n : Nat} {r : Registry} {s : Spec} (h : Sim n r s) {m} (hm : n ≤ m) (hs : m ≤ CLEARED) : Sim m r s :=
  { h with dom := fun d D hd => (h.dom d D hd).mono hm, small := hs }

/-- Live pointers and forward entries correspond. -/
theorem Sim.live_iff {n : Nat} {r : Registry} {s : Spec} (h : Sim n r s) (p : Nat) (k : Key) (id : Nat) :
    s.st p = .live k id ↔ ∃ d D i, r.domainIds k = some d ∧ r.domains[d]? = some D ∧
      id = i + 1 ∧ D.fwd[i]? = some ⟨p, true⟩ := by
  constructor
  · intro hs
    cases hr : r.rev p with
    | none => rw [(h.absent p).1 hr] at hs; cases hs
    | some e =>
      obtain ⟨d, i⟩ := e
      by_cases hi : i = CLEARED
      · subst hi; rw [h.cleared p d hr] at hs; cases hs
      · obtain ⟨D, h1, h2, h3⟩ := h.live p d i hr hi
        rw [hs] at h2
        injection h2 with h4 h5
        exact ⟨d, D, i, by rw [h4]; exact h.keys d D h1, h1, h5, h3⟩
  · rintro ⟨d, D, i, h1, h2, rfl, h4⟩
    have hD := h.dom d D h2
    have hrev := (hD.act i _ h4 rfl).1
    have hlt : i < D.fwd.length := by
      rw [List.getElem?_eq_some_iff] at h4; exact h4.1
    have hne : i ≠ CLEARED := by have := hD.len; have := h.small; omega
    obtain ⟨D', h5, h6, _⟩ := h.live p d i hrev hne
    rw [h2] at h5; cases h5
    obtain ⟨D'', h7, h8⟩ := h.ids k d h1
    rw [h2] at h7; cases h7
    rw [h6, h8]

theorem queries_of_sim {n : Nat} {r : Registry} {s : Spec} (h : Sim n r s) : Queries s r where
  id_null := by simp [Registry.id]
  id_live := by
    intro p k i hp hs
    obtain ⟨d, D, j, h1, h2, rfl, h4⟩ := (h.live_iff p k i).1 hs
    have hD := h.dom d D h2
    have hlt : j < D.fwd.length := by
      rw [List.getElem?_eq_some_iff] at h4; exact h4.1
    have hne : j ≠ CLEARED := by have := hD.len; have := h.small; omega
    simp [Registry.id, hp, (hD.act j _ h4 rfl).1, hne]
  id_cleared := by
    intro p hp hs
    cases hr : r.rev p with
    | none => rw [(h.absent p).1 hr] at hs; cases hs
    | some e =>
      obtain ⟨d, i⟩ := e
      by_cases hi : i = CLEARED
      · simp [Registry.id, hp, hr, hi]
      · obtain ⟨D, h1, h2, h3⟩ := h.live p d i hr hi
        rw [hs] at h2; cases h2
  id_absent := by
    intro p hp hs
    simp [Registry.id, hp, (h.absent p).2 hs]
  ptr_zero := by intro k; simp [Registry.ptr]
  ptr_live := by
    intro p k i hs
    obtain ⟨d, D, j, h1, h2, rfl, h4⟩ := (h.live_iff p k i).1 hs
    simp [Registry.ptr, h1, h2, h4]
  ptr_unused := by
    intro k i hi hu
    have hi0 : i ≠ 0 := by omega
    simp only [Registry.ptr, hi0, if_false, h.known k, h.high k]
    cases hd : r.domainIds k with
    | none => simp
    | some d =>
      obtain ⟨D, h1, h2⟩ := h.ids k d hd
      simp only [h1]
      cases he : D.fwd[i - 1]? with
      | none =>
        rw [List.getElem?_eq_none_iff] at he
        have : D.fwd.length < i := by omega
        simp [this]
      | some e =>
        have hlt : i - 1 < D.fwd.length := by
          rw [List.getElem?_eq_some_iff] at he; exact he.1
        have : ¬ (D.fwd.length < i) := by omega
        simp only [this, and_false, if_false]
        cases ha : e.active with
        | false => simp
        | true =>
          exfalso; apply hu
          refine ⟨e.ptr, (h.live_iff _ _ _).2 ⟨d, D, i - 1, hd, h1, by omega, ?_⟩⟩
          rw [he]; cases e; simp_all
  bound := by
    intro k
    cases hd : r.domainIds k with
    | none =>
      refine ⟨0, by simp [Registry.idBound, hd], ?_, by simp⟩
      rintro j ⟨p, hp⟩
      obtain ⟨d, D, i, h1, _⟩ := (h.live_iff p k j).1 hp
      rw [hd] at h1; cases h1
    | some d =>
      obtain ⟨D, h1, h2⟩ := h.ids k d hd
      refine ⟨D.idBound, by simp [Registry.idBound, hd, h1], ?_, ?_⟩
      · rintro j ⟨p, hp⟩
        obtain ⟨d', D', i, g1, g2, rfl, g4⟩ := (h.live_iff p k j).1 hp
        rw [hd] at g1; cases g1
        rw [h1] at g2; cases g2
        rcases Nat.lt_or_ge i D.idBound with hlt | hge
        · omega
        · have := (h.dom d D h1).hi i _ hge g4; cases this
      · intro hb
        obtain ⟨e, g1, g2⟩ := (h.dom d D h1).top hb
        refine ⟨e.ptr, (h.live_iff _ _ _).2 ⟨d, D, D.idBound - 1, hd, h1, by omega, ?_⟩⟩
        rw [g1]; cases e; simp_all
  peek := by
    intro k
    cases hd : r.domainIds k with
    | none =>
      refine ⟨0, by simp [Registry.peek, hd], Or.inl ⟨rfl, ?_⟩⟩
      rintro j ⟨p, hp⟩
      obtain ⟨d, D, i, h1, _⟩ := (h.live_iff p k j).1 hp
      rw [hd] at h1; cases h1
    | some d =>
      obtain ⟨D, h1, h2⟩ := h.ids k d hd
      have hle : ∀ j, s.used k j → j ≤ D.idBound := by
        rintro j ⟨p, hp⟩
        obtain ⟨d', D', i, g1, g2, rfl, g4⟩ := (h.live_iff p k j).1 hp
        rw [hd] at g1; cases g1
        rw [h1] at g2; cases g2
        rcases Nat.lt_or_ge i D.idBound with hlt | hge
        · omega
        · have := (h.dom d D h1).hi i _ hge g4; cases this
      by_cases hb : D.idBound = 0
      · refine ⟨0, by simp [Registry.peek, hd, h1, hb], Or.inl ⟨rfl, ?_⟩⟩
        intro j hj
        have := hle j hj
        obtain ⟨p, hp⟩ := hj
        obtain ⟨d', D', i, g1, g2, rfl, g4⟩ := (h.live_iff p k j).1 hp
        omega
      · obtain ⟨e, g1, g2⟩ := (h.dom d D h1).top hb
        have hpos : D.idBound > 0 := by omega
        refine ⟨e.ptr, by simp [Registry.peek, hd, h1, hpos, g1], Or.inr ⟨D.idBound, ?_, hle⟩⟩
        refine (h.live_iff _ _ _).2 ⟨d, D, D.idBound - 1, hd, h1, by omega, ?_⟩
        rw [g1]; cases e; simp_all
  getPointers := by
    intro k
    cases hd : r.domainIds k with
    | none =>
      refine ⟨[], by simp [Registry.getPointers, hd], ?_⟩
      intro i p
      simp only [List.not_mem_nil, false_iff]
      intro hp
      obtain ⟨d, D, i, h1, _⟩ := (h.live_iff p k _).1 hp
      rw [hd] at h1; cases h1
    | some d =>
      obtain ⟨D, h1, h2⟩ := h.ids k d hd
      refine ⟨_, by simp only [Registry.getPointers, hd, h1]; rfl, ?_⟩
      intro i p
      rw [h.live_iff, List.mem_filterMap]
      constructor
      · rintro ⟨j, hj, hm⟩
        cases he : D.fwd[j]? with
        | none => simp [he] at hm
        | some e =>
          simp only [he] at hm
          cases ha : e.active with
          | false => simp [ha] at hm
          | true =>
            simp [ha] at hm
            obtain ⟨rfl, rfl⟩ := hm
            refine ⟨d, D, j, hd, h1, rfl, ?_⟩
            rw [he]; cases e; simp_all
      · rintro ⟨d', D', j, g1, g2, g3, g4⟩
        rw [hd] at g1; cases g1
        rw [h1] at g2; cases g2
        have : i = j := by omega
        subst this
        have hlt : i < D.fwd.length := by
          rw [List.getElem?_eq_some_iff] at g4; exact g4.1
        exact ⟨i, List.mem_range.2 hlt, by simp [g4]⟩

/-- Creating a domain entry preserves the invariant (except for `known`). -/
theorem sim_domainFor {n : Nat} {r : Registry} {s : Spec} (h : Sim n r s) (k : Key) :
    ∃ D, (r.domainFor k).2.domains[(r.domainFor k).1]? = some D ∧ D.key = k ∧
      (r.domainFor k).2.domainIds k = some (r.domainFor k).1 ∧
      Sim n (r.domainFor k).2 { s with known := upd s.known k true } := by
  unfold Registry.domainFor
  cases hd : r.domainIds k with
  | some d =>
    obtain ⟨D, h1, h2⟩ := h.ids k d hd
    refine ⟨D, h1, h2, hd, { h with known := ?_ }⟩
    intro k'
    by_cases hk : k' = k
    · subst hk; simp [hd]
    · simp only [upd_ne _ _ hk, h.known k']
  | none =>
    simp only
    have hlen : ∀ (d : Nat) (D : Domain), r.domains[d]? = some D → d < r.domains.length := by
      intro d D hx; rw [List.getElem?_eq_some_iff] at hx; exact hx.1
    have hold : ∀ (d : Nat) (D : Domain), r.domains[d]? = some D →
        (r.domains ++ [({ key := k } : Domain)])[d]? = some D := by
      intro d D hx
      rw [List.getElem?_append_left (hlen d D hx)]; exact hx
    have hcase : ∀ (d : Nat) (D : Domain), (r.domains ++ [({ key := k } : Domain)])[d]? = some D →
        r.domains[d]? = some D ∨ (d = r.domains.length ∧ D = { key := k }) := by
      intro d D hx
      rcases Nat.lt_trichotomy d r.domains.length with hlt | heq | hgt
      · left; rwa [List.getElem?_append_left hlt] at hx
      · right
        subst heq
        simp at hx
        exact ⟨rfl, hx.symm⟩
      · rw [List.getElem?_append_right (by omega)] at hx
        rw [List.getElem?_eq_none (by simp; omega)] at hx
        cases hx
    refine ⟨{ key := k }, by simp, rfl, by simp, ?_⟩
    exact {
      ids := by
        intro k' d hk'
        by_cases hk : k' = k
        · subst hk
          simp at hk'
          subst hk'
          exact ⟨{ key := k' }, by simp, rfl⟩
        · simp only [upd_ne _ _ hk] at hk'
          obtain ⟨D, h1, h2⟩ := h.ids k' d hk'
          exact ⟨D, hold d D h1, h2⟩
      keys := by
        intro d D hx
        rcases hcase d D hx with hx | ⟨rfl, rfl⟩
        · have h1 := h.keys d D hx
          have hk : D.key ≠ k := by intro e; rw [e, hd] at h1; cases h1
          simp only [upd_ne _ _ hk]; exact h1
        · simp
      absent := h.absent
      cleared := h.cleared
      live := by
        intro p d i hr hi
        obtain ⟨D, h1, h2, h3⟩ := h.live p d i hr hi
        exact ⟨D, hold d D h1, h2, h3⟩
      dom := by
        intro d D hx
        rcases hcase d D hx with hx | ⟨rfl, rfl⟩
        · exact h.dom d D hx
        · exact {
            act := by intro i e he; simp at he
            inact := by intro i e he; simp at he
            free := ⟨[], rep_init, by simp⟩
            hi := by intro i e _ he; simp at he
            top := by simp
            len := by simp }
      known := by
        intro k'
        by_cases hk : k' = k
        · subst hk; simp
        · simp only [upd_ne _ _ hk, h.known k']
      high := by
        intro k'
        by_cases hk : k' = k
        · subst hk
          have := h.high k'
          simp [hd] at this
          simp [this]
        · simp only [upd_ne _ _ hk]
          have := h.high k'
          cases hk' : r.domainIds k' with
          | none => simpa [hk'] using this
          | some d =>
            obtain ⟨D, h1, h2⟩ := h.ids k' d hk'
            simp only [hk', h1] at this
            simp only [hold d D h1, this]
      small := h.small }

/-- Effect of the index allocation in a domain. -/
theorem alloc_spec {rev : Nat → Option (Nat × Nat)} {n d : Nat} {D : Domain} (h : DomInv rev n d D) (p : Nat) (hp : p ≠ 0) (hrev : rev p = none) :
    ∃ i D', D.alloc p = some (i, D') ∧ D'.key = D.key ∧
      (∀ j, j < i → ∃ e : Entry, D.fwd[j]? = some e ∧ e.active = true) ∧
      (∀ e : Entry, D.fwd[i]? = some e → e.active = false) ∧
      i ≤ D.fwd.length ∧
      (∀ j, D'.fwd[j]? = if j = i then some ⟨p, true⟩ else D.fwd[j]?) ∧
      D'.fwd.length = max D.fwd.length (i + 1) ∧
      DomInv (upd rev p (some (d, i))) (n + 1) d D' := by
  obtain ⟨S, hS, hmem⟩ := h.free
  have hrevne : ∀ q x, rev q = some x → q ≠ p := by
    intro q x hq e; subst e; rw [hrev] at hq; cases hq
  unfold Domain.alloc
  have hemp : D.free.empty = S.isEmpty := by
    simp only [FreeSlots.empty, hS.count]; cases S <;> simp
  cases S with
  | nil =>
    simp only [hemp, List.isEmpty_nil, Bool.not_true, Bool.false_eq_true, if_false]
    have hfwd : ∀ j, (D.fwd ++ [(⟨p, true⟩ : Entry)])[j]? =
        if j = D.fwd.length then some ⟨p, true⟩ else D.fwd[j]? := by
      intro j
      rw [List.getElem?_append]
      by_cases h1 : j < D.fwd.length
      · have : j ≠ D.fwd.length := by omega
        simp [h1, this]
      · by_cases h2 : j = D.fwd.length
        · subst h2; simp
        · rw [if_neg h1, if_neg h2, List.getElem?_eq_none (by simp; omega),
            List.getElem?_eq_none (by omega)]
    refine ⟨_, _, rfl, rfl, ?_, ?_, Nat.le_refl _, hfwd, by simp, ?_⟩
    · intro j hj
      refine ⟨D.fwd[j], List.getElem?_eq_getElem hj, ?_⟩
      cases ha : D.fwd[j].active with
      | true => rfl
      | false =>
        have := (hmem j).2 ⟨_, List.getElem?_eq_getElem hj, ha⟩
        simp at this
    · intro e he
      rw [List.getElem?_eq_none (Nat.le_refl _)] at he; cases he
    · exact {
        act := by
          intro i e he ha
          rw [hfwd] at he
          split at he
          · cases he; subst_vars; simp [hp]
          · obtain ⟨h1, h2⟩ := h.act i e he ha
            rw [upd_ne _ _ (hrevne _ _ h1)]
            exact ⟨h1, h2⟩
        inact := by
          intro i e he ha
          rw [hfwd] at he
          split at he
          · cases he; cases ha
          · exact h.inact i e he ha
        free := by
          refine ⟨[], hS, ?_⟩
          intro i
          rw [hmem i]
          constructor
          · rintro ⟨e, he, ha⟩
            have := (hmem i).2 ⟨e, he, ha⟩
            simp at this
          · rintro ⟨e, he, ha⟩
            rw [hfwd] at he
            split at he
            · cases he; cases ha
            · exact ⟨e, he, ha⟩
        hi := by
          intro i e hi he
          rw [hfwd] at he
          simp only at hi
          have : i ≠ D.fwd.length := by omega
          rw [if_neg this] at he
          exact h.hi i e (by omega) he
        top := by
          intro _
          simp only
          have hb : D.idBound ≤ D.fwd.length := by
            by_cases h0 : D.idBound = 0
            · omega
            · obtain ⟨e, he, _⟩ := h.top h0
              rw [List.getElem?_eq_some_iff] at he
              obtain ⟨he, _⟩ := he
              omega
          have : max D.idBound (D.fwd.length + 1) - 1 = D.fwd.length := by omega
          rw [this, hfwd]
          exact ⟨⟨p, true⟩, by simp, rfl⟩
        len := by
          have := h.len
          simp; omega }
  | cons m S =>
    simp only [hemp, List.isEmpty_cons, Bool.not_false, if_true]
    obtain ⟨f', hpop, hrep'⟩ := rep_pop hS
    have hsort := List.pairwise_cons.1 hS.sorted
    obtain ⟨em, hem, hema⟩ := (hmem m).1 (by simp)
    have hmlt : m < D.fwd.length := by
      rw [List.getElem?_eq_some_iff] at hem; exact hem.1
    simp only [hpop, hmlt, if_true]
    have hfwd : ∀ j, (D.fwd.set m (⟨p, true⟩ : Entry))[j]? =
        if j = m then some ⟨p, true⟩ else D.fwd[j]? := by
      intro j
      rw [List.getElem?_set]
      by_cases h1 : m = j
      · subst h1; simp [hmlt]
      · have : j ≠ m := fun e => h1 e.symm
        simp [h1, this]
    refine ⟨_, _, rfl, rfl, ?_, ?_, by omega, hfwd, by simp; omega, ?_⟩
    · intro j hj
      have hjl : j < D.fwd.length := by omega
      refine ⟨D.fwd[j], List.getElem?_eq_getElem hjl, ?_⟩
      cases ha : D.fwd[j].active with
      | true => rfl
      | false =>
        have := (hmem j).2 ⟨_, List.getElem?_eq_getElem hjl, ha⟩
        rcases List.mem_cons.1 this with e | e
        · omega
        · have := hsort.1 _ e; omega
    · intro e he
      rw [hem] at he; cases he; exact hema
    · exact {
        act := by
          intro i e he ha
          rw [hfwd] at he
          split at he
          · cases he; subst_vars; simp [hp]
          · obtain ⟨h1, h2⟩ := h.act i e he ha
            rw [upd_ne _ _ (hrevne _ _ h1)]
            exact ⟨h1, h2⟩
        inact := by
          intro i e he ha
          rw [hfwd] at he
          split at he
          · cases he; cases ha
          · exact h.inact i e he ha
        free := by
          refine ⟨S, hrep', ?_⟩
          intro i
          constructor
          · intro hi
            obtain ⟨e, he, ha⟩ := (hmem i).1 (by simp [hi])
            have : i ≠ m := by have := hsort.1 _ hi; omega
            exact ⟨e, by rw [hfwd, if_neg this]; exact he, ha⟩
          · rintro ⟨e, he, ha⟩
            rw [hfwd] at he
            split at he
            · cases he; cases ha
            · rename_i hne
              have := (hmem i).2 ⟨e, he, ha⟩
              rcases List.mem_cons.1 this with e | e
              · exact absurd e hne
              · exact e
        hi := by
          intro i e hi he
          rw [hfwd] at he
          simp only at hi
          have : i ≠ m := by omega
          rw [if_neg this] at he
          exact h.hi i e (by omega) he
        top := by
          intro _
          simp only
          by_cases hc : m + 1 ≤ D.idBound
          · have e1 : max D.idBound (m + 1) = D.idBound := by omega
            rw [e1]
            obtain ⟨e, he, ha⟩ := h.top (by omega)
            rw [hfwd]
            split
            · exact ⟨_, rfl, rfl⟩
            · exact ⟨e, he, ha⟩
          · have e1 : max D.idBound (m + 1) - 1 = m := by omega
            rw [e1, hfwd]
            exact ⟨⟨p, true⟩, by simp, rfl⟩
        len := by have := h.len; simp; omega }

theorem sim_put {n : Nat} {r : Registry} {s : Spec} (h : Sim n r s) (hn : n + 1 ≤ CLEARED) (k : Key) (p : Nat) (hp : p ≠ 0) :
    ∃ s', SpecStep s (.put k p) (r.put k p).1 s' ∧ Sim (n + 1) (r.put k p).2 s' := by
  unfold Registry.put
  cases hr : r.rev p with
  | some x =>
    refine ⟨s, SpecStep.put_dup s k p ?_, h.mono (by omega) hn⟩
    intro e
    rw [← h.absent, hr] at e; cases e
  | none =>
    obtain ⟨D, hD, hkey, hids, hsim⟩ := sim_domainFor h k
    have hr1 : (r.domainFor k).2.rev = r.rev := by
      unfold Registry.domainFor; split <;> rfl
    generalize r.domainFor k = x at *
    obtain ⟨d, r1⟩ := x
    simp only at hD hids hsim hr1 ⊢
    rw [← hr1] at hr
    obtain ⟨i, D', hal, hk', hall, hfree, hle, hfwd, hlen, hinv⟩ :=
      alloc_spec (hsim.dom d D hD) p hp hr
    simp only [hD, hal]
    have hdl : d < r1.domains.length := by
      rw [List.getElem?_eq_some_iff] at hD; exact hD.1
    have hdoms : ∀ d', (r1.domains.set d D')[d']? = if d' = d then some D' else r1.domains[d']? := by
      intro d'
      rw [List.getElem?_set]
      by_cases h1 : d = d'
      · subst h1; simp [hdl]
      · have : d' ≠ d := fun e => h1 e.symm
        simp [h1, this]
    have hilt : i ≠ CLEARED := by
      have := hinv.len; omega
    have habs : s.st p = .absent := (h.absent p).1 (by rw [← hr1]; exact hr)
    have hused : ∀ j, s.used k (j + 1) ↔ ∃ e : Entry, D.fwd[j]? = some e ∧ e.active = true := by
      intro j
      constructor
      · rintro ⟨q, hq⟩
        obtain ⟨d', D'', j', g1, g2, g3, g4⟩ := (hsim.live_iff q k (j + 1)).1 hq
        rw [hids] at g1; cases g1
        rw [hD] at g2; cases g2
        have : j = j' := by omega
        subst this
        exact ⟨_, g4, rfl⟩
      · rintro ⟨e, he, ha⟩
        refine ⟨e.ptr, (hsim.live_iff e.ptr k (j + 1)).2 ⟨d, D, j, hids, hD, rfl, ?_⟩⟩
        rw [he]; cases e; simp_all
    refine ⟨_, SpecStep.put_new s k p (i + 1) habs ⟨by omega, ?_, ?_⟩, ?_⟩
    · rw [hused]
      rintro ⟨e, he, ha⟩
      rw [hfree e he] at ha; cases ha
    · intro j hj hji
      obtain ⟨j, rfl⟩ : ∃ j', j = j' + 1 := ⟨j - 1, by omega⟩
      rw [hused]
      exact hall j (by omega)
    · have hpne : ∀ q x, r1.rev q = some x → q ≠ p := by
        intro q x hq e; subst e; rw [hr] at hq; cases hq
      exact {
        ids := by
          intro k' d' hk
          obtain ⟨D2, g1, g2⟩ := hsim.ids k' d' hk
          simp only [hdoms]
          split
          · subst_vars
            rw [hD] at g1; cases g1
            exact ⟨D', rfl, hk'⟩
          · exact ⟨D2, g1, g2⟩
        keys := by
          intro d' D2 hd2
          simp only [hdoms] at hd2
          split at hd2
          · cases hd2; subst_vars
            rw [hk']; exact hids
          · exact hsim.keys d' D2 hd2
        absent := by
          intro q
          by_cases hq : q = p
          · subst hq; simp
          · simp only [upd_ne _ _ hq]; exact hsim.absent q
        cleared := by
          intro q d' hq
          by_cases hqp : q = p
          · subst hqp; simp [hilt] at hq
          · simp only [upd_ne _ _ hqp] at hq ⊢; exact hsim.cleared q d' hq
        live := by
          intro q d' j hq hj
          by_cases hqp : q = p
          · subst hqp
            simp only [upd_same, Option.some.injEq, Prod.mk.injEq] at hq
            obtain ⟨rfl, rfl⟩ := hq
            refine ⟨D', by simp [hdoms], by simp [hk', hkey], by simp [hfwd]⟩
          · simp only [upd_ne _ _ hqp] at hq ⊢
            obtain ⟨D2, g1, g2, g3⟩ := hsim.live q d' j hq hj
            simp only [hdoms]
            split
            · subst_vars
              rw [hD] at g1; cases g1
              refine ⟨D', rfl, by rw [hk']; exact g2, ?_⟩
              rw [hfwd, if_neg]
              · exact g3
              · intro e
                subst e
                have := hfree _ g3; cases this
            · exact ⟨D2, g1, g2, g3⟩
        dom := by
          intro d' D2 hd2
          simp only [hdoms] at hd2
          split at hd2
          · cases hd2; subst_vars; exact hinv
          · have := (hsim.dom d' D2 hd2).mono (show n ≤ n + 1 by omega)
            exact { this with
              act := by
                intro j e he ha
                obtain ⟨g1, g2⟩ := this.act j e he ha
                simp only [upd_ne _ _ (hpne _ _ g1)]
                exact ⟨g1, g2⟩ }
        known := hsim.known
        high := by
          intro k'
          have hh := hsim.high k'
          simp only at hh ⊢
          by_cases hk : k' = k
          · subst hk
            simp only [hids, hD] at hh
            simp only [upd_same, hids, hdoms, if_true, hh, hlen]
          · simp only [upd_ne _ _ hk, hh]
            cases hd' : r1.domainIds k' with
            | none => rfl
            | some d' =>
              have : d' ≠ d := by
                intro e; subst e
                obtain ⟨D2, g1, g2⟩ := hsim.ids k' d' hd'
                rw [hD] at g1; cases g1
                exact hk (g2.symm.trans hkey)
              simp only [hdoms, this, if_false]
        small := hn }

theorem shrink_le (fwd : List Entry) (b : Nat) : shrink fwd b ≤ b := by
  induction b with
  | zero => simp [shrink]
  | succ b ih => unfold shrink; split <;> omega

theorem shrink_hi (fwd : List Entry) (b i : Nat) (h1 : shrink fwd b ≤ i) (h2 : i < b) :
    (fwd.getD i ⟨0, false⟩).ptr = 0 := by
  induction b with
  | zero => omega
  | succ b ih =>
    unfold shrink at h1
    split at h1
    · rename_i h
      by_cases hi : i = b
      · subst hi; exact h
      · exact ih h1 (by omega)
    · omega

theorem shrink_top (fwd : List Entry) (b : Nat) (h : shrink fwd b ≠ 0) :
    (fwd.getD (shrink fwd b - 1) ⟨0, false⟩).ptr ≠ 0 := by
  induction b with
  | zero => simp [shrink] at h
  | succ b ih =>
    unfold shrink at h ⊢
    split
    · rename_i h'
      rw [if_pos h'] at h
      exact ih h
    · rename_i h'
      simpa using h'

theorem sim_remove {n : Nat} {r : Registry} {s : Spec} (h : Sim n r s) (p : Nat) :
    ∃ s', SpecStep s (.remove p) (r.step (.remove p)).1 s' ∧ Sim n (r.step (.remove p)).2 s' := by
  simp only [Registry.step, Registry.remove]
  cases hr : r.rev p with
  | none => exact ⟨s, SpecStep.remove_absent s p ((h.absent p).1 hr), h⟩
  | some x =>
    obtain ⟨d, i⟩ := x
    have hna : s.st p ≠ .absent := by
      intro e; rw [← h.absent, hr] at e; cases e
    by_cases hi : i = CLEARED
    · simp only [hi, if_true]
      refine ⟨_, SpecStep.remove_ok s p hna, ?_⟩
      subst hi
      have hneq : ∀ q d' j, r.rev q = some (d', j) → j ≠ CLEARED → q ≠ p := by
        intro q d' j hq hj e
        subst e
        rw [hr] at hq
        cases hq
        exact hj rfl
      exact { h with
        absent := by
          intro q
          by_cases hq : q = p
          · subst hq; simp
          · simp only [upd_ne _ _ hq]; exact h.absent q
        cleared := by
          intro q d' hq
          by_cases hqp : q = p
          · subst hqp; simp at hq
          · simp only [upd_ne _ _ hqp] at hq ⊢; exact h.cleared q d' hq
        live := by
          intro q d' j hq hj
          by_cases hqp : q = p
          · subst hqp; simp at hq
          · simp only [upd_ne _ _ hqp] at hq ⊢; exact h.live q d' j hq hj
        dom := by
          intro d' D hD
          have hd := h.dom d' D hD
          exact { hd with
            act := by
              intro j e he ha
              obtain ⟨g1, g2⟩ := hd.act j e he ha
              have hlt : j < D.fwd.length := by
                rw [List.getElem?_eq_some_iff] at he; exact he.1
              have hne : j ≠ CLEARED := by have := hd.len; have := h.small; omega
              simp only [upd_ne _ _ (hneq _ _ _ g1 hne)]
              exact ⟨g1, g2⟩ } }
    · simp only [hi, if_false]
      obtain ⟨D, hD, hst, hf⟩ := h.live p d i hr hi
      simp only [hD, hf, ne_eq, not_true_eq_false, if_false]
      refine ⟨_, SpecStep.remove_ok s p hna, ?_⟩
      have hdinv := h.dom d D hD
      have hdl : d < r.domains.length := by
        rw [List.getElem?_eq_some_iff] at hD; exact hD.1
      have hil : i < D.fwd.length := by
        rw [List.getElem?_eq_some_iff] at hf; exact hf.1
      generalize hD'def : ({ D with
          free := D.free.push i, fwd := D.fwd.set i ⟨0, false⟩,
          idBound := if D.idBound = i + 1 then shrink (D.fwd.set i ⟨0, false⟩) D.idBound
            else D.idBound } : Domain) = D'
      have hkey : D'.key = D.key := by rw [← hD'def]
      have hfwdeq : D'.fwd = D.fwd.set i ⟨0, false⟩ := by rw [← hD'def]
      have hlen : D'.fwd.length = D.fwd.length := by rw [hfwdeq]; simp
      have hfwd : ∀ j, D'.fwd[j]? = if j = i then some ⟨0, false⟩ else D.fwd[j]? := by
        intro j
        rw [hfwdeq, List.getElem?_set]
        by_cases h1 : i = j
        · subst h1; simp [hil]
        · have : j ≠ i := fun e => h1 e.symm
          simp [h1, this]
      have hdoms : ∀ d', (r.domains.set d D')[d']? =
          if d' = d then some D' else r.domains[d']? := by
        intro d'
        rw [List.getElem?_set]
        by_cases h1 : d = d'
        · subst h1; simp [hdl]
        · have : d' ≠ d := fun e => h1 e.symm
          simp [h1, this]
      have hpne : ∀ q d' j, r.rev q = some (d', j) → (d', j) ≠ (d, i) → q ≠ p := by
        intro q d' j hq hne e
        subst e
        rw [hr] at hq
        cases hq
        exact hne rfl
      have hb0 : D.idBound ≥ i + 1 := by
        rcases Nat.lt_or_ge i D.idBound with hlt | hge
        · omega
        · have := hdinv.hi i _ hge hf; cases this
      have hgetD : ∀ (j : Nat) (e : Entry), D'.fwd[j]? = some e →
          (D'.fwd.getD j ⟨0, false⟩) = e := by
        intro j e he; simp [List.getD_eq_getElem?_getD, he]
      have hinv : DomInv (upd r.rev p none) n d D' := {
        act := by
          intro j e he ha
          rw [hfwd] at he
          split at he
          · cases he; cases ha
          · rename_i hne
            obtain ⟨g1, g2⟩ := hdinv.act j e he ha
            rw [upd_ne _ _ (hpne _ _ _ g1 (by simp [hne]))]
            exact ⟨g1, g2⟩
        inact := by
          intro j e he ha
          rw [hfwd] at he
          split at he
          · cases he; rfl
          · exact hdinv.inact j e he ha
        free := by
          obtain ⟨S, hS, hmem⟩ := hdinv.free
          have hiS : i ∉ S := by
            rw [hmem]
            rintro ⟨e, he, ha⟩
            rw [hf] at he; cases he; cases ha
          refine ⟨sinsert i S, ?_, ?_⟩
          · have := rep_push hS i hiS (by
              have := hdinv.len; have := h.small; simp [CLEARED] at this; omega)
            rw [← hD'def]; exact this
          · intro j
            rw [mem_sinsert, hmem j]
            simp only [hfwd]
            by_cases hj : j = i
            · simp [hj]
            · simp [hj]
        hi := by
          intro j e hj he
          rw [hfwd] at he
          by_cases hji : j = i
          · rw [if_pos hji] at he; cases he; rfl
          · rw [if_neg hji] at he
            rw [← hD'def] at hj
            simp only at hj
            split at hj
            · rcases Nat.lt_or_ge j D.idBound with hlt | hge
              · have hz := shrink_hi _ _ _ hj hlt
                have hset : (D.fwd.set i (⟨0, false⟩ : Entry))[j]? = some e := by
                  rw [List.getElem?_set, if_neg (fun e => hji e.symm)]; exact he
                rw [List.getD_eq_getElem?_getD, hset] at hz
                simp at hz
                cases ha : e.active with
                | false => rfl
                | true => exact absurd hz (hdinv.act j e he ha).2
              · exact hdinv.hi j e hge he
            · exact hdinv.hi j e hj he
        top := by
          intro hb
          rw [← hD'def] at hb
          simp only at hb
          by_cases hc : D.idBound = i + 1
          · rw [if_pos hc] at hb
            have hz := shrink_top _ _ hb
            have hle := shrink_le (D.fwd.set i ⟨0, false⟩) D.idBound
            have hbe : D'.idBound = shrink (D.fwd.set i ⟨0, false⟩) D.idBound := by
              rw [← hD'def]; simp only [if_pos hc]
            rw [hbe]
            generalize hbb : shrink (D.fwd.set i ⟨0, false⟩) D.idBound = b at *
            have hlt : b - 1 < (D.fwd.set i (⟨0, false⟩ : Entry)).length := by
              simp; omega
            rw [hfwdeq]
            refine ⟨_, List.getElem?_eq_getElem hlt, ?_⟩
            rw [List.getD_eq_getElem?_getD, List.getElem?_eq_getElem hlt] at hz
            simp only [Option.getD_some] at hz
            generalize he : (D.fwd.set i (⟨0, false⟩ : Entry))[b - 1] = e at *
            cases ha : e.active with
            | true => rfl
            | false =>
              exfalso
              have hge : D'.fwd[b - 1]? = some e := by
                rw [hfwdeq, List.getElem?_eq_getElem hlt, he]
              rw [hfwd] at hge
              split at hge
              · cases hge; exact hz rfl
              · exact hz (hdinv.inact _ e hge ha)
          · have hbe : D'.idBound = D.idBound := by
              rw [← hD'def]; simp only [if_neg hc]
            rw [hbe]
            obtain ⟨e, he, ha⟩ := hdinv.top (by omega)
            refine ⟨e, ?_, ha⟩
            rw [hfwd, if_neg (by omega)]
            exact he
        len := by rw [hlen]; exact hdinv.len }
      exact {
        ids := by
          intro k' d' hk
          obtain ⟨D2, g1, g2⟩ := h.ids k' d' hk
          simp only [hdoms]
          split
          · rename_i e
            rw [e, hD] at g1; cases g1
            exact ⟨D', rfl, by rw [hkey]; exact g2⟩
          · exact ⟨D2, g1, g2⟩
        keys := by
          intro d' D2 hd2
          simp only [hdoms] at hd2
          split at hd2
          · cases hd2
            rename_i e
            rw [hkey, e]; exact h.keys d D hD
          · exact h.keys d' D2 hd2
        absent := by
          intro q
          by_cases hq : q = p
          · subst hq; simp
          · simp only [upd_ne _ _ hq]; exact h.absent q
        cleared := by
          intro q d' hq
          by_cases hqp : q = p
          · subst hqp; simp at hq
          · simp only [upd_ne _ _ hqp] at hq ⊢; exact h.cleared q d' hq
        live := by
          intro q d' j hq hj
          by_cases hqp : q = p
          · subst hqp; simp at hq
          · simp only [upd_ne _ _ hqp] at hq ⊢
            obtain ⟨D2, g1, g2, g3⟩ := h.live q d' j hq hj
            simp only [hdoms]
            split
            · rename_i e
              rw [e, hD] at g1; cases g1
              refine ⟨D', rfl, by rw [hkey]; exact g2, ?_⟩
              rw [hfwd, if_neg]
              · exact g3
              · intro e
                subst e
                rw [hf] at g3; cases g3; exact hqp rfl
            · exact ⟨D2, g1, g2, g3⟩
        dom := by
          intro d' D2 hd2
          simp only [hdoms] at hd2
          split at hd2
          · rename_i e
            cases hd2; rw [e]; exact hinv
          · rename_i hne
            have := h.dom d' D2 hd2
            exact { this with
              act := by
                intro j e he ha
                obtain ⟨g1, g2⟩ := this.act j e he ha
                simp only [upd_ne _ _ (hpne _ _ _ g1 (by simp [hne]))]
                exact ⟨g1, g2⟩ }
        known := h.known
        high := by
          intro k'
          have hh := h.high k'
          simp only at hh ⊢
          rw [hh]
          cases hd' : r.domainIds k' with
          | none => rfl
          | some d' =>
            simp only [hdoms]
            by_cases e : d' = d
            · subst e; simp only [hD, if_true, hlen]
            · simp only [e, if_false]
        small := h.small }

theorem sim_clear {n : Nat} {r : Registry} {s : Spec} (h : Sim n r s) :
    ∃ s', SpecStep s .clear (.ok 0) s' ∧ Sim n r.clear s' := by
  refine ⟨_, SpecStep.clear s, ?_⟩
  have hdoms : ∀ (d : Nat) (D' : Domain), r.clear.domains[d]? = some D' → ∃ D, r.domains[d]? = some D ∧
      D' = { D with fwd := [], free := {}, idBound := 0 } := by
    intro d D' hd
    simp only [Registry.clear, List.getElem?_map, Option.map_eq_some_iff] at hd
    obtain ⟨D, h1, h2⟩ := hd
    exact ⟨D, h1, h2.symm⟩
  have hrev : ∀ p, r.clear.rev p = none ↔ r.rev p = none := by
    intro p; simp [Registry.clear]
  exact {
    ids := by
      intro k d hk
      obtain ⟨D, h1, h2⟩ := h.ids k d hk
      exact ⟨{ key := D.key }, by simp [Registry.clear, h1], h2⟩
    keys := by
      intro d D' hd
      obtain ⟨D, h1, rfl⟩ := hdoms d D' hd
      exact h.keys d D h1
    absent := by
      intro p
      rw [hrev, h.absent p]
      simp only
      cases s.st p <;> simp
    cleared := by
      intro p d hp
      have hna : s.st p ≠ .absent := by
        intro e
        rw [← h.absent, ← hrev] at e
        rw [e] at hp; cases hp
      revert hna
      simp only
      cases s.st p <;> simp
    live := by
      intro p d i hp hi
      simp only [Registry.clear, Option.map_eq_some_iff] at hp
      obtain ⟨a, h1, h2⟩ := hp
      cases h2
      exact absurd rfl hi
    dom := by
      intro d D' hd
      obtain ⟨D, h1, rfl⟩ := hdoms d D' hd
      exact {
        act := by intro i e he; simp at he
        inact := by intro i e he; simp at he
        free := ⟨[], rep_init, by simp⟩
        hi := by intro i e _ he; simp at he
        top := by simp
        len := by simp }
    known := h.known
    high := by
      intro k
      simp only
      cases hd : r.clear.domainIds k with
      | none => rfl
      | some d =>
        simp only
        cases hD : r.clear.domains[d]? with
        | none => rfl
        | some D' =>
          obtain ⟨D, h1, rfl⟩ := hdoms d D' hD
          rfl
    small := h.small }

/-- Calls considered by the main theorem: instances are not null; `shutdown` is treated
separately. -/
def Op.legal : Op → Bool
  | .put _ p => p != 0
  | .shutdown => false
  | _ => true

theorem sim_run (ops : List Op) : ∀ {n : Nat} {r : Registry} {s : Spec}, Sim n r s → n + ops.length ≤ CLEARED →
    (∀ o ∈ ops, o.legal = true) →
    ∃ s', SpecRun s ops (r.run ops).1 s' ∧ Sim (n + ops.length) (r.run ops).2 s' := by
  induction ops with
  | nil => intro n r s h _ _; exact ⟨s, SpecRun.nil s, h⟩
  | cons o os ih =>
    intro n r s h hn hleg
    simp only [List.length_cons] at hn
    have hstep : ∃ s', SpecStep s o (r.step o).1 s' ∧ Sim (n + 1) (r.step o).2 s' := by
      cases o with
      | put k p =>
        have : p ≠ 0 := by simpa [Op.legal] using hleg (.put k p) (by simp)
        exact sim_put h (by omega) k p this
      | remove p =>
        obtain ⟨s', a, b⟩ := sim_remove h p
        exact ⟨s', a, b.mono (by omega) (by omega)⟩
      | clear =>
        obtain ⟨s', a, b⟩ := sim_clear h
        exact ⟨s', a, b.mono (by omega) (by omega)⟩
      | shutdown => exact absurd (hleg .shutdown (by simp)) (by simp [Op.legal])
    obtain ⟨s1, h1, h2⟩ := hstep
    obtain ⟨s2, h3, h4⟩ := ih h2 (by omega) (fun o ho => hleg o (by simp [ho]))
    refine ⟨s2, SpecRun.cons h1 h3, ?_⟩
    have e : n + (o :: os).length = n + 1 + os.length := by simp; omega
    rw [e]; exact h4

theorem live_preserved {s : Spec} {ops : List Op} {rs : List (Res Nat)} {s' : Spec}
    (h : SpecRun s ops rs s') (p : Nat) (k : Key) (i : Nat) (h1 : Op.remove p ∉ ops)
    (h2 : Op.clear ∉ ops) (hs : s.st p = .live k i) : s'.st p = .live k i := by
  induction h with
  | nil => exact hs
  | cons hstep _ ih =>
    apply ih (fun hm => h1 (by simp [hm])) (fun hm => h2 (by simp [hm]))
    cases hstep with
    | put_new k' q id ha _ =>
      have : p ≠ q := by intro e; subst e; rw [hs] at ha; cases ha
      simp only [upd_ne _ _ this]; exact hs
    | put_dup => exact hs
    | remove_absent => exact hs
    | remove_ok q _ =>
      have : p ≠ q := by intro e; subst e; exact h1 (by simp)
      simp only [upd_ne _ _ this]; exact hs
    | clear => exact absurd (by simp) h2

theorem run_append (r : Registry) (a b : List Op) :
    (r.run (a ++ b)).2 = ((r.run a).2.run b).2 := by
  induction a generalizing r with
  | nil => rfl
  | cons o os ih => simp only [List.cons_append, Registry.run]; exact ih _

end Verif.Registry
