import Verif.Var.Lemmas
/-!
# Creation of variables preserves the invariant
-/
namespace Verif.Var
open Verif.FreeSlots (FreeSlots Rep sinsert mem_sinsert rep_push rep_pop)

variable {s s' : Store} {U U' : List Nat} {ext extSe base : Nat → Nat} {P : List Nat}

/-- The invariant only depends on the variables in use. -/
theorem Inv.transport (h : Inv s U ext extSe P) (hrep : Rep s'.unused U')
    (hU : ∀ u, u ∈ U' ↔ u ∈ U) (hlen : s'.len = s.len)
    (hv : ∀ k, Alive s U k → s'.vars k = s.vars k)
    (hd : ∀ k, ¬ Alive s U k → (s'.vars k).refCount = 0 ∧ (s'.vars k).refCountSe = 0)
    (hlvn : s'.lvn = s.lvn) (hvc : s'.variableCounter = s.variableCounter)
    (hf : s'.freed = s.freed) (ha : s'.acquired = s.acquired) : Inv s' U' ext extSe P := by
  have hal : ∀ k, Alive s U k ↔ Alive s' U' k := by
    intro k; unfold Alive; rw [hlen, hU]
  have hsum := refSum_congr hlen hal (fun j hj => by rw [hv j hj])
  have hsumSe := refSumSe_congr hlen hal (fun j hj => by rw [hv j hj])
  have hown := owned_congr hlen hal (fun j hj p => by rw [hv j hj])
  refine ⟨hrep, ?_, ?_, ?_, ?_, ?_, ?_, ?_, ?_, h.nodup, ?_, ?_, ?_⟩
  · intro u hu; rw [hlen]; exact h.ub u ((hU u).1 hu)
  · rw [hlen]; exact h.len
  · intro k hk
    have hk' : ¬ Alive s U k := fun e => hk ((hal k).1 e)
    obtain ⟨a1, a2⟩ := hd k hk'
    obtain ⟨_, _, b3, b4⟩ := h.dead k hk'
    exact ⟨a1, a2, b3, b4⟩
  · intro j hj d hdm hd0
    have hj' := (hal j).2 hj
    rw [hv j hj'] at hdm ⊢
    obtain ⟨a1, a2⟩ := h.deps j hj' d hdm hd0
    rw [hv d a1]
    exact ⟨(hal d).1 a1, a2⟩
  · intro k hk
    have hk' := (hal k).2 hk
    rw [hv k hk', hvc]; exact h.uids k hk'
  · intro k hk
    have hk' := (hal k).2 hk
    rw [hv k hk', hsum]; exact h.rc k hk'
  · intro k hk
    have hk' := (hal k).2 hk
    rw [hv k hk', hsumSe]; exact h.rcSe k hk'
  · intro k
    rw [h.pend k, ← hal k]
    constructor
    · rintro ⟨a, b⟩; rw [hv k a]; exact ⟨a, b⟩
    · rintro ⟨a, b⟩; rw [hv k a] at b; exact ⟨a, b⟩
  · intro k j hm
    rw [hlvn] at hm
    obtain ⟨a1, a2, a3⟩ := h.lvn k j hm
    rw [hv j a1]
    exact ⟨(hal j).1 a1, a2, a3⟩
  · rw [hlvn]; exact h.lvnKeys
  · intro p; rw [hown, hf, ha]; exact h.bal p

theorem refSum_dead (h : Inv s U ext extSe P) {d : Nat} (hd0 : d ≠ 0) (hd : ¬ Alive s U d) :
    refSum s U d = 0 := by
  unfold refSum
  refine Finset.sum_eq_zero (fun j _ => ?_)
  by_cases hj : Alive s U j
  · rw [if_pos hj]
    exact List.count_eq_zero_of_not_mem
      (fun hm => hd (h.deps j hj d (List.mem_append_left _ hm) hd0).1)
  · rw [if_neg hj]

theorem refSumSe_dead (h : Inv s U ext extSe P) {d : Nat} (hd0 : d ≠ 0) (hd : ¬ Alive s U d) :
    refSumSe s U d = 0 := by
  unfold refSumSe
  refine Finset.sum_eq_zero (fun j _ => ?_)
  by_cases hj : Alive s U j
  · rw [if_pos hj]
    exact List.count_eq_zero_of_not_mem
      (fun hm => hd (h.deps j hj d (List.mem_append_right _ hm) hd0).1)
  · rw [if_neg hj]

/-- A sum over the variables in use, after adding one. -/
theorem sum_add {j : Nat} (f : Var → Nat) (hj0 : ¬ Alive s U j)
    (hj : s'.len = s.len ∧ j < s.len ∨ s'.len = s.len + 1 ∧ j = s.len)
    (hal : ∀ k, Alive s' U' k ↔ (Alive s U k ∨ k = j))
    (hv : ∀ k, k ≠ j → s'.vars k = s.vars k) :
    (∑ k ∈ Finset.range s'.len, if Alive s' U' k then f (s'.vars k) else 0) =
      (∑ k ∈ Finset.range s.len, if Alive s U k then f (s.vars k) else 0) + f (s'.vars j) := by
  have hne : ∀ k, k ≠ j → (if Alive s' U' k then f (s'.vars k) else 0) =
      (if Alive s U k then f (s.vars k) else 0) := by
    intro k hk
    have : Alive s' U' k ↔ Alive s U k := by rw [hal]; simp [hk]
    simp only [this, hv k hk]
  have hjj : Alive s' U' j := (hal j).2 (.inr rfl)
  rcases hj with ⟨hl, hjl⟩ | ⟨hl, hjl⟩
  · rw [hl]
    have := sum_point s.len j (fun k => if Alive s' U' k then f (s'.vars k) else 0)
      (fun k => if Alive s U k then f (s.vars k) else 0) hjl hne
    simp only [if_pos hjj, if_neg hj0] at this
    omega
  · rw [hl, Finset.sum_range_succ]
    have e : (∑ k ∈ Finset.range s.len, if Alive s' U' k then f (s'.vars k) else 0) =
        (∑ k ∈ Finset.range s.len, if Alive s U k then f (s.vars k) else 0) :=
      Finset.sum_congr rfl (fun k hk => hne k (by
        have := Finset.mem_range.1 hk; omega))
    rw [e, ← hjl, if_pos hjj]

/-- Insertion of a new variable `w` into the slot `j`. -/
theorem Inv.insert {w : Var} {j : Nat}
    (h : Inv s U (plus ext w.refs) (plus extSe w.refsSe) [])
    (hj0 : j ≠ 0) (hjd : ¬ Alive s U j)
    (hj : s'.len = s.len ∧ j < s.len ∨ s'.len = s.len + 1 ∧ j = s.len) (h32 : s'.len ≤ 2 ^ 32)
    (hal : ∀ k, Alive s' U' k ↔ (Alive s U k ∨ k = j))
    (hv : ∀ k, k ≠ j → s'.vars k = s.vars k) (hw : s'.vars j = w)
    (hwr : w.refCount = 1) (hws : w.refCountSe = 0) (hwu : w.uid = s.variableCounter)
    (hrep : Rep s'.unused U') (hub : ∀ u ∈ U', u ≠ 0 ∧ u < s'.len)
    (hvc : s'.variableCounter = s.variableCounter + 1)
    (hf : s'.freed = s.freed)
    (ha : ∀ p, s'.acquired.count p = s.acquired.count p + if w.owns p then 1 else 0)
    (hlvn : s'.lvn = s.lvn ∨ (s'.lvn = (w.key, j) :: s.lvn ∧ s.lvn.lookup w.key = none ∧
      w.kind ≠ .evaluated)) :
    Inv s' U' (plus ext [j]) extSe [] := by
  have hsum : ∀ k, refSum s' U' k = refSum s U k + w.refs.count k := by
    intro k
    have := sum_add (fun v => v.refs.count k) hjd hj hal hv
    rw [hw] at this; exact this
  have hsumSe : ∀ k, refSumSe s' U' k = refSumSe s U k + w.refsSe.count k := by
    intro k
    have := sum_add (fun v => v.refsSe.count k) hjd hj hal hv
    rw [hw] at this; exact this
  have hown : ∀ p, owned s' U' p = owned s U p + if w.owns p then 1 else 0 := by
    intro p
    have := sum_add (fun v => if v.owns p = true then 1 else 0) hjd hj hal hv
    rw [hw] at this
    simp only [← ite_and] at this
    exact this
  have hne : ∀ k, Alive s U k → k ≠ j := fun k hk e => hjd (e ▸ hk)
  have hdj := h.dead j hjd
  have hcj : w.refs.count j = 0 ∧ ext j = 0 := by
    have := hdj.2.2.1; unfold plus at this; rw [if_neg hj0] at this; omega
  have hcjs : w.refsSe.count j = 0 ∧ extSe j = 0 := by
    have := hdj.2.2.2; unfold plus at this; rw [if_neg hj0] at this; omega
  refine ⟨hrep, hub, ⟨by have := h.len.1; omega, h32⟩, ?_, ?_, ?_, ?_, ?_, ?_, List.nodup_nil,
    ?_, ?_, ?_⟩
  · intro k hk
    rw [hal, not_or] at hk
    rw [hv k hk.2, plus_ne hk.2]
    obtain ⟨a1, a2, a3, a4⟩ := h.dead k hk.1
    unfold plus at a3 a4
    exact ⟨a1, a2, by omega, by omega⟩
  · intro i hi d hd hd0
    rcases (hal i).1 hi with hi | rfl
    · rw [hv i (hne i hi)] at hd ⊢
      obtain ⟨a1, a2⟩ := h.deps i hi d hd hd0
      rw [hv d (hne d a1)]
      exact ⟨(hal d).2 (.inl a1), a2⟩
    · rw [hw] at hd ⊢
      have hda : Alive s U d := by
        rcases List.mem_append.1 hd with hd | hd
        · exact h.alive_of_ext (plus_apply_pos hd0 hd)
        · exact h.alive_of_extSe (plus_apply_pos hd0 hd)
      rw [hv d (hne d hda), hwu]
      exact ⟨(hal d).2 (.inl hda), h.uids d hda⟩
  · intro k hk
    rcases (hal k).1 hk with hk | rfl
    · rw [hv k (hne k hk), hvc]
      have := h.uids k hk
      omega
    · rw [hw, hvc, hwu]; omega
  · intro k hk
    rw [hsum]
    rcases (hal k).1 hk with hk | rfl
    · rw [hv k (hne k hk), h.rc k hk, plus_ne (hne k hk)]
      unfold plus
      rw [if_neg hk.1]
      omega
    · rw [hw, hwr, plus_self hj0, refSum_dead h hj0 hjd]
      omega
  · intro k hk
    rw [hsumSe]
    rcases (hal k).1 hk with hk | rfl
    · rw [hv k (hne k hk), h.rcSe k hk]
      unfold plus
      rw [if_neg hk.1]
      omega
    · rw [hw, hws, refSumSe_dead h hj0 hjd]
      omega
  · intro k
    refine ⟨fun hm => absurd hm List.not_mem_nil, ?_⟩
    rintro ⟨hk, hz⟩
    exfalso
    rcases (hal k).1 hk with hk | rfl
    · rw [hv k (hne k hk)] at hz
      exact h.counts_pos hk hz
    · rw [hw] at hz; omega
  · intro k i hm
    have old : (k, i) ∈ s.lvn → Alive s' U' i ∧ (s'.vars i).key = k ∧
        (s'.vars i).kind ≠ .evaluated := by
      intro hm
      obtain ⟨a1, a2, a3⟩ := h.lvn k i hm
      rw [hv i (hne i a1)]
      exact ⟨(hal i).2 (.inl a1), a2, a3⟩
    rcases hlvn with e | ⟨e, _, hk⟩
    · rw [e] at hm; exact old hm
    · rw [e] at hm
      rcases List.mem_cons.1 hm with e' | hm
      · cases e'
        rw [hw]
        exact ⟨(hal j).2 (.inr rfl), rfl, hk⟩
      · exact old hm
  · rcases hlvn with e | ⟨e, hk, _⟩
    · rw [e]; exact h.lvnKeys
    · rw [e, List.map_cons, List.nodup_cons]
      exact ⟨lookup_none hk, h.lvnKeys⟩
  · intro p
    rw [hown, hf, ha, ← h.bal p]
    omega

/-- Frame of an insertion. -/
theorem Frame.insert {j : Nat} (henv : s'.env = s.env) (hscope : s'.scope = s.scope)
    (hjd : ¬ Alive s U j) (hdep : ∀ k, Alive s U k → ∀ d ∈ (s.vars k).refs, d ≠ 0 → Alive s U d)
    (hj : s'.len = s.len ∧ j < s.len ∨ s'.len = s.len + 1 ∧ j = s.len)
    (hal : ∀ k, Alive s' U' k ↔ (Alive s U k ∨ k = j))
    (hv : ∀ k, k ≠ j → s'.vars k = s.vars k)
    (hwu : (s'.vars j).uid = s.variableCounter)
    (hcnt : j < s.len → (s'.vars j).counter = (s.vars j).counter)
    (hvc : s'.variableCounter = s.variableCounter + 1) : Frame base s U s' U' where
  env := henv
  scope := hscope
  vc := by omega
  len := by omega
  keep := by
    intro k hk hu
    have hkj : k ≠ j := fun e => by rw [e, hwu] at hu; omega
    rcases (hal k).1 hk with hk | hk
    · rw [hv k hkj]; exact ⟨hk, rfl, fun _ => rfl⟩
    · exact absurd hk hkj
  ops := by
    intro k hk hu d hd h0
    have hkj : k ≠ j := fun e => by rw [e, hwu] at hu; omega
    rcases (hal k).1 hk with hk | hk
    · rw [hv d (fun e => hjd (e ▸ hdep k hk d hd h0))]
    · exact absurd hk hkj
  stay := by
    intro k _ hk
    have hkj : k ≠ j := fun e => hjd (e ▸ hk)
    rw [hv k hkj]; exact ⟨(hal k).2 (.inl hk), rfl⟩
  cnt := by
    intro k hk
    by_cases hkj : k = j
    · subst hkj; rw [hcnt hk]
    · rw [hv k hkj]
  gone := by
    intro k hk
    have hkj : k ≠ j := fun e => hjd (e ▸ hk)
    rw [hv k hkj]; exact .inl ⟨(hal k).2 (.inl hk), rfl⟩

/-- Frame of a change of unused slots. -/
theorem Frame.transport (henv : s'.env = s.env) (hscope : s'.scope = s.scope)
    (hdep : ∀ k, Alive s U k → ∀ d ∈ (s.vars k).refs, d ≠ 0 → Alive s U d)
    (hU : ∀ u, u ∈ U' ↔ u ∈ U) (hlen : s'.len = s.len)
    (hv : ∀ k, Alive s U k → s'.vars k = s.vars k)
    (hcnt : ∀ k, k < s.len → (s'.vars k).counter = (s.vars k).counter)
    (hvc : s'.variableCounter = s.variableCounter) : Frame base s U s' U' := by
  have hal : ∀ k, Alive s' U' k ↔ Alive s U k := by
    intro k; unfold Alive; rw [hlen, hU]
  refine ⟨henv, hscope, by omega, by omega, ?_, ?_, ?_, ?_, ?_⟩
  · intro k hk _
    rw [hv k ((hal k).1 hk)]; exact ⟨(hal k).1 hk, rfl, fun _ => rfl⟩
  · intro k hk _ d hd h0
    rw [hv d (hdep k ((hal k).1 hk) d hd h0)]
  · intro k _ hk
    rw [hv k hk]; exact ⟨(hal k).2 hk, rfl⟩
  · intro k hk; rw [hcnt k hk]
  · intro k hk; rw [hv k hk]; exact .inl ⟨(hal k).2 hk, rfl⟩

/-- Result of `jitc_var_new()`: either an existing variable with the same key, or a new one. -/
def NewResult (v : Var) (disableLvn : Bool) (s : Store) (r : Nat) (s' : Store) : Prop :=
  (useLvn s v disableLvn = true ∧ s.lvn.lookup (v.placed s).key = some r ∧
    (s'.vars r).uid < s.variableCounter ∧ s'.variableCounter = s.variableCounter ∧
    ∀ k, (s.vars k).refCount ≠ 0 ∨ (s.vars k).refCountSe ≠ 0 →
      (s'.vars k).size = (s.vars k).size) ∨
  ((useLvn s v disableLvn = true → s.lvn.lookup (v.placed s).key = none) ∧
    s'.vars r = { v.placed s with refCount := 1, uid := s.variableCounter,
                                  counter := (s'.vars r).counter } ∧
    s'.variableCounter = s.variableCounter + 1 ∧
    (s.vars r).refCount = 0 ∧ (s.vars r).refCountSe = 0 ∧ ∀ k, k ≠ r → s'.vars k = s.vars k)

/-- Only reference counts differ. -/
structure Recount (s s' : Store) : Prop where
  len : s'.len = s.len
  lvn : s'.lvn = s.lvn
  env : s'.env = s.env
  scope : s'.scope = s.scope
  vc : s'.variableCounter = s.variableCounter
  vars : ∀ k, ∃ a b, s'.vars k = { s.vars k with refCount := a, refCountSe := b }

theorem Recount.refl : Recount s s := ⟨rfl, rfl, rfl, rfl, rfl, fun _ => ⟨_, _, rfl⟩⟩

theorem Recount.trans {s'' : Store} (h1 : Recount s s') (h2 : Recount s' s'') :
    Recount s s'' := by
  refine ⟨h2.len.trans h1.len, h2.lvn.trans h1.lvn, h2.env.trans h1.env,
    h2.scope.trans h1.scope, h2.vc.trans h1.vc, fun k => ?_⟩
  obtain ⟨a, b, e⟩ := h1.vars k
  obtain ⟨a', b', e'⟩ := h2.vars k
  exact ⟨a', b', by rw [e', e]⟩

theorem Recount.set {i a b : Nat} :
    Recount s (s.set i { s.vars i with refCount := a, refCountSe := b }) := by
  refine ⟨rfl, rfl, rfl, rfl, rfl, fun k => ?_⟩
  by_cases hk : k = i
  · subst hk; exact ⟨a, b, by rw [set_self]⟩
  · exact ⟨_, _, by rw [set_ne _ _ hk]⟩

theorem Recount.refs (h : Recount s s') (k : Nat) :
    (s'.vars k).refs = (s.vars k).refs ∧ (s'.vars k).refsSe = (s.vars k).refsSe := by
  obtain ⟨a, b, e⟩ := h.vars k
  rw [e]; exact ⟨rfl, rfl⟩

theorem Recount.alive (h : Recount s s') (k : Nat) : Alive s U k ↔ Alive s' U k := by
  unfold Alive; rw [h.len]

theorem Recount.frame (h : Recount s s') : Frame base s U s' U := by
  refine ⟨h.env, h.scope, by rw [h.vc], by rw [h.len], ?_, ?_, ?_, ?_, ?_⟩
  · intro k hk _
    obtain ⟨a, b, e⟩ := h.vars k
    rw [e]
    exact ⟨(h.alive k).2 hk, rfl, fun _ => rfl⟩
  · intro _ _ _ d _ _
    obtain ⟨a, b, e⟩ := h.vars d
    rw [e]
  · intro k _ hk
    obtain ⟨a, b, e⟩ := h.vars k
    rw [e]
    exact ⟨(h.alive k).1 hk, rfl⟩
  · intro k _
    obtain ⟨a, b, e⟩ := h.vars k
    rw [e]
  · intro k hk
    obtain ⟨a, b, e⟩ := h.vars k
    rw [e]
    exact .inl ⟨(h.alive k).1 hk, rfl⟩

/-- Releasing references to the dependencies of an existing variable `j` does not free
anything. -/
theorem decRefs_shared {j : Nat} (hj : Alive s U j) {d0 d1 d2 d3 : Nat}
    (hr : (s.vars j).refs = [d0, d1, d2, d3])
    (h : Inv s U (plus ext [d0, d1, d2, d3]) extSe []) {R : Store → Prop} {T : Stop → Prop} :
    wp (do decRef d0; decRef d1; decRef d2; decRef d3) s
      (fun _ s' => Inv s' U ext extSe [] ∧ Recount s s') R T := by
  rw [plus4] at h
  have pos : ∀ {t : Store}, Recount s t → ∀ d, d ∈ [d0, d1, d2, d3] → d = 0 ∨ 0 < refSum t U d := by
    intro t ht d hd
    by_cases h0 : d = 0
    · exact .inl h0
    · right
      refine refSum_pos ((ht.alive j).1 hj) ?_
      rw [(ht.refs j).1, hr]; exact hd
  have step : ∀ {t u : Store} {d : Nat}, Recount s t →
      (u = t ∨ u = t.set d { t.vars d with refCount := (t.vars d).refCount - 1 }) → Recount s u := by
    intro t u d ht hu
    rcases hu with rfl | rfl
    · exact ht
    · exact ht.trans Recount.set
  simp only [wp_bind]
  refine wp_post (decRef_shared h (pos Recount.refl _ (by simp))) ?_
  rintro _ s1 ⟨a1, a2⟩
  have r1 := step Recount.refl a2
  refine wp_post (decRef_shared a1 (pos r1 _ (by simp))) ?_
  rintro _ s2 ⟨b1, b2⟩
  have r2 := step r1 b2
  refine wp_post (decRef_shared b1 (pos r2 _ (by simp))) ?_
  rintro _ s3 ⟨c1, c2⟩
  have r3 := step r2 c2
  refine wp_post (decRef_shared c1 (pos r3 _ (by simp))) ?_
  rintro _ s4 ⟨e1, e2⟩
  exact ⟨e1, step r3 e2⟩

theorem key_refs {v w : Var} (h : v.key = w.key) : v.refs = w.refs ∧ v.refsSe = w.refsSe ∧
    v.writePtr = w.writePtr := by
  have hw : v.writePtr = w.writePtr := congrArg Key.writePtr h
  have h0 : v.d0 = w.d0 := congrArg Key.d0 h
  have h1 : v.d1 = w.d1 := congrArg Key.d1 h
  have h2 : v.d2 = w.d2 := congrArg Key.d2 h
  have h3 : v.d3 = w.d3 := congrArg Key.d3 h
  unfold Var.refs Var.refsSe
  rw [hw, h0, h1, h2, h3]
  exact ⟨rfl, rfl, rfl⟩

/-- What `jitc_var_new()` achieves after the slot has been chosen: `s1` is the store after
`allocSlot`, in which the slot `j` is unused. -/
theorem varNew_tail {v : Var} {dl : Bool} (hc : v.refCount = 0) (hcs : v.refCountSe = 0)
    (h : Inv s U (plus ext v.refs) (plus extSe v.refsSe) [])
    {s1 : Store} {j : Nat} {fu : Bool} {U1 : List Nat}
    (hj0 : j ≠ 0) (hjd : ¬ Alive s U j)
    (hj : s1.len = s.len ∧ j < s.len ∧ fu = true ∨ s1.len = s.len + 1 ∧ j = s.len ∧ fu = false)
    (h32 : s1.len ≤ 2 ^ 32)
    (hal : ∀ k, Alive s1 U1 k ↔ (Alive s U k ∨ k = j))
    (hv : ∀ k, k ≠ j → s1.vars k = s.vars k)
    (hcnt : j < s.len → s1.vars j = s.vars j)
    (hrep : Rep s1.unused U1) (hub : ∀ u ∈ U1, u ≠ 0 ∧ u < s1.len)
    (hback : Rep (if fu then s1.unused.push j else s1.unused) U)
    (hlvn : s1.lvn = s.lvn) (hvc : s1.variableCounter = s.variableCounter)
    (henv : s1.env = s.env) (hscope : s1.scope = s.scope) (hf : s1.freed = s.freed)
    (ha : s1.acquired = s.acquired) {R : Store → Prop} :
    wp (do
      modifyStore (fun t => t.write j (v.placed s))
      match (if useLvn s v dl then s1.lvn.lookup (v.placed s).key else none) with
      | some i => do
        unallocSlot j fu
        dropRefs (v.placed s)
        incRefV i
        pure i
      | none => do
        modifyStore (fun s' => s'.newEntry j (v.placed s) (useLvn s v dl))
        incRefV j
        pure j) s1
      (fun r s' => ∃ U', Inv s' U' (plus ext [r]) extSe [] ∧ Frame ext s U s' U' ∧
        Alive s' U' r ∧ (s'.vars r).key = (v.placed s).key ∧ NewResult v dl s r s') R
      (· = .limit) := by
  rw [wp_bind, wp_modifyStore, hlvn]
  have hwr : s1.write j (v.placed s) = s1.set j
      { v.placed s with counter := (s1.vars j).counter, uid := s.variableCounter } := by
    unfold Store.write; rw [hvc]
  rw [hwr]
  clear hwr
  cases hlk : (if useLvn s v dl then s.lvn.lookup (v.placed s).key else none) with
  | some i =>
    have hu : useLvn s v dl = true := by
      by_contra hu; rw [if_neg hu] at hlk; cases hlk
    rw [if_pos hu] at hlk
    obtain ⟨hi, hik, hiev⟩ := h.lvn _ _ (lookup_mem hlk)
    obtain ⟨kr, krs, kw⟩ := key_refs hik
    have hij : i ≠ j := fun e => hjd (e ▸ hi)
    dsimp only
    rw [wp_bind]
    unfold unallocSlot
    rw [wp_modifyStore]
    generalize hs1w : s1.set j
      { v.placed s with counter := (s1.vars j).counter, uid := s.variableCounter } = s1w
    generalize hs2 : (if fu = true then ({ s1w with unused := s1w.unused.push j } : Store)
      else { s1w with len := s1w.len - 1 }) = s2
    subst hs1w
    have e_vars : ∀ k, s2.vars k = if k = j then
        { v.placed s with counter := (s1.vars j).counter, uid := s.variableCounter }
        else s1.vars k := by
      intro k; subst hs2; split <;> rfl
    have e_len : s2.len = s.len := by
      subst hs2
      rcases hj with ⟨a, _, rfl⟩ | ⟨a, _, rfl⟩
      · exact a
      · change s1.len - 1 = s.len; omega
    have e_un : Rep s2.unused U := by
      subst hs2
      cases fu <;> exact hback
    have e_lvn : s2.lvn = s.lvn := by subst hs2; split <;> exact hlvn
    have e_vc : s2.variableCounter = s.variableCounter := by subst hs2; split <;> exact hvc
    have e_env : s2.env = s.env := by subst hs2; split <;> exact henv
    have e_sc : s2.scope = s.scope := by subst hs2; split <;> exact hscope
    have e_f : s2.freed = s.freed := by subst hs2; split <;> exact hf
    have e_a : s2.acquired = s.acquired := by subst hs2; split <;> exact ha
    clear hs2
    have e_al : ∀ k, Alive s U k → s2.vars k = s.vars k := by
      intro k hk
      have hkj : k ≠ j := fun e => hjd (e ▸ hk)
      rw [e_vars, if_neg hkj, hv k hkj]
    have h2 : Inv s2 U (plus ext v.refs) (plus extSe v.refsSe) [] := by
      refine h.transport e_un (fun _ => Iff.rfl) e_len e_al ?_ e_lvn e_vc e_f e_a
      intro k hk
      rw [e_vars]
      split
      · exact ⟨hc, hcs⟩
      · rename_i hkj; rw [hv k hkj]
        exact ⟨(h.dead k hk).1, (h.dead k hk).2.1⟩
    have f2 : Frame ext s U s2 U := by
      refine Frame.transport e_env e_sc
        (fun k hk d hd h0 => (h.deps k hk d (List.mem_append_left _ hd) h0).1) (fun _ => Iff.rfl) e_len e_al ?_ e_vc
      intro k hk
      rw [e_vars]
      split
      · subst k; dsimp only; rw [hcnt hk]
      · rename_i hkj; rw [hv k hkj]
    have hi2 : Alive s2 U i := by unfold Alive; rw [e_len]; exact hi
    have hv2 : s2.vars i = s.vars i := e_al i hi
    -- release the references
    have dec : wp (dropRefs (v.placed s)) s2 (fun _ s' => Inv s' U ext extSe [] ∧ Recount s2 s')
        R (· = .limit) := by
      change wp (if v.writePtr then decRefSe v.d3
        else do
          decRef v.d0
          decRef v.d1
          decRef v.d2
          decRef v.d3) s2 _ R (· = .limit)
      by_cases hw : v.writePtr
      · rw [if_pos hw]
        have e1 : v.refs = [] := by simp [Var.refs, hw]
        have e2 : v.refsSe = [v.d3] := by simp [Var.refsSe, hw]
        rw [e1, e2, plus_nil] at h2
        have : v.d3 = 0 ∨ 0 < refSumSe s2 U v.d3 := by
          right
          refine refSumSe_pos hi2 ?_
          rw [hv2, krs]
          have : (v.placed s).refsSe = v.refsSe := rfl
          rw [this, e2]; simp
        refine wp_post (decRefSe_shared h2 this) ?_
        rintro _ t ⟨a1, a2⟩
        refine ⟨a1, ?_⟩
        rcases a2 with rfl | rfl
        · exact Recount.refl
        · exact Recount.set
      · rw [if_neg hw]
        have hw' : v.writePtr = false := by simpa using hw
        have e1 : v.refs = [v.d0, v.d1, v.d2, v.d3] := by simp [Var.refs, hw']
        have e2 : v.refsSe = [] := by simp [Var.refsSe, hw']
        rw [e1, e2, plus_nil] at h2
        refine decRefs_shared hi2 ?_ h2
        rw [hv2, kr]
        have : (v.placed s).refs = v.refs := rfl
        rw [this, e1]
    rw [wp_bind]
    refine wp_post dec ?_
    rintro _ s3 ⟨h3, r3⟩
    have hi3 : Alive s3 U i := (r3.alive i).1 hi2
    rw [wp_bind]
    refine wp_post (incRefV_spec h3 hi3) ?_
    rintro _ s4 ⟨h4, hs4⟩
    rw [wp_pure]
    have r4 : Recount s2 s4 := by rw [hs4]; exact r3.trans Recount.set
    obtain ⟨a, b, e⟩ := r4.vars i
    refine ⟨U, h4, f2.trans r4.frame, (r4.alive i).1 hi2, ?_, .inl ⟨hu, hlk, ?_, ?_, ?_⟩⟩
    · rw [e, ← hik, hv2]; rfl
    · rw [e, hv2]; exact h.uids i hi
    · rw [r4.vc]; exact e_vc
    · intro k hk
      have hka : Alive s U k := by
        by_contra hn
        have := h.dead k hn
        omega
      obtain ⟨a', b', e'⟩ := r4.vars k
      rw [e', e_al k hka]
  | none =>
    dsimp only
    rw [wp_bind, wp_modifyStore, wp_bind]
    unfold incRefV
    simp only [wp]
    generalize hs1w : s1.set j
      { v.placed s with counter := (s1.vars j).counter, uid := s.variableCounter } = s1w
    generalize hs2 : s1w.newEntry j (v.placed s) (useLvn s v dl) = s2
    subst hs1w
    have hs2' : s2.vars j =
        { v.placed s with counter := (s1.vars j).counter, uid := s.variableCounter } := by
      subst hs2; exact set_self _ _ _
    have hrc : (s2.vars j).refCount = 0 := by rw [hs2']; exact hc
    by_cases hl : (s2.vars j).refCount + 1 ≥ 2 ^ 32
    · rw [hrc] at hl; omega
    rw [if_neg hl]
    dsimp only [pure]
    set w : Var := { s2.vars j with refCount := (s2.vars j).refCount + 1 } with hwdef
    set s' := s2.set j w with hs'
    have e_w : s'.vars j = w := by rw [hs', set_self]
    have e_len : s'.len = s1.len := by rw [hs', set_len]; subst hs2; rfl
    have e_ne : ∀ k, k ≠ j → s'.vars k = s.vars k := by
      intro k hk; rw [hs', set_ne _ _ hk, ← hv k hk]; subst hs2; exact set_ne _ _ hk
    have e_un : s'.unused = s1.unused := by rw [hs', set_unused]; subst hs2; rfl
    have e_vc : s'.variableCounter = s.variableCounter + 1 := by
      rw [hs', set_vc, ← hvc]; subst hs2; rfl
    have e_f : s'.freed = s.freed := by rw [hs', set_freed, ← hf]; subst hs2; rfl
    have e_env : s'.env = s.env := by rw [hs', set_env, ← henv]; subst hs2; rfl
    have e_sc : s'.scope = s.scope := by rw [hs', set_scope, ← hscope]; subst hs2; rfl
    have e_acq : s'.acquired = if v.isEvaluated && !v.retainData then v.literal :: s.acquired
        else s.acquired := by rw [hs', set_acquired, ← ha]; subst hs2; rfl
    have e_lvn : s'.lvn = if useLvn s v dl then ((v.placed s).key, j) :: s.lvn else s.lvn := by
      rw [hs', set_lvn, ← hlvn]; subst hs2; rfl
    have w_eq : w =
        { v.placed s with
          refCount := 1, uid := s.variableCounter, counter := (s1.vars j).counter } := by
      rw [hwdef, hrc, hs2']
    have w_key : w.key = (v.placed s).key := by rw [w_eq]; rfl
    have w_refs : w.refs = v.refs ∧ w.refsSe = v.refsSe := by rw [w_eq]; exact ⟨rfl, rfl⟩
    have e_al : ∀ k, Alive s' U1 k ↔ (Alive s U k ∨ k = j) := by
      intro k; rw [← hal k]; unfold Alive; rw [e_len]
    have hj' : s'.len = s.len ∧ j < s.len ∨ s'.len = s.len + 1 ∧ j = s.len := by
      rw [e_len]; rcases hj with ⟨a, b, _⟩ | ⟨a, b, _⟩
      · exact .inl ⟨a, b⟩
      · exact .inr ⟨a, b⟩
    clear_value s' w
    refine ⟨U1, ?_, ?_, ?_, ?_, .inr ⟨?_, ?_, e_vc, (h.dead j hjd).1, (h.dead j hjd).2.1, e_ne⟩⟩
    · refine Inv.insert (w := w) (by rw [w_refs.1, w_refs.2]; exact h) hj0 hjd hj'
        (by rw [e_len]; exact h32) e_al e_ne e_w (by rw [w_eq]) (by rw [w_eq]; exact hcs)
        (by rw [w_eq]) (by rw [e_un]; exact hrep) (by rw [e_len]; exact hub) e_vc e_f ?_ ?_
      · intro p
        have hwo : w.owns p = ((v.isEvaluated && !v.retainData) && v.literal == p) := by
          rw [w_eq]; rfl
        rw [hwo, e_acq]
        cases v.isEvaluated && !v.retainData
        · simp
        · simp [List.count_cons]
      · rw [e_lvn]
        cases hu : useLvn s v dl with
        | false => exact .inl (by simp)
        | true =>
          right
          rw [hu, if_pos rfl] at hlk
          rw [w_key]
          refine ⟨by simp, hlk, ?_⟩
          rw [w_eq]
          unfold useLvn at hu
          intro hk
          have : v.isEvaluated = true := by
            have : v.kind = .evaluated := hk
            simp [Var.isEvaluated, this]
          rw [this] at hu
          simp at hu
    · refine Frame.insert e_env e_sc hjd
        (fun k hk d hd h0 => (h.deps k hk d (List.mem_append_left _ hd) h0).1) hj' e_al e_ne (by rw [e_w, w_eq]) ?_ e_vc
      intro hjl
      rw [e_w, w_eq]
      dsimp only
      rw [hcnt hjl]
    · exact (e_al j).2 (.inr rfl)
    · rw [e_w, w_key]
    · intro hu; rw [if_pos hu] at hlk; exact hlk
    · rw [e_w, w_eq]

theorem rep_empty {f : FreeSlots} {S : List Nat} (h : Rep f S) : f.empty = true ↔ S = [] := by
  unfold FreeSlots.empty
  rw [h.count]
  cases S <;> simp

theorem sinsert_head {m : Nat} {S : List Nat} (h : (m :: S).Pairwise (· < ·)) :
    sinsert m S = m :: S := by
  cases S with
  | nil => rfl
  | cons a S =>
    have : m < a := (List.pairwise_cons.1 h).1 a List.mem_cons_self
    unfold sinsert
    simp [this]

theorem varNew_spec {v : Var} {dl : Bool} (hc : v.refCount = 0) (hcs : v.refCountSe = 0)
    (h : Inv s U (plus ext v.refs) (plus extSe v.refsSe) []) {R : Store → Prop} :
    wp (varNew v dl) s
      (fun r s' => ∃ U', Inv s' U' (plus ext [r]) extSe [] ∧ Frame ext s U s' U' ∧
        Alive s' U' r ∧ (s'.vars r).key = (v.placed s).key ∧ NewResult v dl s r s') R
      (· = .limit) := by
  unfold varNew
  rw [wp_bind, wp_getStore, wp_bind]
  have alloc : wp allocSlot s (fun a s1 => ∃ U1, a.1 ≠ 0 ∧ ¬ Alive s U a.1 ∧
      (s1.len = s.len ∧ a.1 < s.len ∧ a.2 = true ∨
        s1.len = s.len + 1 ∧ a.1 = s.len ∧ a.2 = false) ∧
      s1.len ≤ 2 ^ 32 ∧ (∀ k, Alive s1 U1 k ↔ (Alive s U k ∨ k = a.1)) ∧
      (∀ k, k ≠ a.1 → s1.vars k = s.vars k) ∧ (a.1 < s.len → s1.vars a.1 = s.vars a.1) ∧
      Rep s1.unused U1 ∧ (∀ u ∈ U1, u ≠ 0 ∧ u < s1.len) ∧
      Rep (if a.2 then s1.unused.push a.1 else s1.unused) U ∧
      s1.lvn = s.lvn ∧ s1.variableCounter = s.variableCounter ∧ s1.env = s.env ∧
      s1.scope = s.scope ∧ s1.freed = s.freed ∧ s1.acquired = s.acquired) R (· = .limit) := by
    unfold wp allocSlot
    by_cases he : s.unused.empty || !s.reuseIndices
    · rw [if_pos he]
      by_cases hl : s.len ≥ 2 ^ 32
      · rw [if_pos hl]
      · rw [if_neg hl]
        dsimp only
        have hlen := h.len
        refine ⟨U, by omega, ?_, .inr ⟨rfl, rfl, rfl⟩, ?_, ?_, ?_, ?_, h.rep, ?_, h.rep,
          rfl, rfl, rfl, rfl, rfl, rfl⟩
        · intro ha; have := ha.2.1; omega
        · omega
        · intro k
          change (k ≠ 0 ∧ k < s.len + 1 ∧ k ∉ U) ↔ _
          unfold Alive
          have hlU : s.len ∉ U := fun hm => by have := (h.ub _ hm).2; omega
          constructor
          · rintro ⟨a, b, c⟩
            by_cases hk : k = s.len
            · exact .inr hk
            · exact .inl ⟨a, by omega, c⟩
          · rintro (⟨a, b, c⟩ | rfl)
            · exact ⟨a, by omega, c⟩
            · exact ⟨by omega, by omega, hlU⟩
        · intro k hk; exact set_ne _ _ hk
        · intro hk; exact absurd hk (by omega)
        · intro u hu
          have := h.ub u hu
          exact ⟨this.1, by omega⟩
    · rw [if_neg he]
      simp only [Bool.or_eq_true, not_or] at he
      have hne : U ≠ [] := fun e => he.1 ((rep_empty h.rep).2 e)
      obtain ⟨m, S, rfl⟩ := List.exists_cons_of_ne_nil hne
      obtain ⟨f', e, hrep'⟩ := rep_pop h.rep
      rw [e]
      dsimp only
      have hm := h.ub m List.mem_cons_self
      have hmS : m ∉ S := fun hm' => by
        have := (List.pairwise_cons.1 h.rep.sorted).1 m hm'
        omega
      refine ⟨S, hm.1, ?_, .inl ⟨rfl, hm.2, rfl⟩, h.len.2, ?_, fun _ _ => rfl, fun _ => rfl,
        hrep', ?_, ?_, rfl, rfl, rfl, rfl, rfl, rfl⟩
      · intro ha; exact ha.2.2 List.mem_cons_self
      · intro k
        change (k ≠ 0 ∧ k < s.len ∧ k ∉ S) ↔ _
        unfold Alive
        rw [List.mem_cons, not_or]
        constructor
        · rintro ⟨a, b, c⟩
          by_cases hk : k = m
          · exact .inr hk
          · exact .inl ⟨a, b, hk, c⟩
        · rintro (⟨a, b, _, c⟩ | rfl)
          · exact ⟨a, b, c⟩
          · exact ⟨hm.1, hm.2, hmS⟩
      · intro u hu; exact h.ub u (List.mem_cons_of_mem _ hu)
      · have := rep_push hrep' m hmS (lt_of_lt_of_le hm.2 h.len.2)
        rw [sinsert_head h.rep.sorted] at this
        exact this
  refine wp_post alloc ?_
  rintro ⟨j, fu⟩ s1 ⟨U1, a1, a2, a3, a4, a5, a6, a7, a8, a9, a10, a11, a12, a13, a14, a15, a16⟩
  dsimp only at *
  rw [wp_bind, wp_getStore]
  exact varNew_tail (v := v) (dl := dl) hc hcs h a1 a2 a3 a4 a5 a6 a7 a8 a9 a10 a11 a12 a13 a14
    a15 a16

end Verif.Var
