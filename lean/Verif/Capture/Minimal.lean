import Verif.Capture.Levels

/-!
# What a recorded function call captures (C71): caller and function

The traversal does not schedule what only a scatter to an unreferenced array needs
(a sharper form of `GroupOk.minimal`), and everything that a function's code needs
from outside has been scheduled by the caller.
-/

namespace Verif.Eval

variable {g : Nat → Option Node} {refs : Nat → Nat} {size : Nat}

/-- The traversal has added `S` to the schedule, all of it permitted by `R`. -/
def Permitted (R : Nat → Nat → Prop) (base : List SV) (s : TS) : Prop :=
  (∃ S, s.sched = base ++ S ∧ ∀ x ∈ S, R x.index 0) ∧ ∀ p ∈ s.later, R p.1 p.2

/-- `R` contains what is needed on behalf of its members, except for scatters to
unreferenced arrays. -/
def ClosedUpToDead (g : Nat → Option Node) (refs : Nat → Nat) (base : List SV)
    (R : Nat → Nat → Prop) : Prop :=
  ∀ i d nd a, R i d → g i = some nd →
    (∀ t, nd.kind = .scatter t → refs t ≠ 0 ∨ R t 0 ∨ t ∈ base.map SV.index) →
    a ∈ edges nd d → R a.index a.depth

theorem doActs_permitted {R : Nat → Nat → Prop} {base : List SV}
    {rec : Nat → Nat → TS → Except Err TS}
    (hrec : ∀ k e s s', R k e → Permitted R base s → rec k e s = .ok s' → Permitted R base s')
    {as : List Act} (hR : ∀ a ∈ as, R a.index a.depth) {s s' : TS} (hI : Permitted R base s)
    (h : doActs rec s as = .ok s') : Permitted R base s' := by
  induction as generalizing s with
  | nil =>
    simp only [doActs, Except.ok.injEq] at h
    exact h ▸ hI
  | cons a as ih =>
    unfold doActs at h
    cases ha : doAct rec s a with
    | error e => rw [ha] at h; simp at h
    | ok s1 =>
      rw [ha] at h
      dsimp only at h
      refine ih (fun b hb => hR b (by simp [hb])) ?_ h
      have hRa := hR a (by simp)
      cases a with
      | visit k e => exact hrec k e s s1 hRa hI ha
      | later k e =>
        simp only [doAct, Except.ok.injEq] at ha
        subst ha
        refine ⟨hI.1, ?_⟩
        intro p hp
        rcases List.mem_append.1 hp with hp | hp
        · exact hI.2 p hp
        · rw [List.mem_singleton.1 hp]; exact hRa

theorem trav_elided {f i d : Nat} {s s' : TS} {nd : Node} {t : Nat} (hg : g i = some nd)
    (hk : nd.kind = .scatter t) (he : elides refs s.sched t = true)
    (h : trav g refs size (f + 1) i d s = .ok s') :
    s' = s ∨ s' = s.mark i d := by
  unfold trav at h
  rw [hg] at h
  dsimp only at h
  by_cases hs : Gen.skips s.gen i d = true
  · rw [if_pos hs] at h
    left
    simpa using h.symm
  · rw [if_neg hs, hk] at h
    dsimp only at h
    rw [if_pos he] at h
    right
    simpa [TS.mark] using h.symm

theorem trav_permitted {R : Nat → Nat → Prop} {base : List SV}
    (hRe : ClosedUpToDead g refs base R) (f : Nat) :
    ∀ i d s s', R i d → Permitted R base s → trav g refs size f i d s = .ok s' →
      Permitted R base s' := by
  induction f with
  | zero => intro i d s s' _ _ h; simp [trav] at h
  | succ f ih =>
    intro i d s s' hR hI h
    obtain ⟨nd, hg, hcase⟩ := trav_cases h
    by_cases hel : ∃ t, nd.kind = .scatter t ∧ elides refs s.sched t = true
    · obtain ⟨t, hk, he⟩ := hel
      rcases trav_elided hg hk he h with h | h
      · exact h ▸ hI
      · rw [h]; exact hI
    · rcases hcase with ⟨_, rfl⟩ | ⟨_, hcase⟩
      · exact hI
      · rcases hcase with ⟨t, hk, he, _⟩ | ⟨s2, hacts, hs', _⟩
        · exact absurd ⟨t, hk, he⟩ hel
        · have hlive : ∀ t, nd.kind = .scatter t →
              refs t ≠ 0 ∨ R t 0 ∨ t ∈ base.map SV.index := by
            intro t hk
            by_cases h0 : refs t = 0
            · right
              have hne : ¬ elides refs s.sched t = true := fun he => hel ⟨t, hk, he⟩
              unfold elides at hne
              rw [decide_eq_true_iff, h0, Nat.zero_add] at hne
              unfold schedRefs at hne
              have : (s.sched.filter fun x => decide (x.index = t)) ≠ [] := by
                intro hc
                rw [hc] at hne
                exact hne rfl
              obtain ⟨x, hx⟩ := List.exists_mem_of_ne_nil _ this
              obtain ⟨hx1, hx2⟩ := List.mem_filter.1 hx
              rw [decide_eq_true_iff] at hx2
              obtain ⟨⟨S, hS, hSR⟩, _⟩ := hI
              rw [hS] at hx1
              rcases List.mem_append.1 hx1 with hx1 | hx1
              · right; exact List.mem_map.2 ⟨x, hx1, hx2⟩
              · left; rw [← hx2]; exact hSR x hx1
            · exact Or.inl h0
          have h2 := doActs_permitted ih (fun a ha => hRe i d nd a hR hg hlive ha)
            (s := s.mark i d) hI hacts
          by_cases hd : d = 0
          · rw [if_pos hd] at hs'
            subst hs'
            obtain ⟨⟨S, hS, hSR⟩, hl⟩ := h2
            refine ⟨⟨S ++ [⟨size, nd.scope, i⟩], ?_, ?_⟩, hl⟩
            · simp [push, hS]
            · intro x hx
              rcases List.mem_append.1 hx with hx | hx
              · exact hSR x hx
              · rw [List.mem_singleton.1 hx, ← hd]; exact hR
          · rw [if_neg hd] at hs'
            exact hs' ▸ h2

/-- Nothing is scheduled that only a scatter to an unreferenced array needs. -/
theorem travGroup_permitted {fuel : Nat} {tasks : List Nat} {s s' : TS}
    (hs : s.later = []) (hlive : ∀ t, refs t = 0 → ¬ Reach g (fun _ => False) tasks t 0 ∧
      t ∉ s.sched.map SV.index)
    (h : travGroup g refs size fuel tasks s = .ok s') {S : List SV}
    (hS : s'.sched = s.sched ++ S) : ∀ x ∈ S, Reach g (Dead g refs) tasks x.index 0 := by
  have hRe : ClosedUpToDead g refs s.sched (Reach g (Dead g refs) tasks) := by
    intro i d nd a hr hg hk ha
    refine .edge hr hg ?_ ha
    rintro ⟨nd', t, hg', hk', h0⟩
    rw [hg] at hg'
    have := Option.some.inj hg'
    subst this
    rcases hk t hk' with h1 | h1 | h1
    · exact h1 h0
    · exact (hlive t h0).1 h1.weaken
    · exact (hlive t h0).2 h1
  have htasks : ∀ (l : List Nat) (a b : TS), (∀ i ∈ l, i ∈ tasks) →
      Permitted (Reach g (Dead g refs) tasks) s.sched a →
      travTasks g refs size fuel a l = .ok b →
      Permitted (Reach g (Dead g refs) tasks) s.sched b := by
    intro l
    induction l with
    | nil =>
      intro a b _ hI h
      simp only [travTasks, Except.ok.injEq] at h
      exact h ▸ hI
    | cons i l ih =>
      intro a b hl hI h
      unfold travTasks at h
      cases h1 : trav g refs size fuel i 0 a with
      | error e => rw [h1] at h; simp at h
      | ok a1 =>
        rw [h1] at h
        exact ih a1 b (fun j hj => hl j (by simp [hj]))
          (trav_permitted hRe fuel i 0 a a1 (.root (hl i (by simp))) hI h1) h
  have hlater : ∀ (n k : Nat) (a b : TS),
      Permitted (Reach g (Dead g refs) tasks) s.sched a →
      travLater g refs size fuel n k a = .ok b →
      Permitted (Reach g (Dead g refs) tasks) s.sched b := by
    intro n
    induction n with
    | zero => intro k a b _ h; simp [travLater] at h
    | succ n ih =>
      intro k a b hI h
      unfold travLater at h
      cases hk : a.later[k]? with
      | none =>
        rw [hk] at h
        simp only [Except.ok.injEq] at h
        exact h ▸ hI
      | some p =>
        obtain ⟨i, d⟩ := p
        rw [hk] at h
        dsimp only at h
        cases h1 : trav g refs size fuel i d a with
        | error e => rw [h1] at h; simp at h
        | ok a1 =>
          rw [h1] at h
          exact ih (k + 1) a1 b (trav_permitted hRe fuel i d a a1
            (hI.2 (i, d) (List.mem_of_getElem? hk)) hI h1) h
  unfold travGroup at h
  cases h1 : travTasks g refs size fuel { s with gen := Gen.newGen s.gen } tasks with
  | error e => rw [h1] at h; simp at h
  | ok s1 =>
    rw [h1] at h
    dsimp only at h
    cases h2 : travLater g refs size fuel fuel 0 s1 with
    | error e => rw [h2] at h; simp at h
    | ok s2 =>
      rw [h2] at h
      simp only [Except.ok.injEq] at h
      have hI0 : Permitted (Reach g (Dead g refs) tasks) s.sched
          { s with gen := Gen.newGen s.gen } :=
        ⟨⟨[], by simp, by simp⟩, by simp [hs]⟩
      obtain ⟨⟨S2, hS2, hR2⟩, _⟩ := hlater _ _ _ _ (htasks _ _ _ (fun i hi => hi) hI0 h1) h2
      have : S = S2 := by
        rw [← h] at hS
        have h3 : s2.sched = s.sched ++ S := hS
        rw [hS2] at h3
        exact (List.append_cancel_left h3).symm
      subst this
      exact hR2

end Verif.Eval

namespace Verif.Capture

open Verif.Eval (SV TS Act Reach edges Dead)

variable {g : Graph}

/-- A needed variable at depth `n` of a function is needed by the caller at depth
`n + 1`. -/
theorem reach_shift {refs0 refs : Nat → Nat} {roots sub : List Nat}
    (hzero : ∀ t, refs0 t = 0 → refs t = 0)
    (hroots : ∀ i ∈ sub, Reach (view g) (Dead (view g) refs0) roots i 1) {i n : Nat}
    (h : Reach (view g) (Dead (view g) refs) sub i n) :
    Reach (view g) (Dead (view g) refs0) roots i (n + 1) := by
  induction h with
  | root hi => exact hroots _ hi
  | @edge i n nd a hr hg hcut ha ih =>
    have hcut0 : ¬ Dead (view g) refs0 i := by
      rintro ⟨nd', t, h1, h2, h3⟩
      exact hcut ⟨nd', t, h1, h2, hzero t h3⟩
    by_cases hk : nd.kind = .callInput
    · unfold edges at ha
      rw [hk] at ha
      dsimp only at ha
      by_cases hn : n = 0
      · rw [if_pos hn] at ha; simp at ha
      · rw [if_neg hn, List.mem_singleton] at ha
        have : Act.visit (nd.dep.headD 0) n ∈ edges nd (n + 1) := by
          unfold edges
          rw [hk]
          dsimp only
          rw [if_neg (by omega)]
          simp
        have h1 := Reach.edge ih hg hcut0 this
        rw [ha]
        show Reach _ _ _ (nd.dep.headD 0) (n - 1 + 1)
        rw [Nat.sub_add_cancel (by omega)]
        exact h1
    · have h1 := Eval.edges_shift hk n 1
      have h2 : a.shift 1 ∈ edges nd (n + 1) := by
        rw [h1]; exact List.mem_map_of_mem ha
      have h3 := Reach.edge ih hg hcut0 h2
      cases a <;> exact h3

/-- What the function returns and its side effects are needed by the caller. -/
theorem funcRoots_reach {refs0 : Nat → Nat} {roots : List Nat} {c : Nat} {nd : Node}
    {d : CallData} {refs : Nat → Nat} (hg : g c = some nd) (hk : nd.kind = .call d)
    (hok : CallerOk g refs c d) {reg : Nat → Bool}
    (hreg : ∀ i, reg i = true → Reach (view g) (Dead (view g) refs0) roots i 0)
    (hc : reg c = true) {inst : Nat} :
    ∀ i ∈ funcRoots g reg d inst, Reach (view g) (Dead (view g) refs0) roots i 1 := by
  have hvc : view g c = some ⟨.call d.optimize d.outerIn d.innerOut.flatten
      d.sideEffects.flatten, nd.dep, nd.scope, nd.size, nd.consumed⟩ := by
    unfold view
    rw [hg]
    dsimp only
    unfold viewKind
    rw [hk]
  have hdc : ¬ Dead (view g) refs0 c := by
    rintro ⟨nd', t, h1, h2, _⟩
    rw [hvc] at h1
    have := Option.some.inj h1
    subst this
    simp at h2
  have hcall : ∀ a ∈ edges ⟨.call d.optimize d.outerIn d.innerOut.flatten
      d.sideEffects.flatten, nd.dep, nd.scope, nd.size, nd.consumed⟩ 0,
      Reach (view g) (Dead (view g) refs0) roots a.index a.depth :=
    fun a ha => .edge (hreg c hc) hvc hdc ha
  intro i hi
  unfold funcRoots at hi
  rcases List.mem_append.1 hi with hi | hi
  · obtain ⟨⟨j, o⟩, hp, rfl⟩ := List.mem_map.1 hi
    obtain ⟨hz, hact⟩ := List.mem_filter.1 hp
    obtain ⟨k, hkz⟩ := List.mem_iff_getElem?.1 hz
    rw [List.getElem?_zip_eq_some] at hkz
    obtain ⟨hj, ho⟩ := hkz
    have hrow : ∃ r ∈ d.innerOut, r[k]? = some j := by
      rw [List.getD_eq_getElem?_getD] at hj
      cases hr : d.innerOut[inst]? with
      | none => rw [hr] at hj; simp at hj
      | some r => rw [hr] at hj; exact ⟨r, List.mem_of_getElem? hr, hj⟩
    obtain ⟨r, hr, hrk⟩ := hrow
    dsimp only at hj ho hact ⊢
    unfold outputActive at hact
    rw [Bool.or_eq_true] at hact
    rcases hact with hact | hact
    · cases o with
      | none => simp at hact
      | some o =>
        dsimp only at hact
        rw [Bool.and_eq_true] at hact
        obtain ⟨ndo, hgo, hko⟩ := hok.results k o ho
        rw [hgo] at hact
        rcases hko with hko | ⟨hko, hho⟩
        · dsimp only at hact
          rw [hko] at hact
          exact absurd hact.2 (by decide)
        · have hcd : callOf g ndo = some d := by
            unfold callOf
            rw [hho, hg]
            obtain ⟨nk, nd2, np, ns, nsc, nc⟩ := nd
            simp only at hk
            subst hk
            rfl
          have hvo : view g o = some ⟨.callOutput (d.innerOut.map (·.getD k 0)), ndo.dep,
              ndo.scope, ndo.size, ndo.consumed⟩ := by
            unfold view
            rw [hgo]
            dsimp only
            unfold viewKind
            rw [hko]
            dsimp only
            rw [hcd]
          have hdo : ¬ Dead (view g) refs0 o := by
            rintro ⟨nd', t, h1, h2, _⟩
            rw [hvo] at h1
            have := Option.some.inj h1
            subst this
            simp at h2
          have hjm : Act.visit j 1 ∈ edges ⟨.callOutput (d.innerOut.map (·.getD k 0)), ndo.dep,
              ndo.scope, ndo.size, ndo.consumed⟩ 0 := by
            unfold edges
            dsimp only
            apply List.mem_append_left
            refine List.mem_map.2 ⟨j, List.mem_map.2 ⟨r, hr, ?_⟩, rfl⟩
            rw [List.getD_eq_getElem?_getD, hrk]
            rfl
          exact Reach.edge (hreg o hact.1) hvo hdo hjm
    · have hopt : d.optimize = false := by simpa using hact
      refine hcall (.visit j 1) ?_
      unfold edges
      dsimp only
      rw [hopt]
      dsimp only
      apply List.mem_append_left
      apply List.mem_append_left
      apply List.mem_append_right
      exact List.mem_map.2 ⟨j, List.mem_flatten.2 ⟨r, hr, List.mem_of_getElem? hrk⟩, rfl⟩
  · refine hcall (.visit i 1) ?_
    have hmem : Act.visit i 1 ∈ d.sideEffects.flatten.map (Act.visit · (0 + 1)) := by
      refine List.mem_map.2 ⟨i, ?_, rfl⟩
      rw [List.getD_eq_getElem?_getD] at hi
      cases hr : d.sideEffects[inst]? with
      | none => rw [hr] at hi; simp at hi
      | some r => rw [hr] at hi; exact List.mem_flatten.2 ⟨r, List.mem_of_getElem? hr, hi⟩
    unfold edges
    dsimp only
    cases hopt : d.optimize with
    | true => dsimp only; exact List.mem_append_left _ hmem
    | false => dsimp only; exact List.mem_append_left _ (List.mem_append_right _ hmem)

end Verif.Capture
