import Verif.Eval.TraverseProof

/-!
# One generation of the traversal: what ends up in the schedule (C19)
-/

namespace Verif.Eval

open Gen (Visit Seen see)

variable {g : Nat → Option Node} {refs : Nat → Nat} {size : Nat}

/-- The entries `S` that the traversal adds for the tasks `roots` of one size. -/
structure GroupOk (g : Nat → Option Node) (refs : Nat → Nat) (size : Nat)
    (roots : List Nat) (S : List SV) : Prop where
  /-- every variable occurs at most once -/
  once : (S.map SV.index).Nodup
  /-- each entry carries the launch size and the scope of its variable -/
  entries : ∀ x ∈ S, x.size = size ∧ ∃ nd, g x.index = some nd ∧ x.scope = nd.scope ∧
    (nd.kind ≠ .callInput → nd.consumed = false)
  /-- what a variable needs stands before it -/
  order : ∀ i nd j, g i = some nd → Act.visit j 0 ∈ edges nd 0 →
    Before j i S ∨ Dead g refs j
  /-- nothing else is computed -/
  minimal : ∀ x ∈ S, Reach g (fun _ => False) roots x.index 0
  /-- everything that is needed is computed, except for scatters to unreferenced
  arrays -/
  complete : InputsAtOneDepth g roots → ∀ i, Reach g (Dead g refs) roots i 0 →
    i ∈ S.map SV.index ∨ Dead g refs i
  /-- first come, first served: a task precedes everything that neither it nor an
  earlier task needs -/
  firstCome : ∀ p q, roots = p ++ q → ∀ a ∈ p, ¬ Dead g refs a →
    ∀ b, ¬ Reach g (fun _ => False) p b 0 → Before a b S

theorem Reach.mono {cut : Nat → Prop} {p q : List Nat} (hpq : ∀ i ∈ p, i ∈ q) {i d : Nat}
    (h : Reach g cut p i d) : Reach g cut q i d := by
  induction h with
  | root h => exact .root (hpq _ h)
  | edge _ hg hc ha ih => exact .edge ih hg hc ha

theorem Reach.weaken {cut : Nat → Prop} {roots : List Nat} {i d : Nat}
    (h : Reach g cut roots i d) : Reach g (fun _ => False) roots i d := by
  induction h with
  | root h => exact .root h
  | edge _ hg _ ha ih => exact .edge ih hg (fun h => h) ha

/-- Raise the depth of an action. -/
def Act.shift (k : Nat) : Act → Act
  | .visit i d => .visit i (d + k)
  | .later i d => .later i (d + k)

theorem map_shift_visits (l : List Nat) (d k : Nat) :
    (l.map (Act.visit · d)).map (Act.shift k) = l.map (Act.visit · (d + k)) := by
  rw [List.map_map]
  rfl

theorem edges_shift {nd : Node} (h : nd.kind ≠ .callInput) (d k : Nat) :
    edges nd (d + k) = (edges nd d).map (Act.shift k) := by
  have hdep : operands nd (d + k) = (operands nd d).map (Act.shift k) := by
    unfold operands
    rw [map_shift_visits]
  unfold edges
  split
  · exact hdep
  · exact hdep
  · rw [hdep]; simp [Act.shift]
  · rfl
  · rw [hdep]; simp [Act.shift]
  · rfl
  · rw [hdep]; simp [Act.shift]
  · contradiction
  · rw [hdep, List.map_append, map_shift_visits, Nat.add_right_comm]
  · rw [hdep, List.map_append, List.map_append, List.map_append, map_shift_visits,
      map_shift_visits, map_shift_visits, Nat.add_right_comm]
  · rw [hdep, List.map_append, map_shift_visits, Nat.add_right_comm]
  · rw [hdep, List.map_append, map_shift_visits]
  · rw [hdep, List.map_append, map_shift_visits]

theorem seen_of_seen_shift {v : Visit} {d k : Nat} (h : Seen v d) : Seen v (d + k) := by
  rcases h with h | ⟨h1, h2⟩
  · exact Or.inl h
  · exact Or.inr ⟨h1, by omega⟩

theorem seen_of_pos {v : Visit} {d e : Nat} (he : e ≠ 0) (h : Seen v d) : Seen v e := by
  rcases h with h | ⟨h1, _⟩
  · exact Or.inl h
  · exact Or.inr ⟨h1, he⟩

/-- At the end of a generation the visited variables are closed under edges. -/
theorem closure {roots : List Nat} {base S : List SV} {s : TS} {m : Nat → Visit}
    (hI : TInv g refs size (Reach g (fun _ => False) roots) base S s m)
    (ho : ∀ j, ¬ Open g refs S m j)
    (hoi : ∀ j, ¬ OpenIn g refs (Reach g (fun _ => False) roots) m s.later j)
    (hroots : ∀ i ∈ roots, Seen (m i) 0)
    (hlater : ∀ x ∈ s.later, Seen (m x.1) x.2)
    (hone : InputsAtOneDepth g roots) {i d : Nat} (h : Reach g (Dead g refs) roots i d) :
    Seen (m i) d := by
  have fin : ∀ a, Handled m s.later a → Seen (m a.index) a.depth := by
    intro a ha
    cases a with
    | visit k e => exact ha
    | later k e => exact hlater _ ha
  induction h with
  | root h => exact hroots _ h
  | @edge i d nd a hr hg hcut ha ih =>
    have hw := hr.weaken
    rcases ih with hout | ⟨hin, hd⟩
    · have hmem : i ∈ S.map SV.index := by
        by_contra hc
        exact ho i ⟨hout, hc, hcut⟩
      obtain ⟨x, hx, rfl⟩ := List.mem_map.1 hmem
      have hcl := hI.closed x hx nd hg
      by_cases hk : nd.kind = .callInput
      · have := hone x.index nd hg hk d 0 hw (hI.sound x hx).2.2.1
        subst this
        exact fin a (hcl a ha)
      · have hsh := edges_shift hk 0 d
        rw [Nat.zero_add] at hsh
        rw [hsh] at ha
        obtain ⟨a', ha', rfl⟩ := List.mem_map.1 ha
        have := fin a' (hcl a' ha')
        cases a' with
        | visit k e => exact seen_of_seen_shift this
        | later k e => exact seen_of_seen_shift this
    · have hcl : ClosedIn g refs (Reach g (fun _ => False) roots) m s.later i := by
        by_contra hc
        exact hoi i ⟨hin, hc⟩
      rcases hcl with hc | ⟨e, nd', he, hRe, hg', hall⟩
      · exact absurd hc hcut
      have hnd : nd' = nd := by
        rw [hg] at hg'
        exact (Option.some.inj hg').symm
      subst hnd
      by_cases hk : nd'.kind = .callInput
      · have := hone i nd' hg hk d e hw hRe
        subst this
        exact fin a (hall a ha)
      · have h1 := edges_shift hk 0 d
        have h2 := edges_shift hk 0 e
        rw [Nat.zero_add] at h1 h2
        rw [h1] at ha
        rw [h2] at hall
        obtain ⟨a', ha', rfl⟩ := List.mem_map.1 ha
        have := fin _ (hall _ (List.mem_map_of_mem ha'))
        cases a' with
        | visit k e' =>
          exact seen_of_pos (by simp only [Act.shift, Act.depth]; omega) this
        | later k e' =>
          exact seen_of_pos (by simp only [Act.shift, Act.depth]; omega) this

theorem travTasks_spec {R : Nat → Nat → Prop} {rank : Nat → Nat} {base : List SV}
    (hac : Acyclic g rank)
    (hRe : ∀ i d nd a, R i d → g i = some nd → a ∈ edges nd d → R a.index a.depth)
    {fuel : Nat} {tasks : List Nat} (hR : ∀ i ∈ tasks, R i 0) {S : List SV} {s : TS}
    {m : Nat → Visit} {s' : TS} (hI : TInv g refs size R base S s m)
    (ho : ∀ j, ¬ Open g refs S m j) (hoi : ∀ j, ¬ OpenIn g refs R m s.later j)
    (h : travTasks g refs size fuel s tasks = .ok s') :
    ∃ S' m', TInv g refs size R base S' s' m' ∧ Ext g refs R S s m S' s' m' ∧
      ∀ i ∈ tasks, Seen (m' i) 0 := by
  induction tasks generalizing S s m with
  | nil =>
    simp only [travTasks, Except.ok.injEq] at h
    subst h
    exact ⟨S, m, hI, Ext.refl, by simp⟩
  | cons i is ih =>
    unfold travTasks at h
    cases ht : trav g refs size fuel i 0 s with
    | error e => rw [ht] at h; simp at h
    | ok s1 =>
      rw [ht] at h
      dsimp only at h
      obtain ⟨S1, m1, hI1, hE1, hs1⟩ := trav_spec hac hRe fuel i 0 S s m s1 (hR i (by simp)) hI
        (fun j hj => absurd hj (by rintro (h | h); exacts [ho j h, hoi j h])) ht
      obtain ⟨S2, m2, hI2, hE2, hs2⟩ := ih (fun k hk => hR k (by simp [hk])) hI1
        (fun j hj => ho j (hE1.opened j hj)) (fun j hj => hoi j (hE1.openedIn j hj)) h
      refine ⟨S2, m2, hI2, hE1.trans hE2, ?_⟩
      intro k hk
      rcases List.mem_cons.1 hk with rfl | hk
      · exact Seen.mono (hE2.mono _) hs1
      · exact hs2 k hk

theorem travLater_spec {R : Nat → Nat → Prop} {rank : Nat → Nat} {base : List SV}
    (hac : Acyclic g rank)
    (hRe : ∀ i d nd a, R i d → g i = some nd → a ∈ edges nd d → R a.index a.depth)
    {fuel n k : Nat} {S : List SV} {s : TS}
    {m : Nat → Visit} {s' : TS} (hI : TInv g refs size R base S s m)
    (ho : ∀ j, ¬ Open g refs S m j) (hoi : ∀ j, ¬ OpenIn g refs R m s.later j)
    (hdone : ∀ x ∈ s.later.take k, Seen (m x.1) x.2)
    (h : travLater g refs size fuel n k s = .ok s') :
    ∃ S' m', TInv g refs size R base S' s' m' ∧ Ext g refs R S s m S' s' m' ∧
      ∀ x ∈ s'.later, Seen (m' x.1) x.2 := by
  induction n generalizing k S s m with
  | zero => simp [travLater] at h
  | succ n ih =>
    unfold travLater at h
    cases hk : s.later[k]? with
    | none =>
      rw [hk] at h
      simp only [Except.ok.injEq] at h
      subst h
      refine ⟨S, m, hI, Ext.refl, ?_⟩
      rw [List.getElem?_eq_none_iff] at hk
      rwa [List.take_of_length_le hk] at hdone
    | some x =>
      obtain ⟨i, d⟩ := x
      rw [hk] at h
      dsimp only at h
      have hmem : (i, d) ∈ s.later := List.mem_of_getElem? hk
      cases ht : trav g refs size fuel i d s with
      | error e => rw [ht] at h; simp at h
      | ok s1 =>
        rw [ht] at h
        dsimp only at h
        obtain ⟨S1, m1, hI1, hE1, hs1⟩ := trav_spec hac hRe fuel i d S s m s1
          (hI.later _ hmem) hI
          (fun j hj => absurd hj (by rintro (h | h); exacts [ho j h, hoi j h])) ht
        have hlt : k < s.later.length := by
          by_contra hc
          rw [List.getElem?_eq_none (by omega)] at hk
          simp at hk
        obtain ⟨S2, m2, hI2, hE2, hs2⟩ := ih (k := k + 1) hI1
          (fun j hj => ho j (hE1.opened j hj)) (fun j hj => hoi j (hE1.openedIn j hj)) (by
            intro x hx
            obtain ⟨L, hL⟩ := hE1.later
            rw [← hL, List.take_append_of_le_length (by omega), List.take_succ, hk] at hx
            rcases List.mem_append.1 hx with hx | hx
            · exact Seen.mono (hE1.mono _) (hdone x hx)
            · simp only [Option.toList_some, List.mem_singleton] at hx
              rw [hx]
              exact hs1) h
        exact ⟨S2, m2, hI2, hE1.trans hE2, hs2⟩

/-- A generation whose stamps are all stale, and nothing is queued. -/
structure Idle (s : TS) : Prop where
  gen : ∃ m st, Gen.Inv s.gen m st ∧ ∀ i, m i ≠ .stashed
  later : s.later = []

theorem travTasks_append {fuel : Nat} (p q : List Nat) (s : TS) :
    travTasks g refs size fuel s (p ++ q) =
      match travTasks g refs size fuel s p with
      | .ok s' => travTasks g refs size fuel s' q
      | .error e => .error e := by
  induction p generalizing s with
  | nil => rfl
  | cons i p ih =>
    rw [List.cons_append]
    simp only [travTasks]
    cases trav g refs size fuel i 0 s with
    | error e => rfl
    | ok s1 => exact ih s1

theorem TInv.monoR {R R' : Nat → Nat → Prop} (hR : ∀ i d, R i d → R' i d) {base S : List SV}
    {s : TS} {m : Nat → Visit} (h : TInv g refs size R base S s m) :
    TInv g refs size R' base S s m := by
  refine ⟨h.gen, h.nostash, h.sched, ?_, h.nodup, h.order, h.closed, fun x hx => hR _ _ (h.later x hx)⟩
  intro x hx
  obtain ⟨a, b, c, d⟩ := h.sound x hx
  exact ⟨a, b, hR _ _ c, d⟩

theorem OpenIn.monoR {R R' : Nat → Nat → Prop} (hR : ∀ i d, R i d → R' i d)
    {m : Nat → Visit} {later : List (Nat × Nat)} {j : Nat} (h : OpenIn g refs R' m later j) :
    OpenIn g refs R m later j := by
  refine ⟨h.1, fun hc => h.2 ?_⟩
  rcases hc with hc | ⟨e, nd, h1, h2, h3⟩
  · exact Or.inl hc
  · exact Or.inr ⟨e, nd, h1, hR _ _ h2, h3⟩

/-- Reachability is closed under edges. -/
theorem reach_edge (roots : List Nat) : ∀ i d nd a, Reach g (fun _ => False) roots i d →
    g i = some nd → a ∈ edges nd d → Reach g (fun _ => False) roots a.index a.depth :=
  fun _ _ _ _ hr hg ha => .edge hr hg (fun h => h) ha

/-- First come, first served. -/
theorem travGroup_order {rank : Nat → Nat} (hac : Acyclic g rank) {fuel : Nat}
    {tasks : List Nat} {s s' : TS} (hs : Idle s)
    (h : travGroup g refs size fuel tasks s = .ok s') {S : List SV}
    (hS : s'.sched = s.sched ++ S) {p q : List Nat} (hpq : tasks = p ++ q) {a : Nat}
    (hap : a ∈ p) (hda : ¬ Dead g refs a) {b : Nat}
    (hb : ¬ Reach g (fun _ => False) p b 0) : Before a b S := by
  obtain ⟨⟨m0, st0, hg0, hns0⟩, hl0⟩ := hs
  unfold travGroup at h
  have hnew := Gen.step_inv hg0 .newGen trivial
  have hno : ∀ i, see i m0 .newGen = .no := by
    intro i
    simp [see, hns0 i]
  have hI0 : TInv g refs size (Reach g (fun _ => False) p) s.sched []
      { s with gen := Gen.newGen s.gen } (fun _ => .no) := by
    have hfun : (fun i => see i m0 .newGen) = fun _ => Visit.no := funext hno
    rw [hfun] at hnew
    refine ⟨hnew, by simp, by simp, by simp, by simp, ?_, by simp, by simp [hl0]⟩
    intro pre x post he
    simp at he
  have ho0 : ∀ j, ¬ Open g refs [] (fun _ => Visit.no) j := fun j hj => by simpa using hj.1
  have hoi0 : ∀ j, ¬ OpenIn g refs (Reach g (fun _ => False) p) (fun _ => Visit.no)
      s.later j := fun j hj => by simpa using hj.1
  rw [hpq, travTasks_append] at h
  cases h1 : travTasks g refs size fuel { s with gen := Gen.newGen s.gen } p with
  | error e => rw [h1] at h; simp at h
  | ok s1 =>
    rw [h1] at h
    dsimp only at h
    obtain ⟨S1, m1, hI1, hE1, hs1⟩ := travTasks_spec hac (reach_edge p) (fun i hi => .root hi)
      hI0 ho0 hoi0 h1
    have ho1 : ∀ j, ¬ Open g refs S1 m1 j := fun j hj => ho0 j (hE1.opened j hj)
    have hoi1 := fun j hj => hoi0 j (hE1.openedIn j hj)
    -- `a` is scheduled by now, `b` is not
    have ha1 : a ∈ S1.map SV.index := by
      by_contra hc
      have hout : m1 a = .outer := by
        rcases hs1 a hap with h | ⟨_, h⟩
        · exact h
        · exact absurd rfl h
      exact ho1 a ⟨hout, hc, hda⟩
    have hb1 : ∀ x ∈ S1, x.index ≠ b := by
      intro x hx hxb
      exact hb (hxb ▸ (hI1.sound x hx).2.2.1)
    -- whatever follows is appended
    have hmono : ∀ i d, Reach g (fun _ => False) p i d → Reach g (fun _ => False) tasks i d :=
      fun i d hr => hr.mono (by rw [hpq]; intro i hi; exact List.mem_append_left _ hi)
    have hI1' := hI1.monoR hmono
    have hoi1' : ∀ j, ¬ OpenIn g refs (Reach g (fun _ => False) tasks) m1 s1.later j :=
      fun j hj => hoi1 j (hj.monoR hmono)
    cases h2 : travTasks g refs size fuel s1 q with
    | error e => rw [h2] at h; simp at h
    | ok s2 =>
      rw [h2] at h
      dsimp only at h
      obtain ⟨S2, m2, hI2, hE2, _⟩ := travTasks_spec hac (reach_edge tasks)
        (fun i hi => .root (by rw [hpq]; exact List.mem_append_right _ hi)) hI1' ho1 hoi1' h2
      have ho2 : ∀ j, ¬ Open g refs S2 m2 j := fun j hj => ho1 j (hE2.opened j hj)
      have hoi2 := fun j hj => hoi1' j (hE2.openedIn j hj)
      cases h3 : travLater g refs size fuel fuel 0 s2 with
      | error e => rw [h3] at h; simp at h
      | ok s3 =>
        rw [h3] at h
        simp only [Except.ok.injEq] at h
        obtain ⟨S3, m3, hI3, hE3, _⟩ := travLater_spec hac (reach_edge tasks) hI2 ho2 hoi2
          (by simp) h3
        subst h
        have hSS : S = S3 := by
          have := hI3.sched
          rw [hS] at this
          exact List.append_cancel_left this
        obtain ⟨N2, e2, _⟩ := hE2.new
        obtain ⟨N3, e3, _⟩ := hE3.new
        rw [hSS, e3, e2, List.append_assoc]
        intro pre x post he hxb
        rcases List.append_eq_append_iff.1 he with ⟨w, hw1, hw2⟩ | ⟨w, hw1, hw2⟩
        · rw [hw1, List.map_append]
          exact List.mem_append_left _ ha1
        · cases w with
          | nil =>
            rw [List.append_nil] at hw1
            rw [← hw1]
            exact ha1
          | cons w0 w =>
            simp only [List.cons_append, List.cons.injEq] at hw2
            exfalso
            exact hb1 x (by rw [hw1, hw2.1]; simp) hxb

/-- The specification of one iteration of the loop over sizes. -/
theorem travGroup_spec {rank : Nat → Nat} (hac : Acyclic g rank) {fuel : Nat}
    {tasks : List Nat} {s s' : TS} (hs : Idle s)
    (h : travGroup g refs size fuel tasks s = .ok s') :
    Idle s' ∧ ∃ S, s'.sched = s.sched ++ S ∧ GroupOk g refs size tasks S := by
  have hord := fun S hS p q hpq a hap hda b hb =>
    travGroup_order (refs := refs) hac hs h (S := S) hS (p := p) (q := q) hpq (a := a) hap hda
      (b := b) hb
  obtain ⟨⟨m0, st0, hg0, hns0⟩, hl0⟩ := hs
  unfold travGroup at h
  have hnew := Gen.step_inv hg0 .newGen trivial
  have hno : ∀ i, see i m0 .newGen = .no := by
    intro i
    simp [see, hns0 i]
  have hRe : ∀ i d nd a, Reach g (fun _ => False) tasks i d → g i = some nd → a ∈ edges nd d →
      Reach g (fun _ => False) tasks a.index a.depth :=
    fun i d nd a hr hg ha => .edge hr hg (fun h => h) ha
  have hI0 : TInv g refs size (Reach g (fun _ => False) tasks) s.sched []
      { s with gen := Gen.newGen s.gen } (fun _ => .no) := by
    have hfun : (fun i => see i m0 .newGen) = fun _ => Visit.no := funext hno
    rw [hfun] at hnew
    refine ⟨hnew, by simp, by simp, by simp, by simp, ?_, by simp, by simp [hl0]⟩
    intro pre x post he
    simp at he
  have ho0 : ∀ j, ¬ Open g refs [] (fun _ => Visit.no) j := fun j hj => by simpa using hj.1
  have hoi0 : ∀ j, ¬ OpenIn g refs (Reach g (fun _ => False) tasks) (fun _ => Visit.no)
      s.later j := fun j hj => by simpa using hj.1
  cases h1 : travTasks g refs size fuel { s with gen := Gen.newGen s.gen } tasks with
  | error e => rw [h1] at h; simp at h
  | ok s1 =>
    rw [h1] at h
    dsimp only at h
    cases h2 : travLater g refs size fuel fuel 0 s1 with
    | error e => rw [h2] at h; simp at h
    | ok s2 =>
      rw [h2] at h
      simp only [Except.ok.injEq] at h
      obtain ⟨S1, m1, hI1, hE1, hs1⟩ := travTasks_spec hac hRe (fun i hi => .root hi) hI0 ho0 hoi0 h1
      have ho1 : ∀ j, ¬ Open g refs S1 m1 j := fun j hj => ho0 j (hE1.opened j hj)
      have hoi1 := fun j hj => hoi0 j (hE1.openedIn j hj)
      obtain ⟨S2, m2, hI2, hE2, hs2⟩ := travLater_spec hac hRe hI1 ho1 hoi1 (by simp) h2
      have ho2 : ∀ j, ¬ Open g refs S2 m2 j := fun j hj => ho1 j (hE2.opened j hj)
      have hoi2 := fun j hj => hoi1 j (hE2.openedIn j hj)
      subst h
      refine ⟨⟨⟨m2, true, hI2.gen, hI2.nostash⟩, rfl⟩, S2, hI2.sched, hI2.nodup, ?_, ?_, ?_, ?_,
        hord S2 hI2.sched⟩
      · intro x hx
        obtain ⟨_, a, _, b⟩ := hI2.sound x hx
        exact ⟨a, b⟩
      · intro i nd j hgi hj
        by_cases hd : Dead g refs j
        · exact Or.inr hd
        · left
          intro pre x post he hxi
          rw [← hxi] at hgi
          rcases hI2.order pre x post he nd hgi j hj with h | h
          · exact h
          · exact absurd h hd
      · intro x hx
        exact (hI2.sound x hx).2.2.1
      · intro hone i hi
        have hseen := closure hI2 ho2 hoi2 (fun i hi => Seen.mono (hE2.mono i) (hs1 i hi)) hs2 hone hi
        have hout : m2 i = .outer := by
          rcases hseen with h | ⟨_, h⟩
          · exact h
          · exact absurd rfl h
        by_contra hc
        push Not at hc
        exact ho2 i ⟨hout, hc.1, hc.2⟩

/-- No bound of the model is reached: a recursion depth of twice the number of
variables always suffices, also on cyclic graphs. -/
theorem travGroup_terminates {N : Nat} (hN : ∀ i, N ≤ i → g i = none) {tasks : List Nat} {s : TS}
    (hs : Idle s) {fuel : Nat} (hf : 2 * N < fuel) :
    travGroup g refs size fuel tasks s ≠ .error .fuel := by
  obtain ⟨⟨m0, st0, hg0, hns0⟩, hl0⟩ := hs
  have hnew := Gen.step_inv hg0 .newGen trivial
  have hno : ∀ i, see i m0 .newGen = .no := by
    intro i
    simp [see, hns0 i]
  have hfun : (fun i => see i m0 .newGen) = fun _ => Visit.no := funext hno
  rw [hfun] at hnew
  have tasksTerm : ∀ (l : List Nat) (s : TS) (m : Nat → Visit), Gen.Inv s.gen m true →
      (∀ i, m i ≠ .stashed) → s.later.length + potential m N ≤ 2 * N →
      travTasks g refs size fuel s l ≠ .error .fuel ∧
      ∀ s', travTasks g refs size fuel s l = .ok s' → ∃ m', Gen.Inv s'.gen m' true ∧
        (∀ i, m' i ≠ .stashed) ∧ s'.later.length + potential m' N ≤ 2 * N := by
    intro l
    induction l with
    | nil =>
      intro s m h1 h2 h3
      refine ⟨by simp [travTasks], ?_⟩
      intro s' h
      simp only [travTasks, Except.ok.injEq] at h
      subst h
      exact ⟨m, h1, h2, h3⟩
    | cons i l ih =>
      intro s m h1 h2 h3
      have hp := potential_le m N
      obtain ⟨a, b⟩ := trav_term (g := g) (refs := refs) (size := size) hN fuel i 0 s m h1 h2
        (by omega)
      unfold travTasks
      cases ht : trav g refs size fuel i 0 s with
      | error e =>
        refine ⟨?_, by simp⟩
        intro hc
        simp only [Except.error.injEq] at hc
        subst hc
        exact a ht
      | ok s1 =>
        dsimp only
        obtain ⟨m1, c1, c2, c3, c5, c4⟩ := b s1 ht
        exact ih s1 m1 c1 c2 (by omega)
  have laterTerm : ∀ (n k : Nat) (s : TS) (m : Nat → Visit), Gen.Inv s.gen m true →
      (∀ i, m i ≠ .stashed) → s.later.length + potential m N ≤ 2 * N → 2 * N < n + k → k ≤ s.later.length →
      travLater g refs size fuel n k s ≠ .error .fuel := by
    intro n
    induction n with
    | zero =>
      intro k s m h1 h2 h3 h4 h5
      omega
    | succ n ih =>
      intro k s m h1 h2 h3 h4 h5
      have hp := potential_le m N
      unfold travLater
      cases hk : s.later[k]? with
      | none => simp
      | some x =>
        obtain ⟨i, d⟩ := x
        dsimp only
        obtain ⟨a, b⟩ := trav_term (g := g) (refs := refs) (size := size) hN fuel i d s m h1 h2
          (by omega)
        cases ht : trav g refs size fuel i d s with
        | error e =>
          dsimp only
          intro hc
          simp only [Except.error.injEq] at hc
          subst hc
          exact a ht
        | ok s1 =>
          dsimp only
          obtain ⟨m1, c1, c2, c3, c5, c4⟩ := b s1 ht
          have hlt : k < s.later.length := by
            by_contra hc
            rw [List.getElem?_eq_none (by omega)] at hk
            simp at hk
          exact ih (k + 1) s1 m1 c1 c2 (by omega) (by omega) (by omega)
  unfold travGroup
  have hp := potential_le (fun _ => Visit.no) N
  obtain ⟨a, b⟩ := tasksTerm tasks { s with gen := Gen.newGen s.gen } (fun _ => .no) hnew (by simp)
    (by simp only [hl0, List.length_nil]; omega)
  cases ht : travTasks g refs size fuel { s with gen := Gen.newGen s.gen } tasks with
  | error e =>
    dsimp only
    intro hc
    simp only [Except.error.injEq] at hc
    subst hc
    exact a ht
  | ok s1 =>
    dsimp only
    obtain ⟨m1, c1, c2, c3⟩ := b s1 ht
    have := laterTerm fuel 0 s1 m1 c1 c2 c3 (by omega) (by omega)
    cases hl : travLater g refs size fuel fuel 0 s1 with
    | error e =>
      dsimp only
      intro hc
      simp only [Except.error.injEq] at hc
      subst hc
      exact this hl
    | ok s2 => simp

end Verif.Eval
