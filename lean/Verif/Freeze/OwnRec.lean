import Verif.Freeze.Own

/-!
# The slots of a recording
-/

namespace Verif.Freeze

/-- The recorder after a sequence of calls; the first `nin` slots are those of the inputs. -/
structure WellRec (addr : Nat → Nat) (nin : Nat) (insA live : List Nat) (r : Rec) : Prop where
  lt : ∀ p s, r.map p = some s → s < r.n
  inj : ∀ p q s, r.map p = some s → r.map q = some s → p = q
  isInput : ∀ p s, r.map p = some s → s < nin → ∃ x ∈ live, x ∈ insA ∧ addr x = p
  init : ∀ s, s < r.n → (r.var s).init = decide (s < nin)
  index : ∀ s, s < nin → (r.var s).index = s
  ninLe : nin ≤ r.n
  inputs : r.inputs = List.range nin
  ops : ∀ op ∈ r.ops, ∀ s ∈ op.outs, nin ≤ s ∧ s < r.n

/-- The address `p` does not belong to an input. -/
def Writable (nin : Nat) (r : Rec) (p : Nat) : Prop := ∀ s, r.map p = some s → nin ≤ s

variable {addr : Nat → Nat} {nin : Nat} {insA live : List Nat} {r : Rec}

theorem WellRec.weaken (h : WellRec addr nin insA live r) {live' : List Nat}
    (hl : ∀ x ∈ live, x ∈ live') : WellRec addr nin insA live' r :=
  { h with
    isInput := fun p s h1 h2 => by
      obtain ⟨x, a, b, c⟩ := h.isInput p s h1 h2
      exact ⟨x, hl x a, b, c⟩ }

theorem WellRec.addVariable (h : WellRec addr nin insA live r) (p : Nat) :
    WellRec addr nin insA live (Verif.Freeze.addVariable r p).1 ∧
    (Verif.Freeze.addVariable r p).2 < (Verif.Freeze.addVariable r p).1.n ∧
    (Writable nin r p → nin ≤ (Verif.Freeze.addVariable r p).2) ∧
    (∀ q, Writable nin r q → Writable nin (Verif.Freeze.addVariable r p).1 q) ∧
    r.n ≤ (Verif.Freeze.addVariable r p).1.n := by
  unfold Verif.Freeze.addVariable
  cases hm : r.map p with
  | some s => exact ⟨h, h.lt p s hm, fun w => w s hm, fun _ w => w, Nat.le_refl _⟩
  | none =>
    simp only
    refine ⟨?_, Nat.lt_succ_self _, fun _ => h.ninLe, ?_, Nat.le_succ _⟩
    · constructor
      · intro q s hq
        show s < r.n + 1
        by_cases e : q = p
        · simp only [e, if_true, Option.some.injEq] at hq
          omega
        · simp only [e, if_false] at hq
          have := h.lt q s hq
          omega
      · intro q q' s h1 h2
        by_cases e1 : q = p
        · by_cases e2 : q' = p
          · exact e1.trans e2.symm
          · simp only [e1, if_true, Option.some.injEq] at h1
            simp only [e2, if_false] at h2
            have := h.lt q' s h2
            omega
        · by_cases e2 : q' = p
          · simp only [e2, if_true, Option.some.injEq] at h2
            simp only [e1, if_false] at h1
            have := h.lt q s h1
            omega
          · simp only [e1, e2, if_false] at h1 h2
            exact h.inj q q' s h1 h2
      · intro q s hq hs
        by_cases e : q = p
        · simp only [e, if_true, Option.some.injEq] at hq
          have := h.ninLe
          omega
        · simp only [e, if_false] at hq
          exact h.isInput q s hq hs
      · intro s hs
        have hs : s < r.n + 1 := hs
        show (if s = r.n then ({} : RVar) else r.var s).init = _
        by_cases e : s = r.n
        · have : ¬ s < nin := by
            have := h.ninLe
            omega
          simp [e]
          exact h.ninLe
        · simp only [e, if_false]
          exact h.init s (by omega)
      · intro s hs
        show (if s = r.n then ({} : RVar) else r.var s).index = _
        have e : s ≠ r.n := by
          have := h.ninLe
          omega
        simp only [e, if_false]
        exact h.index s hs
      · exact Nat.le_succ_of_le h.ninLe
      · exact h.inputs
      · intro op hop s hs
        have := h.ops op hop s hs
        exact ⟨this.1, Nat.lt_succ_of_lt this.2⟩
    · intro q w s hq
      by_cases e : q = p
      · simp only [e, if_true, Option.some.injEq] at hq
        have := h.ninLe
        omega
      · simp only [e, if_false] at hq
        exact w s hq

theorem WellRec.addOutput (h : WellRec addr nin insA live r) (a : Access) :
    WellRec addr nin insA live (Verif.Freeze.addOutput r a).1 where
  lt := h.lt
  inj := h.inj
  isInput := h.isInput
  init := fun s hs => by
    show (if s = a.slot then _ else r.var s).init = _
    by_cases e : s = a.slot
    · simp only [e, if_true]
      rw [← h.init a.slot (e ▸ hs)]
    · simp only [e, if_false]
      exact h.init s hs
  index := fun s hs => by
    show (if s = a.slot then _ else r.var s).index = _
    by_cases e : s = a.slot
    · simp only [e, if_true]
      exact h.index a.slot (e ▸ hs)
    · simp only [e, if_false]
      exact h.index s hs
  ninLe := h.ninLe
  inputs := h.inputs
  ops := h.ops

theorem WellRec.addOutParam (h : WellRec addr nin insA live r) (p vt : Nat)
    (hw : Writable nin r p) :
    WellRec addr nin insA live (Verif.Freeze.addOutParam r p vt).1 ∧
    (nin ≤ (Verif.Freeze.addOutParam r p vt).2.slot ∧
      (Verif.Freeze.addOutParam r p vt).2.slot < (Verif.Freeze.addOutParam r p vt).1.n) ∧
    (∀ q, Writable nin r q → Writable nin (Verif.Freeze.addOutParam r p vt).1 q) ∧
    r.n ≤ (Verif.Freeze.addOutParam r p vt).1.n := by
  obtain ⟨h1, h2, h3, h4, h5⟩ := h.addVariable p
  exact ⟨h1.addOutput _, ⟨h3 hw, h2⟩, h4, h5⟩

theorem WellRec.push (h : WellRec addr nin insA live r) (op : Op)
    (ho : ∀ s ∈ op.outs, nin ≤ s ∧ s < r.n) : WellRec addr nin insA live (r.push op) where
  lt := h.lt
  inj := h.inj
  isInput := h.isInput
  init := h.init
  index := h.index
  ninLe := h.ninLe
  inputs := h.inputs
  ops := fun op' hop s hs => by
    rcases List.mem_append.1 hop with hp | hp
    · exact h.ops op' hp s hs
    · rw [List.mem_singleton] at hp
      subst hp
      exact ho s hs

theorem WellRec.setDry (h : WellRec addr nin insA live r) (b : Bool) :
    WellRec addr nin insA live { r with dry := b } :=
  ⟨h.lt, h.inj, h.isInput, h.init, h.index, h.ninLe, h.inputs, h.ops⟩

theorem WellRec.setExn (h : WellRec addr nin insA live r) (b : Bool) :
    WellRec addr nin insA live { r with exn := b } :=
  ⟨h.lt, h.inj, h.isInput, h.init, h.index, h.ninLe, h.inputs, h.ops⟩

theorem WellRec.writable (h : WellRec addr nin insA live r) {outs : List Nat}
    (hap : Apart addr (outs ++ live)) {x : Nat} (hx : x ∈ outs) (hi : x ∉ insA) :
    Writable nin r (addr x) := by
  intro s hs
  by_cases hl : s < nin
  · obtain ⟨y, h1, h2, h3⟩ := h.isInput _ _ hs hl
    have := hap y (List.mem_append.2 (Or.inr h1)) x (List.mem_append.2 (Or.inl hx)) h3
    subst this
    exact absurd h2 hi
  · exact Nat.not_lt.1 hl

theorem WellRec.params {size : Nat} {ps : List Param} (h : WellRec addr nin insA live r)
    (hw : ∀ p ∈ ps, p.kind = .output → Writable nin r (addr p.arr)) {i q : Nat}
    {as : List Access} (ha : ∀ a ∈ as, a.ptype = .output → nin ≤ a.slot ∧ a.slot < r.n)
    {x : Rec × Nat × Nat × List Access} (hx : recordParams addr size ps r i q as = some x) :
    WellRec addr nin insA live x.1 ∧
      ∀ a ∈ x.2.2.2, a.ptype = .output → nin ≤ a.slot ∧ a.slot < x.1.n := by
  induction ps generalizing r i q as with
  | nil =>
    cases hx
    exact ⟨h, ha⟩
  | cons p ps ih =>
    unfold recordParams at hx
    rw [Option.bind_eq_some_iff] at hx
    obtain ⟨y, hy, hx⟩ := hx
    have key : WellRec addr nin insA live y.1 ∧
        (y.2.2.2.ptype = .output → nin ≤ y.2.2.2.slot ∧ y.2.2.2.slot < y.1.n) ∧
        (∀ q, Writable nin r q → Writable nin y.1 q) ∧ r.n ≤ y.1.n := by
      unfold recordParam at hy
      split at hy
      · rw [Option.bind_eq_some_iff] at hy
        obtain ⟨s, _, hy⟩ := hy
        rw [Option.map_eq_some_iff] at hy
        obtain ⟨a, haa, rfl⟩ := hy
        refine ⟨h, fun e => ?_, fun _ w => w, Nat.le_refl _⟩
        unfold addInput at haa
        split at haa
        · cases haa
        · cases haa
          simp only at e
          split at e <;> cases e
      · rw [Option.bind_eq_some_iff] at hy
        obtain ⟨s, _, hy⟩ := hy
        rw [Option.map_eq_some_iff] at hy
        obtain ⟨a, haa, rfl⟩ := hy
        refine ⟨h, fun e => ?_, fun _ w => w, Nat.le_refl _⟩
        unfold addInput at haa
        split at haa
        · cases haa
        · cases haa
          simp only at e
          split at e <;> cases e
      · rename_i hk
        cases hy
        obtain ⟨h1, h2, h3, h4, h5⟩ := h.addVariable (addr p.arr)
        refine ⟨h1.addOutput _, fun _ => ⟨?_, h2⟩, h4, h5⟩
        exact h3 (hw p (List.mem_cons_self ..) hk)
    obtain ⟨k1, k2, k3, k4⟩ := key
    refine ih k1 (fun p hp hk => k3 _ (hw p (List.mem_cons_of_mem _ hp) hk)) ?_ hx
    intro a hma hpo
    rcases List.mem_append.1 hma with hm | hm
    · have := ha a hm hpo
      exact ⟨this.1, Nat.lt_of_lt_of_le this.2 k4⟩
    · rw [List.mem_singleton] at hm
      subst hm
      exact k2 hpo

theorem mem_flagPointers {k : Nat} {ps : List Param} {as : List Access} {a : Access}
    (h : a ∈ flagPointers k ps as) : ∃ b ∈ as, b.slot = a.slot ∧ b.ptype = a.ptype := by
  induction ps generalizing as with
  | nil =>
    unfold flagPointers at h
    exact ⟨a, h, rfl, rfl⟩
  | cons p ps ih =>
    cases as with
    | nil =>
      unfold flagPointers at h
      cases h
    | cons b bs =>
      unfold flagPointers at h
      rcases List.mem_cons.1 h with e | h
      · refine ⟨b, List.mem_cons_self .., ?_⟩
        rw [e]
        split <;> exact ⟨rfl, rfl⟩
      · obtain ⟨c, hc, e⟩ := ih h
        exact ⟨c, List.mem_cons_of_mem _ hc, e⟩

theorem WellRec.entries {isAlloc : Nat → Bool} {es : List Entry}
    (h : WellRec addr nin insA live r) {as : List Access} {x : Rec × List Access}
    (hx : recordEntries addr isAlloc es r as = some x) :
    WellRec addr nin insA live x.1 ∧ r.n ≤ x.1.n ∧ ∃ bs, x.2 = as ++ bs := by
  induction es generalizing r as with
  | nil =>
    cases hx
    exact ⟨h, Nat.le_refl _, [], (List.append_nil _).symm⟩
  | cons e es ih =>
    unfold recordEntries at hx
    rw [Option.bind_eq_some_iff] at hx
    obtain ⟨y, hy, hx⟩ := hx
    have key : WellRec addr nin insA live y.1 ∧ r.n ≤ y.1.n := by
      unfold recordEntry at hy
      split at hy
      · split at hy
        · rw [Option.map_eq_some_iff] at hy
          obtain ⟨a, _, rfl⟩ := hy
          obtain ⟨h1, _, _, _, h5⟩ := h.addVariable _
          exact ⟨h1, h5⟩
        · cases hy
          exact ⟨h, Nat.le_refl _⟩
      · split at hy
        · rw [Option.map_eq_some_iff] at hy
          obtain ⟨a, _, rfl⟩ := hy
          obtain ⟨h1, _, _, _, h5⟩ := h.addVariable _
          exact ⟨h1, h5⟩
        · cases hy
          exact ⟨h, Nat.le_refl _⟩
      · rw [Option.map_eq_some_iff] at hy
        obtain ⟨a, _, rfl⟩ := hy
        obtain ⟨h1, _, _, _, h5⟩ := h.addVariable _
        exact ⟨h1, h5⟩
    obtain ⟨k1, k2, bs, k3⟩ := ih key.1 hx
    exact ⟨k1, Nat.le_trans key.2 k2, y.2 :: bs, by rw [k3, List.append_assoc]; rfl⟩

theorem WellRec.cmd {c : Cmd} {r1 : Rec} (h : WellRec addr nin insA live r)
    (hap : Apart addr (c.outs ++ live)) (hi : ∀ x ∈ c.outs, x ∉ insA)
    (hr : recordCmd addr live r c = some r1) : WellRec addr nin insA (c.live live) r1 := by
  have hsub : ∀ outs : List Nat, ∀ x ∈ live, x ∈ outs ++ live :=
    fun outs x hx => List.mem_append.2 (Or.inr hx)
  have hw : ∀ x ∈ c.outs, Writable nin r (addr x) := fun x hx => h.writable hap hx (hi x hx)
  cases c with
  | launch k n ps =>
    simp only [recordCmd, recordLaunch] at hr
    rw [Option.map_eq_some_iff] at hr
    obtain ⟨x, hx, rfl⟩ := hr
    have hw' : ∀ p ∈ ps, p.kind = .output → Writable nin r (addr p.arr) := by
      intro p hp hk
      exact hw p.arr (List.mem_map_of_mem (List.mem_filter.2 ⟨hp, by simpa using hk⟩))
    obtain ⟨h1, h2⟩ := h.params hw' (fun a ha => by cases ha) hx
    refine ((h1.push _ ?_).weaken (hsub _))
    intro s hs
    simp only [Op.outs] at hs
    obtain ⟨a, ha, rfl⟩ := List.mem_map.1 hs
    obtain ⟨ha, hp⟩ := List.mem_filter.1 ha
    simp only [decide_eq_true_eq] at hp
    split at ha
    · obtain ⟨b, hb, e1, e2⟩ := mem_flagPointers ha
      rw [← e1]
      exact h2 b hb (e2.trans hp)
    · exact h2 a ha hp
  | memset x size isize v =>
    simp only [recordCmd, recordMemset, Option.some.injEq] at hr
    subst hr
    obtain ⟨h1, h2, _⟩ := h.addOutParam (addr x) 0 (hw x (List.mem_cons_self ..))
    refine ((h1.push _ ?_).weaken (hsub _))
    intro s hs
    simp only [Op.outs, Op.dep, List.mem_singleton] at hs
    subst hs
    exact h2
  | memcpy dst src b =>
    simp only [recordCmd, recordMemcpy] at hr
    rw [Option.bind_eq_some_iff] at hr
    obtain ⟨s, _, hr⟩ := hr
    rw [Option.map_eq_some_iff] at hr
    obtain ⟨a, _, rfl⟩ := hr
    obtain ⟨h1, h2, h3, _⟩ := h.addVariable (addr dst)
    refine (((h1.addOutput _).push _ ?_).weaken (hsub _))
    intro s hs
    simp only [Op.outs, Op.dep, List.mem_singleton] at hs
    subst hs
    exact ⟨h3 (hw dst (List.mem_cons_self ..)), h2⟩
  | memcpySync dst src b =>
    simp only [recordCmd, Option.some.injEq] at hr
    subst hr
    exact h.weaken (hsub _)
  | compress src s out =>
    simp only [recordCmd, recordCompress] at hr
    rw [Option.map_eq_some_iff] at hr
    obtain ⟨a, _, rfl⟩ := hr
    obtain ⟨h1, h2, _⟩ := h.addOutParam (addr out) 8 (hw out (List.mem_cons_self ..))
    refine ((h1.push _ ?_).weaken (hsub _))
    intro s hs
    simp only [Op.outs, Op.dep, List.mem_singleton] at hs
    subst hs
    exact h2
  | mkperm src s bs buckets perm offs =>
    simp only [recordCmd, recordMkperm] at hr
    split at hr
    · rw [Option.map_eq_some_iff] at hr
      obtain ⟨a, _, rfl⟩ := hr
      obtain ⟨h1, h2, h3, _⟩ := h.addOutParam (addr perm) 8 (hw perm (List.mem_cons_self ..))
      obtain ⟨k1, k2, _, k4⟩ := h1.addOutParam (addr offs) 8
        (h3 _ (hw offs (List.mem_cons_of_mem _ (List.mem_cons_self ..))))
      refine ((k1.push _ ?_).weaken (hsub _))
      intro s hs
      simp only [Op.outs, Op.dep, List.mem_cons, List.not_mem_nil, or_false] at hs
      rcases hs with rfl | rfl
      · exact ⟨h2.1, Nat.lt_of_lt_of_le h2.2 k4⟩
      · exact k2
    · cases hr
      exact h.weaken (hsub _)
  | blockReduce vt rop s bs src out =>
    simp only [recordCmd, recordBlockReduce] at hr
    rw [Option.map_eq_some_iff] at hr
    obtain ⟨a, _, rfl⟩ := hr
    obtain ⟨h1, h2, _⟩ := h.addOutParam (addr out) vt (hw out (List.mem_cons_self ..))
    refine (((h1.push _ ?_).setDry _).weaken (hsub _))
    intro s hs
    simp only [Op.outs, Op.dep, List.mem_singleton] at hs
    subst hs
    exact h2
  | prefixReduce vt rop s bs ex rev src out =>
    simp only [recordCmd, recordPrefixReduce] at hr
    rw [Option.map_eq_some_iff] at hr
    obtain ⟨a, _, rfl⟩ := hr
    obtain ⟨h1, h2, _⟩ := h.addOutParam (addr out) vt (hw out (List.mem_cons_self ..))
    refine (((h1.push _ ?_).setDry _).weaken (hsub _))
    intro s hs
    simp only [Op.outs, Op.dep, List.mem_singleton] at hs
    subst hs
    exact h2
  | reduceBool rop s src out =>
    simp only [recordCmd, recordReduceBool] at hr
    rw [Option.map_eq_some_iff] at hr
    obtain ⟨a, _, rfl⟩ := hr
    obtain ⟨h1, h2, _⟩ := h.addOutParam (addr out) 1 (hw out (List.mem_cons_self ..))
    refine ((h1.push _ ?_).weaken (hsub _))
    intro s hs
    simp only [Op.outs, Op.dep, List.mem_singleton] at hs
    subst hs
    exact h2
  | dot vt x y s out =>
    simp only [recordCmd, recordDot] at hr
    rw [Option.bind_eq_some_iff] at hr
    obtain ⟨a, _, hr⟩ := hr
    rw [Option.map_eq_some_iff] at hr
    obtain ⟨b, _, rfl⟩ := hr
    obtain ⟨h1, h2, _⟩ := h.addOutParam (addr out) vt (hw out (List.mem_cons_self ..))
    refine ((h1.push _ ?_).weaken (hsub _))
    intro s hs
    simp only [Op.outs, Op.dep, List.mem_singleton] at hs
    subst hs
    exact h2
  | gemm vt flags M N K grid batch A B C =>
    simp only [recordCmd, recordGemm] at hr
    rw [Option.bind_eq_some_iff] at hr
    obtain ⟨a, _, hr⟩ := hr
    rw [Option.map_eq_some_iff] at hr
    obtain ⟨b, _, rfl⟩ := hr
    obtain ⟨h1, h2, _⟩ := h.addOutParam (addr C) vt (hw C (List.mem_cons_self ..))
    refine (((h1.push _ ?_).setDry _).weaken (hsub _))
    intro s hs
    simp only [Op.outs, Op.dep, List.mem_singleton] at hs
    subst hs
    exact h2
  | aggregate dst total es =>
    simp only [recordCmd, recordAggregate] at hr
    rw [Option.map_eq_some_iff] at hr
    obtain ⟨x, hx, rfl⟩ := hr
    obtain ⟨h1, h2, _, _⟩ := h.addOutParam (addr dst) 4 (hw dst (List.mem_cons_self ..))
    obtain ⟨k1, k2, bs, k3⟩ := h1.entries hx
    refine ((k1.push _ ?_).weaken (hsub _))
    intro s hs
    simp only [Op.outs, Op.dep, List.mem_singleton] at hs
    rw [k3] at hs
    subst hs
    exact ⟨h2.1, Nat.lt_of_lt_of_le h2.2 k2⟩
  | opaqueWidth src vt s out =>
    simp only [recordCmd, recordOpaqueWidth] at hr
    rw [Option.map_eq_some_iff] at hr
    obtain ⟨a, _, rfl⟩ := hr
    obtain ⟨h1, h2, _⟩ := h.addOutParam (addr out) 8 (hw out (List.mem_cons_self ..))
    refine ((h1.push _ ?_).weaken (hsub _))
    intro s hs
    simp only [Op.outs, Op.dep, List.mem_singleton] at hs
    subst hs
    exact h2
  | undef x vt s =>
    simp only [recordCmd, recordUndef, Option.some.injEq] at hr
    subst hr
    obtain ⟨h1, h2, _⟩ := h.addOutParam (addr x) vt (hw x (List.mem_cons_self ..))
    refine ((h1.push _ ?_).weaken (hsub _))
    intro s hs
    simp only [Op.outs, Op.dep, List.mem_singleton] at hs
    subst hs
    exact h2
  | barrier =>
    simp only [recordCmd, Option.some.injEq] at hr
    subst hr
    refine ((h.push _ ?_).weaken (hsub _))
    intro s hs
    cases hs
  | free x =>
    simp only [recordCmd, Option.some.injEq] at hr
    subst hr
    unfold recordFree
    refine ⟨?_, ?_, ?_, h.init, h.index, h.ninLe, h.inputs, h.ops⟩
    · intro p s hp
      by_cases e : p = addr x
      · simp only [e, if_true] at hp
        cases hp
      · simp only [e, if_false] at hp
        exact h.lt p s hp
    · intro p q s hp hq
      by_cases e : p = addr x
      · simp only [e, if_true] at hp
        cases hp
      · by_cases e2 : q = addr x
        · simp only [e2, if_true] at hq
          cases hq
        · simp only [e, e2, if_false] at hp hq
          exact h.inj p q s hp hq
    · intro p s hp hs
      by_cases e : p = addr x
      · simp only [e, if_true] at hp
        cases hp
      · simp only [e, if_false] at hp
        obtain ⟨y, h1, h2, h3⟩ := h.isInput p s hp hs
        refine ⟨y, ?_, h2, h3⟩
        simp only [Cmd.live]
        refine List.mem_filter.2 ⟨h1, ?_⟩
        have : y ≠ x := by
          rintro rfl
          exact e h3.symm
        simpa using this

theorem WellRec.all {tr : List Cmd} (h : WellRec addr nin insA live r)
    (hp : Placed addr live tr) (hi : ∀ c ∈ tr, ∀ x ∈ c.outs, x ∉ insA) :
    ∃ live', WellRec addr nin insA live' (recordAll addr live r tr) := by
  induction tr generalizing live r with
  | nil => exact ⟨live, h⟩
  | cons c cs ih =>
    unfold recordAll
    refine ih ?_ hp.2.2 fun d hd => hi d (List.mem_cons_of_mem _ hd)
    cases hc : recordCmd addr live r c with
    | some r1 => exact h.cmd hp.1 (hi c (List.mem_cons_self ..)) hc
    | none =>
      refine (h.setExn true).weaken ?_
      cases c with
      | free x => cases hc
      | _ => exact fun x hx => List.mem_append.2 (Or.inr hx)

end Verif.Freeze
