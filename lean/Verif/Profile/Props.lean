import Verif.Profile.Model

/-!
# C100: Ranges in the profiler
-/
namespace Verif.Profile

/-! ### Specification -/

/-- Depth of the ranges of a thread: `none` if it ends more ranges than it began. -/
def depth (t : Nat) : Nat → List Op → Option Nat
  | d, [] => some d
  | d, .push t' _ :: ops => depth t (if t' = t then d + 1 else d) ops
  | d, .pop t' :: ops => if t' = t then (match d with | 0 => none | d + 1 => depth t d ops) else depth t d ops
  | d, _ :: ops => depth t d ops

/-- Only ranges begin and end: the profiler is neither attached nor detached. -/
def Ranges (ops : List Op) : Prop := ∀ op ∈ ops, (∃ t m, op = .push t m) ∨ ∃ t, op = .pop t

/-! ### Proofs -/

theorem run_cons {s s' : St} {op : Op} {ops : List Op} {evs : List Ev} (h : run s (op :: ops) = some (s', evs)) :
    ∃ s1 e1 e2, step s op = some (s1, e1) ∧ run s1 ops = some (s', e2) ∧ evs = e1 ++ e2 := by
  unfold run at h
  cases h1 : step s op with
  | none => rw [h1] at h; cases h
  | some p =>
    obtain ⟨s1, e1⟩ := p
    rw [h1] at h
    dsimp only at h
    cases h2 : run s1 ops with
    | none => rw [h2] at h; cases h
    | some q =>
      obtain ⟨s2, e2⟩ := q
      rw [h2] at h
      dsimp only at h
      cases h
      exact ⟨s1, e1, e2, rfl, h2, rfl⟩

theorem run_append (s : St) (a b : List Op) {s' : St} {evs : List Ev} (h : run s (a ++ b) = some (s', evs)) :
    ∃ s1 e1 e2, run s a = some (s1, e1) ∧ run s1 b = some (s', e2) ∧ evs = e1 ++ e2 := by
  induction a generalizing s evs with
  | nil => exact ⟨s, [], evs, rfl, h, rfl⟩
  | cons op a ih =>
    obtain ⟨s1, e1, e2, h1, h2, rfl⟩ := run_cons h
    obtain ⟨s2, f1, f2, g1, g2, rfl⟩ := ih s1 h2
    refine ⟨s2, e1 ++ f1, f2, ?_, g2, by rw [List.append_assoc]⟩
    unfold run
    rw [h1]
    dsimp only
    rw [g1]

theorem step_push {s : St} {l : Nat} (hl : s.log = some l) (t m : Nat) :
    step s (.push t m) = some (⟨some l, s.nextLog, s.nextId + 1, Function.update s.stacks t (s.nextId :: s.stacks t)⟩, [.start l s.nextId t m]) := by
  simp only [step, hl]

theorem step_pop {s : St} {l t id : Nat} {ids : List Nat} (hl : s.log = some l) (hs : s.stacks t = id :: ids) :
    step s (.pop t) = some (⟨some l, s.nextLog, s.nextId, Function.update s.stacks t ids⟩, [.stop l id]) := by
  simp only [step, hl, hs]

/-- Identifiers of new ranges -/
def Fresh (n : Nat) (evs : List Ev) : Prop := ∀ l id t m, Ev.start l id t m ∈ evs → n ≤ id

theorem middle (t l : Nat) (base : List Nat) : ∀ (ops : List Op) (s : St) (extra : List Nat) (d : Nat) (s' : St) (evs : List Ev), Ranges ops → s.log = some l → s.stacks t = extra ++ base →
    depth t extra.length ops = some d → run s ops = some (s', evs) →
    s'.log = some l ∧ (∃ extra', extra'.length = d ∧ s'.stacks t = extra' ++ base) ∧ Fresh s.nextId evs ∧ s.nextId ≤ s'.nextId := by
  intro ops
  induction ops with
  | nil =>
    intro s extra d s' evs _ hl hs hd hr
    cases hr
    exact ⟨hl, ⟨extra, Option.some.inj hd, hs⟩, ⟨fun _ _ _ _ hm => (List.not_mem_nil hm).elim, Nat.le_refl _⟩⟩
  | cons op ops ih =>
    intro s extra d s' evs hops hl hs hd hr
    obtain ⟨s1, e1, e2, h1, h2, rfl⟩ := run_cons hr
    have hops' : Ranges ops := fun o ho => hops o (List.mem_cons_of_mem _ ho)
    rcases hops op List.mem_cons_self with ⟨t', m, rfl⟩ | ⟨t', rfl⟩
    · unfold step at h1
      rw [hl] at h1
      cases h1
      unfold depth at hd
      have conc : ∀ ex : List Nat, Function.update s.stacks t' (s.nextId :: s.stacks t') t = ex ++ base → depth t ex.length ops = some d →
          s'.log = some l ∧ (∃ extra', extra'.length = d ∧ s'.stacks t = extra' ++ base) ∧ Fresh s.nextId ([Ev.start l s.nextId t' m] ++ e2) ∧ s.nextId ≤ s'.nextId := by
        intro ex hex hdx
        obtain ⟨i1, i2, i3, i4⟩ := ih _ ex d s' e2 hops' rfl hex hdx h2
        dsimp only at i3 i4
        refine ⟨i1, i2, fun l' id t'' m' hm => ?_, by omega⟩
        rcases List.mem_append.1 hm with e | e
        · rw [List.mem_singleton] at e
          cases e
          exact Nat.le_refl _
        · have := i3 l' id t'' m' e
          omega
      by_cases ht : t' = t
      · rw [if_pos ht] at hd
        refine conc (s.nextId :: extra) ?_ hd
        rw [ht, Function.update_self, hs]
        rfl
      · rw [if_neg ht] at hd
        exact conc extra (by rw [Function.update_of_ne (fun e => ht e.symm)]; exact hs) hd
    · unfold step at h1
      rw [hl] at h1
      dsimp only at h1
      cases hst : s.stacks t' with
      | nil => rw [hst] at h1; cases h1
      | cons id ids =>
        rw [hst] at h1
        cases h1
        unfold depth at hd
        have conc : ∀ ex : List Nat, Function.update s.stacks t' ids t = ex ++ base → depth t ex.length ops = some d →
            s'.log = some l ∧ (∃ extra', extra'.length = d ∧ s'.stacks t = extra' ++ base) ∧ Fresh s.nextId ([Ev.stop l id] ++ e2) ∧ s.nextId ≤ s'.nextId := by
          intro ex hex hdx
          obtain ⟨i1, i2, i3, i4⟩ := ih _ ex d s' e2 hops' rfl hex hdx h2
          refine ⟨i1, i2, fun l' id' t'' m' hm => ?_, i4⟩
          rcases List.mem_append.1 hm with e | e
          · rw [List.mem_singleton] at e; cases e
          · exact i3 l' id' t'' m' e
        by_cases ht : t' = t
        · rw [if_pos ht] at hd
          cases extra with
          | nil => cases hd
          | cons x ex =>
            refine conc ex ?_ hd
            rw [ht, Function.update_self]
            rw [ht, hs] at hst
            exact (List.cons.inj hst).2.symm
        · rw [if_neg ht] at hd
          exact conc extra (by rw [Function.update_of_ne (fun e => ht e.symm)]; exact hs) hd

/-- **C100 (matching).**  While the profiler is attached, the end of a range ends the interval that its own thread began with the matching call, whatever other threads do meanwhile, and
restores the ranges of the thread; no other interval has the same identifier. -/
theorem C100_matching_partial {s s' : St} {t msg l : Nat} {mid : List Op} {evs : List Ev} (h : run s (.push t msg :: mid ++ [.pop t]) = some (s', evs)) (hl : s.log = some l)
    (hm : Ranges mid) (hd : depth t 0 mid = some 0) :
    ∃ id evs', evs = .start l id t msg :: evs' ++ [.stop l id] ∧ s'.stacks t = s.stacks t ∧ ∀ l' t' m', Ev.start l' id t' m' ∉ evs' := by
  obtain ⟨s1, e1, e2, h1, h2, rfl⟩ := run_cons h
  obtain ⟨s2, f1, f2, g1, g2, rfl⟩ := run_append _ _ _ h2
  unfold step at h1
  rw [hl] at h1
  cases h1
  obtain ⟨i1, ⟨extra, hx, i2⟩, i3, _⟩ := middle t l (s.nextId :: s.stacks t) mid _ [] 0 s2 f1 hm rfl (by dsimp only; rw [Function.update_self]; rfl) hd g1
  have hx : extra = [] := List.length_eq_zero_iff.1 hx
  rw [hx, List.nil_append] at i2
  obtain ⟨s3, e3, e4, k1, k2, rfl⟩ := run_cons g2
  unfold step at k1
  rw [i1] at k1
  dsimp only at k1
  rw [i2] at k1
  cases k1
  cases k2
  refine ⟨s.nextId, f1, rfl, by dsimp only; rw [Function.update_self], fun l' t' m' hmem => ?_⟩
  have := i3 l' s.nextId t' m' hmem
  dsimp only at this
  omega

/-- **C100 (no failure).**  While the profiler is attached, calls do not fail if no thread ends more ranges than it began. -/
theorem C100_ok_partial {l : Nat} : ∀ (ops : List Op) (s : St), Ranges ops → s.log = some l → (∀ t, depth t (s.stacks t).length ops ≠ none) → ∃ r, run s ops = some r := by
  intro ops
  induction ops with
  | nil => intro s _ _ _; exact ⟨_, rfl⟩
  | cons op ops ih =>
    intro s hops hl hd
    have hops' : Ranges ops := fun o ho => hops o (List.mem_cons_of_mem _ ho)
    have fin : ∀ s1 e1, step s op = some (s1, e1) → s1.log = some l → (∀ t, depth t (s1.stacks t).length ops ≠ none) → ∃ r, run s (op :: ops) = some r := by
      intro s1 e1 h1 hl1 hd1
      obtain ⟨⟨s2, e2⟩, h2⟩ := ih s1 hops' hl1 hd1
      refine ⟨(s2, e1 ++ e2), ?_⟩
      unfold run
      rw [h1]
      dsimp only
      rw [h2]
    rcases hops op List.mem_cons_self with ⟨t', m, rfl⟩ | ⟨t', rfl⟩
    · refine fin _ _ (step_push hl t' m) rfl fun t => ?_
      have := hd t
      unfold depth at this
      dsimp only
      by_cases ht : t' = t
      · subst ht
        rw [if_pos rfl] at this
        rw [Function.update_self]
        exact this
      · rw [if_neg ht] at this
        rw [Function.update_of_ne (fun e => ht e.symm)]
        exact this
    · cases hst : s.stacks t' with
      | nil =>
        have := hd t'
        unfold depth at this
        rw [if_pos rfl, hst] at this
        exact absurd rfl this
      | cons id ids =>
        refine fin _ _ (step_pop hl hst) rfl fun t => ?_
        have := hd t
        unfold depth at this
        dsimp only
        by_cases ht : t' = t
        · subst ht
          rw [if_pos rfl, hst] at this
          rw [Function.update_self]
          exact this
        · rw [if_neg ht] at this
          rw [Function.update_of_ne (fun e => ht e.symm)]
          exact this

/-- **C100 (without profiler).**  If no profiler is attached, ranges have no effect. -/
theorem C100_detached : ∀ (ops : List Op) (s : St), Ranges ops → s.log = none → run s ops = some (s, []) := by
  intro ops
  induction ops with
  | nil => intro s _ _; rfl
  | cons op ops ih =>
    intro s hops hl
    have hstep : step s op = some (s, []) := by
      rcases hops op List.mem_cons_self with ⟨t', m, rfl⟩ | ⟨t', rfl⟩ <;> simp only [step, hl]
    unfold run
    rw [hstep]
    dsimp only
    rw [ih s (fun o ho => hops o (List.mem_cons_of_mem _ ho)) hl]
    rfl

/-- State when the library is loaded -/
def start : St := ⟨none, 0, 0, fun _ => []⟩

/-- **C100 fails** for a range around the initialisation of the library: its beginning is ignored, and its end is a fatal error. -/
theorem C100_init_counterexample : depth 0 0 [.push 0 7, .init true, .pop 0] = some 0 ∧ (run start [.push 0 7, .init true, .pop 0]).isNone = true := by decide

/-- **C100 fails** when the library is shut down and initialised again: ranges of other threads remain, and are ended in a log in which they have not begun, in place of the right one. -/
theorem C100_shutdown_counterexample :
    (run start [.init true, .push 1 7, .shutdown 0, .pop 1, .init true, .pop 1]).map (·.2) = some [.start 0 0 1 7, .stop 1 0] := by decide

/-! ### Examples -/

/-- Two threads with nested ranges -/
example : (run { start with log := some 3 } [.push 0 10, .push 1 20, .push 0 11, .pop 0, .pop 1, .pop 0]).map (·.2) =
    some [.start 3 0 0 10, .start 3 1 1 20, .start 3 2 0 11, .stop 3 2, .stop 3 1, .stop 3 0] ∧ depth 0 0 [.push 1 20, .push 0 11, .pop 0, .pop 1] = some 0 := by decide

example : Ranges [.push 1 20, .push 0 11, .pop 0, .pop 1] := by
  intro op h
  simp only [List.mem_cons, List.not_mem_nil, or_false] at h
  rcases h with rfl | rfl | rfl | rfl
  exacts [.inl ⟨_, _, rfl⟩, .inl ⟨_, _, rfl⟩, .inr ⟨_, rfl⟩, .inr ⟨_, rfl⟩]

end Verif.Profile
