import Verif.Scatter.Steps

/-
Scatter operations (C48): arrays behave like values.
-/

namespace Verif.Scatter

/-! ### Configurations for examples -/

/-- The steps of the pending scatters, those of the last scatter first. -/
def eventsRev (s : St) (outs : List (Nat × Nat)) : List Ev := events { s with queue := s.queue.reverse } outs

/-- Lanes write in ascending order.  If `rev`, then later scatters take place before earlier ones. -/
def sample (llvm expand rev : Bool) : Cfg :=
  { llvm, expand := fun _ => expand, lanes := fun _ n => List.range n
    sched := if rev then eventsRev else events
    lvn := fun _ _ _ => none }

theorem filter_flatMap_one (s : St) (q : Nat) (op ord p v i m) (hk : s.kind q = .scatter op ord p v i m) : ∀ l : List Nat, l.Nodup →
    (l.flatMap fun q => match s.kind q with | .scatter _ ord _ _ _ _ => ord.map (Ev.scat q) | _ => []).filter (Ev.isScat q) =
      if q ∈ l then ord.map (Ev.scat q) else [] := by
  intro l
  induction l with
  | nil => intro _; rfl
  | cons a l ih =>
    intro hn
    have hn' := List.nodup_cons.1 hn
    rw [List.flatMap_cons, List.filter_append, ih hn'.2]
    by_cases ha : q = a
    · subst ha
      rw [hk]
      simp [hn'.1, Ev.isScat]
    · have : (match s.kind a with | .scatter _ ord _ _ _ _ => ord.map (Ev.scat a) | _ => []).filter (Ev.isScat q) = [] := by
        split
        · simp [Ev.isScat]; intro _ _; exact fun h => ha h.symm
        · rfl
      rw [this]
      simp [ha]

theorem events_order (s : St) (outs : List (Nat × Nat)) (h : s.queue.Nodup) {q : Nat} (hq : q ∈ s.queue) {op ord p v i m}
    (hk : s.kind q = .scatter op ord p v i m) : (events s outs).filter (Ev.isScat q) = ord.map (Ev.scat q) := by
  unfold events
  rw [List.filter_append]
  have e := filter_flatMap_one s q op ord p v i m hk _ h
  rw [if_pos hq] at e
  refine (congrArg (_ ++ ·) e).trans ?_
  have : (outs.flatMap fun o => (List.range (s.size o.1)).map (Ev.out o.1 o.2)).filter (Ev.isScat q) = [] := by
    rw [List.filter_eq_nil_iff]
    intro e he
    simp only [List.mem_flatMap, List.mem_map] at he
    obtain ⟨_, _, _, _, rfl⟩ := he
    simp [Ev.isScat]
  rw [this, List.nil_append]

theorem sample_ok (llvm expand rev : Bool) (h : expand = true → llvm = true) : CfgOK (sample llvm expand rev) := by
  refine ⟨fun _ => h, fun _ n => List.Perm.refl _, ?_, ?_, ?_⟩
  · intro s outs
    cases rev
    · exact List.Perm.refl _
    · show (eventsRev s outs).Perm _
      unfold eventsRev events
      exact List.Perm.append_left _ ((List.reverse_perm s.queue).flatMap_right _)
  · intro s outs hn q hq op ord p v i m hk
    cases rev
    · exact events_order s outs hn hq hk
    · exact events_order { s with queue := s.queue.reverse } outs (List.nodup_reverse.2 hn) (List.mem_reverse.2 hq) hk
  · intro s k n i h
    cases h

/-! ### The main theorem -/

/-- C48: for every program, every order in which lanes write and every interleaving of the steps of an
evaluation, all calls behave as if arrays were values: a scatter or write changes the array of the
reference that it is given, and no other.

What is missing: the restrictions of `Ordered`.  The theorems below show that arrays do not always
behave like values without them. -/
theorem C48_arrays_behave_like_values_partial {cfg : Cfg} (ok : CfgOK cfg) (cs : List Cmd) (h : Ordered cfg.llvm [] cs) :
    Follows cfg.lanes [] cs (calls cfg cs {}).2 := Sim.calls ok cs [] [] {} (Sim.start cfg) h

theorem Sim.run {cfg : Cfg} (ok : CfgOK cfg) : ∀ (cs cs' : List Cmd) (pend : List (Option ROp)) (r : Refs) (s : St), Sim cfg pend r s →
    Ordered cfg.llvm pend (cs ++ cs') → InBounds cfg.lanes r (cs ++ cs') →
    ∃ pend' r', Sim cfg pend' r' (Scatter.calls cfg cs s).1 ∧ Ordered cfg.llvm pend' cs' ∧ InBounds cfg.lanes r' cs' := by
  intro cs
  induction cs with
  | nil => intro cs' pend r s S O B; exact ⟨pend, r, S, O, B⟩
  | cons c cs ih =>
    intro cs' pend r s S O B
    obtain ⟨r', h1, h2⟩ := S.call ok c O.1 B.1
    exact ih cs' _ _ _ h2 O.2 (B.2 _ _ h1)

theorem calls_append (cfg : Cfg) : ∀ (cs cs' : List Cmd) (s : St),
    (calls cfg (cs ++ cs') s).2 = (calls cfg cs s).2 ++ (calls cfg cs' (calls cfg cs s).1).2 := by
  intro cs
  induction cs with
  | nil => intro cs' s; rfl
  | cons c cs ih => intro cs' s; exact congrArg (_ :: ·) (ih cs' _)

theorem read_out {cfg : Cfg} (ok : CfgOK cfg) {pend : List (Option ROp)} {r : Refs} {s : St} (S : Sim cfg pend r s) (h pos : Nat) :
    (call cfg s (.read h pos)).2.2 = match (get r h).bind fun a => if a.length = 1 ∨ pos < a.length then some (Scatter.entry a pos) else none with
      | some v => .ok (some v)
      | none => .raise := by
  obtain ⟨r', e, -⟩ := S.call ok (.read h pos) trivial (by simp [OutOfBounds])
  generalize (Scatter.call cfg s (.read h pos)).2.2 = o at e
  have hstep : step (cfg.lanes r.length) r (.read h pos) =
      ((get r h).bind fun a => if a.length = 1 ∨ pos < a.length then some (Scatter.entry a pos) else none).map fun v => (r, none, some v) := by
    show ((get r h).bind fun a => if a.length = 1 ∨ pos < a.length then some (r, none, some (Scatter.entry a pos)) else none) = _
    cases get r h with
    | none => rfl
    | some a =>
      simp only [Option.bind_some]
      split <;> rfl
  generalize ((get r h).bind fun a => if a.length = 1 ∨ pos < a.length then some (Scatter.entry a pos) else none) = x at hstep
  cases o with
  | ok v =>
    obtain ⟨r1, n, e1, -⟩ := e
    rw [hstep] at e1
    cases x with
    | none => cases e1
    | some x => cases e1; rfl
  | raise =>
    obtain ⟨e1, -⟩ := e
    rcases e1 with e1 | e1
    · rw [hstep] at e1
      cases x with
      | none => rfl
      | some x => cases e1
    · exact e1.elim
  | lost => exact e.elim

theorem scatter_refs {lanes : Nat → List Nat} {r r' : Refs} {t val idx msk : Nat} {op : ROp} {free : Bool} {o : Out}
    (e : Effect lanes r (.scatter t val idx msk op free) r' o) : ∃ x, r' = x ++ [none] ∧ (x = r ∨ ∃ a, x = r.set t (some a)) := by
  cases o with
  | ok v =>
    obtain ⟨r1, n, e1, rfl⟩ := e
    unfold step at e1
    simp only [Option.bind_eq_some_iff, Option.map_eq_some_iff, Prod.mk.injEq] at e1
    obtain ⟨a, -, _, -, _, -, _, -, _, -, rfl, rfl, -⟩ := e1
    exact ⟨_, rfl, Or.inr ⟨_, rfl⟩⟩
  | raise => exact ⟨_, e.2, Or.inl rfl⟩
  | lost => exact e.elim

/-- C48, as it is observed by a caller: whatever was called before, a scatter into one reference does
not affect what is read through another one. -/
theorem C48_other_references_read_the_old_contents_partial {cfg : Cfg} (ok : CfgOK cfg) (cs : List Cmd)
    (t val idx msk : Nat) (op : ROp) (free : Bool) (h pos : Nat)
    (ho : Ordered cfg.llvm [] (cs ++ [.scatter t val idx msk op free]))
    (hb : InBounds cfg.lanes [] (cs ++ [.scatter t val idx msk op free])) (hne : h ≠ t) :
    (calls cfg (cs ++ [.scatter t val idx msk op free, .read h pos]) {}).2.getLast? =
      (calls cfg (cs ++ [.read h pos]) {}).2.getLast? := by
  rw [calls_append, calls_append]
  obtain ⟨pend, r, S, O, B⟩ := Sim.run ok cs [.scatter t val idx msk op free] [] [] {} (Sim.start cfg) ho hb
  generalize (calls cfg cs {}).1 = s at S
  obtain ⟨r', e, S'⟩ := S.call ok _ O.1 B.1
  have h1 := read_out ok S h pos
  have h2 := read_out ok S' h pos
  have hget : get r' h = get r h := by
    obtain ⟨x, rfl, hx⟩ := scatter_refs e
    have hx : x.length = r.length ∧ x[h]? = r[h]? := by
      rcases hx with rfl | ⟨a, rfl⟩
      · exact ⟨rfl, rfl⟩
      · refine ⟨by simp, ?_⟩
        rw [List.getElem?_set, if_neg (fun k => hne k.symm)]
    unfold get
    rw [List.getElem?_append]
    split
    · rw [hx.2]
    · next hl =>
      rw [List.getElem?_eq_none (l := r) (by omega)]
      cases hm : h - x.length with
      | zero => rfl
      | succ n => rfl
  rw [hget, ← h1] at h2
  have e1 : (calls cfg [.read h pos] s).2 = [(Scatter.call cfg s (.read h pos)).2.2] := rfl
  have e2 : (calls cfg [.scatter t val idx msk op free, .read h pos] s).2 =
      [(Scatter.call cfg s (.scatter t val idx msk op free)).2.2, (Scatter.call cfg
        ((Scatter.call cfg s (.scatter t val idx msk op free)).1.give (Scatter.call cfg s (.scatter t val idx msk op free)).2.1).collect (.read h pos)).2.2] := rfl
  rw [e1, e2, h2]
  simp

/-! ### A test of the specification -/

def beyondB (a i m : Arr) : Bool :=
  (List.range (max i.length m.length + 1)).any fun l => entry m l != 0 && a.length ≤ (entry i l).toNat

theorem entry_clip (a : Arr) {k l : Nat} (hk : a.length ≤ k) (hl : k ≤ l) : entry a l = entry a k := by
  unfold entry
  split
  · rfl
  · rw [List.getD_eq_getElem?_getD, List.getD_eq_getElem?_getD, List.getElem?_eq_none (by omega), List.getElem?_eq_none (by omega)]

theorem beyondB_of {a i m : Arr} (h : Beyond a i m) : beyondB a i m = true := by
  obtain ⟨l, h1, h2⟩ := h
  unfold beyondB
  rw [List.any_eq_true]
  by_cases hl : l ≤ max i.length m.length
  · exact ⟨l, by simp; omega, by simp [h1, h2]⟩
  · refine ⟨max i.length m.length, by simp, ?_⟩
    rw [entry_clip m (k := max i.length m.length) (by omega) (by omega)] at h1
    rw [entry_clip i (k := max i.length m.length) (by omega) (by omega)] at h2
    simp [h1, h2]

def outOfBoundsB (r : Refs) : Cmd → Bool
  | .gather src idx msk => match get r src, get r idx, get r msk with
    | some a, some i, some m => a.length != 1 && beyondB a i m
    | _, _, _ => false
  | .scatter t _ idx msk _ _ => match get r t, get r idx, get r msk with
    | some a, some i, some m => beyondB a i m
    | _, _, _ => false
  | _ => false

theorem outOfBoundsB_of {r : Refs} {c : Cmd} (h : OutOfBounds r c) : outOfBoundsB r c = true := by
  cases c <;> try exact h.elim
  · obtain ⟨a, i, m, h1, h2, h3, h4, h5⟩ := h
    simp [outOfBoundsB, h1, h2, h3, h4, beyondB_of h5]
  · obtain ⟨a, i, m, h1, h2, h3, h5⟩ := h
    simp [outOfBoundsB, h1, h2, h3, beyondB_of h5]

def readsTargetB : Cmd → Bool
  | .scatter t val _ msk _ _ => val == t || msk == t
  | _ => false

theorem readsTargetB_iff {c : Cmd} : readsTargetB c = true ↔ c.readsTarget := by
  cases c <;> simp [readsTargetB, Cmd.readsTarget]

/-- Whether results follow the specification. -/
def check (lanes : Nat → Nat → List Nat) : Refs → List Cmd → List Out → Bool
  | _, [], os => os.isEmpty
  | _, _ :: _, [] => false
  | r, c :: cs, o :: os => outOfBoundsB r c ||
    match o with
    | .ok v => (match step (lanes r.length) r c with
      | some (r1, n, v') => decide (v = v') && check lanes (r1 ++ [n]) cs os
      | none => false)
    | .raise => ((step (lanes r.length) r c).isNone || readsTargetB c) && check lanes (r ++ [none]) cs os
    | .lost => false

theorem check_of {lanes : Nat → Nat → List Nat} : ∀ (cs : List Cmd) (r : Refs) (os : List Out), Follows lanes r cs os → check lanes r cs os = true := by
  intro cs
  induction cs with
  | nil => rintro r os h; have h : os = [] := h; subst h; rfl
  | cons c cs ih =>
    intro r os h
    cases os with
    | nil => exact h.elim
    | cons o os =>
      rcases h with h | ⟨r', e, h⟩
      · simp [check, outOfBoundsB_of h]
      · unfold check
        rw [Bool.or_eq_true]
        right
        cases o with
        | ok v =>
          obtain ⟨r1, n, e1, rfl⟩ := e
          simp [e1, ih _ _ h]
        | raise =>
          obtain ⟨e1, rfl⟩ := e
          dsimp only
          rw [ih _ _ h, Bool.and_true, Bool.or_eq_true]
          rcases e1 with e1 | e1
          · left; simp [e1]
          · right; exact readsTargetB_iff.2 e1
        | lost => exact e.elim

/-- Whether all accesses are in bounds. -/
def boundsB (lanes : Nat → Nat → List Nat) : Refs → List Cmd → Bool
  | _, [] => true
  | r, c :: cs => !outOfBoundsB r c &&
    (match step (lanes r.length) r c with
     | some (r1, n, _) => boundsB lanes (r1 ++ [n]) cs
     | none => true) &&
    (!((step (lanes r.length) r c).isNone || readsTargetB c) || boundsB lanes (r ++ [none]) cs)

theorem inBounds_of {lanes : Nat → Nat → List Nat} : ∀ (cs : List Cmd) (r : Refs), boundsB lanes r cs = true → InBounds lanes r cs := by
  intro cs
  induction cs with
  | nil => intro r _; trivial
  | cons c cs ih =>
    intro r h
    unfold boundsB at h
    simp only [Bool.and_eq_true, Bool.not_eq_true', Bool.or_eq_true] at h
    obtain ⟨⟨h1, h2⟩, h3⟩ := h
    refine ⟨fun ho => by simp [outOfBoundsB_of ho] at h1, ?_⟩
    intro r' o e
    cases o with
    | ok v =>
      obtain ⟨r1, n, e1, rfl⟩ := e
      rw [e1] at h2
      exact ih _ h2
    | raise =>
      obtain ⟨e1, rfl⟩ := e
      rcases h3 with h3 | h3
      · rcases e1 with e1 | e1
        · simp [e1] at h3
        · rw [readsTargetB_iff.2 e1] at h3; simp at h3
      · exact ih _ h3
    | lost => exact e.elim

/-! ### Examples -/

/-- Aliases, an expression that was not evaluated, a gather, several reductions, and a scatter whose
index is its target. -/
def prog : List Cmd :=
  [ .input [10, 20, 30],                    -- 0
    .dup 0,                                 -- 1: alias
    .op (fun l => l.getD 0 0 + 1) [0],      -- 2: [11, 21, 31]
    .lit 7 1, .input [2, 0], .lit 1 1,      -- 3, 4, 5
    .scatter 0 3 4 5 .identity false,       -- 0 becomes [7, 20, 7]
    .scatter 1 4 4 5 .add false,            -- 1 becomes [10, 20, 32]
    .scatter 1 3 4 5 .add false,            -- 1 becomes [17, 20, 39]
    .gather 1 4 5,                          -- 9: [39, 17]
    .write 0 1 5,                           -- 0 becomes [7, 5, 7]
    .input [1, 0],                          -- 11
    .scatter 11 3 11 5 .add false,          -- 11 becomes [8, 7]
    .read 0 1, .read 0 0, .read 1 0, .read 1 2, .read 2 0, .read 9 1, .read 11 0 ]

theorem add_comm_rop : ROp.Comm .add := by
  intro a x y
  show a + x + y = a + y + x
  rw [UInt32.add_assoc, UInt32.add_comm x y, ← UInt32.add_assoc]

/-- The values that are read. -/
def results (cfg : Cfg) (cs : List Cmd) : List (Option UInt32) :=
  (calls cfg cs {}).2.filterMap fun o => match o with | .ok none => none | .ok v => some v | _ => some none

/-- The program of the example meets the hypotheses of the theorems, for all configurations. -/
example (llvm : Bool) : Ordered llvm [] prog := by
  simp [prog, Ordered, Allowed, after, add_comm_rop]

example : InBounds (sample true true true).lanes [] prog := inBounds_of _ _ (by decide +kernel)

/-- A scatter into reference 0 after these calls, as in the second theorem. -/
example (llvm : Bool) : Ordered llvm [] (prog ++ [.scatter 0 4 11 5 .identity false]) := by
  simp [prog, Ordered, Allowed, after, add_comm_rop]

/-- It returns the same values in all of the following configurations. -/
example : ∀ llvm expand rev : Bool, results (sample llvm expand rev) prog =
    [some 5, some 7, some 17, some 39, some 11, some 17, some 8] := by decide +kernel

example : check (sample true true true).lanes [] prog (calls (sample true true true) prog {}).2 = true := by decide +kernel

/-! ### Programs for which arrays do not behave like values -/

/-- The mask of a scatter is its target, and the caller holds the only reference (possible for arrays
of booleans).  Except on LLVM, the scatter reads its mask while it modifies it. -/
def progMask : List Cmd :=
  [.input [1, 0], .input [1, 0], .input [1, 0], .scatter 0 1 2 0 .identity false, .read 0 0]

theorem C48_mask_is_target_counterexample : ∃ cfg, CfgOK cfg ∧ cfg.llvm = false ∧
    ¬ Follows cfg.lanes [] progMask (calls cfg progMask {}).2 :=
  ⟨sample false false false, sample_ok _ _ _ (by simp), rfl, fun h => absurd (check_of _ _ _ h) (by decide +kernel)⟩

/-- A scatter into the first entries of an array modifies the array itself. -/
def progShrink : List Cmd :=
  [.input [1, 2, 3], .shrink 0 2, .lit 9 1, .lit 0 1, .lit 1 1, .scatter 1 2 3 4 .identity false, .eval [], .read 0 0]

theorem C48_shrink_counterexample : ∀ llvm, ∃ cfg, CfgOK cfg ∧ cfg.llvm = llvm ∧
    ¬ Follows cfg.lanes [] progShrink (calls cfg progShrink {}).2 := by
  intro llvm
  refine ⟨sample llvm false false, sample_ok _ _ _ (by simp), rfl, fun h => absurd (check_of _ _ _ h) ?_⟩
  clear h
  revert llvm
  decide +kernel

/-- The first entries of an array do not reflect an earlier scatter that is pending. -/
def progShrinkPending : List Cmd :=
  [.input [1, 2, 3], .lit 9 1, .lit 0 1, .lit 1 1, .scatter 0 1 2 3 .identity false, .shrink 0 2, .read 5 0]

theorem C48_shrink_pending_counterexample : ∀ llvm, ∃ cfg, CfgOK cfg ∧ cfg.llvm = llvm ∧
    ¬ Follows cfg.lanes [] progShrinkPending (calls cfg progShrinkPending {}).2 := by
  intro llvm
  refine ⟨sample llvm false false, sample_ok _ _ _ (by simp), rfl, fun h => absurd (check_of _ _ _ h) ?_⟩
  clear h
  revert llvm
  decide +kernel

/-- References that are created after the reference count was stashed are affected by scatters. -/
def progStash : List Cmd :=
  [.input [1, 2], .stash 0, .dup 0, .lit 9 1, .lit 0 1, .lit 1 1, .scatter 0 3 4 5 .identity false, .read 2 0]

theorem C48_stash_counterexample : ∀ llvm, ∃ cfg, CfgOK cfg ∧ cfg.llvm = llvm ∧
    ¬ Follows cfg.lanes [] progStash (calls cfg progStash {}).2 := by
  intro llvm
  refine ⟨sample llvm false false, sample_ok _ _ _ (by simp), rfl, fun h => absurd (check_of _ _ _ h) ?_⟩
  clear h
  revert llvm
  decide +kernel

/-- A reduction after a plain scatter does not cause an evaluation, hence both may take place in any
order; on LLVM, the plain scatter may be lost, because the target is copied without it. -/
def progMixed : List Cmd :=
  [.input [0, 0], .lit 5 1, .lit 1 1, .lit 0 1, .lit 1 1, .scatter 0 1 3 4 .identity false, .scatter 0 2 3 4 .add false, .read 0 0]

theorem C48_mixed_counterexample : ∀ llvm, ∃ cfg, CfgOK cfg ∧ cfg.llvm = llvm ∧
    ¬ Follows cfg.lanes [] progMixed (calls cfg progMixed {}).2 := by
  intro llvm
  refine ⟨sample llvm false true, sample_ok _ _ _ (by simp), rfl, fun h => absurd (check_of _ _ _ h) ?_⟩
  clear h
  revert llvm
  decide +kernel

/-- The plain scatter of `progMixed` is lost even if all steps take place in the order of the program. -/
theorem C48_expand_counterexample : results (sample true true false) progMixed = [some 1] ∧
    results (sample true false false) progMixed = [some 6] := by decide +kernel

/-- A second reduction into an expanded array, with a value that has pending writes. -/
def progExpanded : List Cmd :=
  [.input [0, 0], .input [1, 1], .input [0, 1], .lit 1 1, .scatter 0 1 2 3 .add false, .scatter 1 3 2 3 .identity false,
   .scatter 0 1 2 3 .add false]

theorem C48_expanded_counterexample : ∃ cfg, CfgOK cfg ∧ cfg.llvm = true ∧
    ¬ Follows cfg.lanes [] progExpanded (calls cfg progExpanded {}).2 :=
  ⟨sample true true false, sample_ok _ _ _ (by simp), rfl, fun h => absurd (check_of _ _ _ h) (by decide +kernel)⟩

end Verif.Scatter
