import Mathlib.Tactic.Common
import Mathlib.Logic.Function.Basic
import Mathlib.Data.Nat.Bitwise

/-!
# Visit generations (C54)

The stamps with which graph traversals recognise variables that they have
already visited. Model of `visit_gen`, `jitc_visit_new_gen` (src/eval.cpp:66-100),
the visited test at the start of `jitc_var_traverse` (src/eval.cpp:170-174) and of
`jitc_var_call_analyze` (src/call.cpp:993-998), and of every other place of the
LLVM and CUDA code that writes `Variable::scratch`.
-/

namespace Verif.Eval.Gen

/-- The global counter and the `scratch` field of every variable slot. -/
structure St where
  gen : Nat
  scratch : Nat → Nat

/-- Program start: `visit_gen = 0` (src/eval.cpp:91), all fields zero
(`Variable` is zero-initialized, src/internal.h). -/
def St.init : St := ⟨0, fun _ => 0⟩

/-- Largest generation (src/eval.cpp:94). -/
def lastGen : Nat := 0x7FFFFFFF

/-- `jitc_visit_new_gen` (src/eval.cpp:93-100). -/
def newGen (s : St) : St :=
  if s.gen = lastGen then ⟨0 + 1, fun _ => 0⟩ else { s with gen := s.gen + 1 }

/-- `(visit_gen << 1) | (depth == 0 ? 1u : 0u)` in 32 bits (src/eval.cpp:171). -/
def stamp (gen depth : Nat) : Nat :=
  ((gen <<< 1) % 2 ^ 32) ||| (if depth = 0 then 1 else 0)

/-- The visited test (src/eval.cpp:172). -/
def skips (s : St) (i depth : Nat) : Bool :=
  s.scratch i = stamp s.gen depth ||
    (depth != 0 && s.scratch i = (stamp s.gen depth ||| 1))

/-- Entering `jitc_var_traverse` (src/eval.cpp:171-174). -/
def traverse (s : St) (i depth : Nat) : St :=
  if skips s i depth then s
  else { s with scratch := Function.update s.scratch i (stamp s.gen depth) }

/-- The visited test of `jitc_var_call_analyze` (src/call.cpp:995-996). -/
def analyzeSkips (s : St) (i : Nat) : Bool :=
  s.scratch i = (s.gen <<< 1) % 2 ^ 32

/-- Entering `jitc_var_call_analyze` (src/call.cpp:995-998). -/
def analyze (s : St) (i : Nat) : St :=
  if analyzeSkips s i then s
  else { s with scratch := Function.update s.scratch i ((s.gen <<< 1) % 2 ^ 32) }

/-- Everything that touches the counter or a `scratch` field. -/
inductive Ev where
  /-- `jitc_visit_new_gen()`: a new traversal starts. -/
  | newGen
  /-- A step of `jitc_var_traverse` at variable `i`. -/
  | traverse (i depth : Nat)
  /-- A step of `jitc_var_call_analyze` at variable `i`. -/
  | analyze (i : Nat)
  /-- Slot `i` receives a newly built variable (`jitc_var_new`): `scratch` is 0.
  Also the resets in call.cpp:364 and cuda_eval.cpp:566-569. -/
  | fresh (i : Nat)
  /-- Slot `i` receives a copy of variable `j`, scratch field included. -/
  | copy (i j : Nat)
  /-- `jitc_var_call_input` stores the size of a literal in the `scratch` field
  of its copy (src/var.cpp:1086-1088). -/
  | stash (i size : Nat)
  deriving Repr

/-- One step. -/
def step (s : St) : Ev → St
  | .newGen => newGen s
  | .traverse i d => traverse s i d
  | .analyze i => analyze s i
  | .fresh i => { s with scratch := Function.update s.scratch i 0 }
  | .copy i j => { s with scratch := Function.update s.scratch i (s.scratch j) }
  | .stash i n => { s with scratch := Function.update s.scratch i n }

def run (s : St) (evs : List Ev) : St := evs.foldl step s

/-! ## Specification

The history tells, without looking at any stamp, which variables the current
traversal has visited. -/

/-- What the history says about one variable. -/
inductive Visit where
  /-- Not visited since the current traversal began. -/
  | no
  /-- Only visited inside of calls / loop bodies (depth > 0). -/
  | inner
  /-- Visited at depth 0. -/
  | outer
  /-- Holds the size of a literal call input. -/
  | stashed
  deriving DecidableEq, Repr

/-- Effect of one event on the visit status of variable `i`. A new traversal
forgets all visits. Reaching a variable records the visit, and a visit at depth
0 is not downgraded by a later one at a larger depth. -/
def see (i : Nat) (m : Nat → Visit) : Ev → Visit
  | .newGen => if m i = .stashed then .stashed else .no
  | .traverse k d =>
    if k = i then (if d = 0 ∨ m i = .outer then .outer else .inner) else m i
  | .analyze k => if k = i then .inner else m i
  | .fresh k => if k = i then .no else m i
  | .copy k j => if k = i then m j else m i
  | .stash k _ => if k = i then .stashed else m i

/-- Visit status of all variables after a history. -/
def status (evs : List Ev) : Nat → Visit :=
  evs.foldl (fun m e i => see i m e) (fun _ => .no)

/-- A traversal step can be skipped iff the variable was already visited in this
traversal, at depth 0 if the present depth is 0. -/
def Seen (v : Visit) (depth : Nat) : Prop :=
  v = .outer ∨ (v = .inner ∧ depth ≠ 0)

instance (v : Visit) (d : Nat) : Decidable (Seen v d) := by unfold Seen; infer_instance

/-- Whether `jitc_visit_new_gen()` has been called. -/
def nextStarted (started : Bool) : Ev → Bool
  | .newGen => true
  | _ => started

/-- Kind of the current traversal: none of its steps seen yet, `jitc_var_traverse`
(`some false`) or `jitc_var_call_analyze` (`some true`). -/
def nextAna (ana : Option Bool) : Ev → Option Bool
  | .newGen => none
  | .traverse _ _ => some false
  | .analyze _ => some true
  | _ => ana

/-- The traversal code calls `jitc_visit_new_gen()` before its first step, the two
kinds of traversals are not interleaved within a generation, and no traversal
step touches a literal whose scratch field is in use for its size. -/
def Disciplined : List Ev → (started : Bool) → (ana : Option Bool) → (Nat → Visit) → Prop
  | [], _, _, _ => True
  | e :: es, started, ana, m =>
    (match e with
      | .traverse i _ => started = true ∧ ana ≠ some true ∧ m i ≠ .stashed
      | .analyze i => started = true ∧ ana ≠ some false ∧ m i ≠ .stashed
      | _ => True) ∧
    Disciplined es (nextStarted started e) (nextAna ana e) (fun i => see i m e)

/-! ## Invariant -/

theorem stamp_zero {g : Nat} (h : g ≤ lastGen) : stamp g 0 = 2 * g + 1 := by
  unfold stamp lastGen at *
  have : (g <<< 1) % 2 ^ 32 = 2 * g := by rw [Nat.shiftLeft_eq]; omega
  rw [this, if_pos rfl]
  have := Nat.two_pow_add_eq_or_of_lt (i := 1) (b := 1) (by omega) g
  rw [pow_one] at this
  exact this.symm

theorem stamp_pos {g d : Nat} (h : g ≤ lastGen) (hd : d ≠ 0) : stamp g d = 2 * g := by
  unfold stamp lastGen at *
  have : (g <<< 1) % 2 ^ 32 = 2 * g := by rw [Nat.shiftLeft_eq]; omega
  rw [this, if_neg hd, Nat.or_zero]

theorem two_mul_or_one (g : Nat) : (2 * g ||| 1) = 2 * g + 1 := by
  have := Nat.two_pow_add_eq_or_of_lt (i := 1) (b := 1) (by omega) g
  rw [pow_one] at this
  exact this.symm

/-- The meaning of a stamp relative to the current generation. -/
structure Inv (s : St) (m : Nat → Visit) (started : Bool) : Prop where
  gen_le : s.gen ≤ lastGen
  gen_pos : started = true → 1 ≤ s.gen
  unstarted : started = false → s.gen = 0
  no : ∀ i, m i = .no → s.scratch i < 2 * s.gen ∨ s.scratch i = 0
  inner : ∀ i, m i = .inner → s.scratch i = 2 * s.gen
  outer : ∀ i, m i = .outer → s.scratch i = 2 * s.gen + 1

theorem inv_init : Inv St.init (fun _ => .no) false :=
  ⟨by decide, by simp, by simp [St.init], fun _ _ => Or.inr rfl, by simp, by simp⟩

theorem skips_eq {s : St} {m : Nat → Visit} (h : Inv s m true) {i d : Nat}
    (hi : m i ≠ .stashed) : skips s i d = decide (Seen (m i) d) := by
  have hg := h.gen_pos rfl
  have h1 := h.no i
  have h2 := h.inner i
  have h3 := h.outer i
  unfold skips
  by_cases hd : d = 0
  · subst hd
    rw [stamp_zero h.gen_le]
    cases hm : m i with
    | no =>
      have := h1 hm
      simp only [Seen]
      simp
      omega
    | inner =>
      have := h2 hm
      simp only [Seen]
      simp
      omega
    | outer =>
      have := h3 hm
      simp [Seen, this]
    | stashed => exact absurd hm hi
  · rw [stamp_pos h.gen_le hd, two_mul_or_one]
    cases hm : m i with
    | no =>
      have := h1 hm
      simp only [Seen]
      simp [hd]
      omega
    | inner =>
      have := h2 hm
      simp [Seen, this, hd]
    | outer =>
      have := h3 hm
      simp [Seen, this, hd]
    | stashed => exact absurd hm hi

theorem analyzeSkips_eq {s : St} {m : Nat → Visit} (h : Inv s m true) {i : Nat}
    (hi : m i ≠ .stashed) (ho : m i ≠ .outer) :
    analyzeSkips s i = decide (m i = .inner) := by
  have hg := h.gen_pos rfl
  have h1 := h.no i
  have h2 := h.inner i
  have hs : (s.gen <<< 1) % 2 ^ 32 = 2 * s.gen := by
    have := h.gen_le
    unfold lastGen at this
    rw [Nat.shiftLeft_eq]; omega
  unfold analyzeSkips
  rw [hs]
  cases hm : m i with
  | no =>
    have := h1 hm
    simp
    omega
  | inner => simp [h2 hm]
  | outer => exact absurd hm ho
  | stashed => exact absurd hm hi

/-- During an analysis no variable has been visited at depth 0. -/
def NoOuter (ana : Option Bool) (m : Nat → Visit) : Prop :=
  ana ≠ some false → ∀ i, m i ≠ .outer

theorem step_inv {s : St} {m : Nat → Visit} {started : Bool} (h : Inv s m started) (e : Ev)
    (he : match e with
      | .traverse i _ => started = true ∧ m i ≠ .stashed
      | .analyze i => started = true ∧ m i ≠ .stashed ∧ ∀ i, m i ≠ .outer
      | _ => True) :
    Inv (step s e) (fun i => see i m e) (nextStarted started e) := by
  cases e with
  | newGen =>
    show Inv (newGen s) _ true
    unfold newGen
    split_ifs with hw
    · refine ⟨by decide, by simp, by simp, fun _ _ => Or.inr rfl, ?_, ?_⟩
      · intro i hi
        simp only [see] at hi
        split_ifs at hi
      · intro i hi
        simp only [see] at hi
        split_ifs at hi
    · have := h.gen_le
      refine ⟨by simp only; omega, fun _ => by simp only; omega, by simp, ?_, ?_, ?_⟩
      · intro i hi
        simp only [see] at hi
        split_ifs at hi with hst
        simp only
        cases hm : m i with
        | no => have := h.no i hm; omega
        | inner => have := h.inner i hm; omega
        | outer => have := h.outer i hm; omega
        | stashed => exact absurd hm hst
      · intro i hi
        simp only [see] at hi
        split_ifs at hi
      · intro i hi
        simp only [see] at hi
        split_ifs at hi
  | traverse k d =>
    obtain ⟨hst, hk⟩ := he
    subst hst
    show Inv (traverse s k d) _ true
    have hsk := skips_eq h (d := d) hk
    unfold traverse
    by_cases hseen : Seen (m k) d
    · rw [hsk, if_pos (by simpa using hseen)]
      have hsame : (fun i => see i m (.traverse k d)) = m := by
        funext i
        simp only [see]
        split_ifs with h1 h2
        · subst h1
          rcases hseen with h3 | ⟨h3, h4⟩
          · exact h3.symm
          · rcases h2 with h2 | h2
            · exact absurd h2 h4
            · exact h2.symm
        · subst h1
          rcases hseen with h3 | ⟨h3, h4⟩
          · exact absurd (Or.inr h3) h2
          · exact h3.symm
        · rfl
      rw [hsame]
      exact h
    · rw [hsk, if_neg (by simpa using hseen)]
      have hno : m k ≠ .outer := fun hc => hseen (Or.inl hc)
      refine ⟨h.gen_le, fun _ => h.gen_pos rfl, by simp, ?_, ?_, ?_⟩
      · intro i hi
        simp only [see] at hi
        by_cases hik : k = i
        · subst hik
          rw [if_pos rfl] at hi
          split_ifs at hi
        · rw [if_neg hik] at hi
          simp only [Function.update_of_ne (Ne.symm hik)]
          exact h.no i hi
      · intro i hi
        simp only [see] at hi
        by_cases hik : k = i
        · subst hik
          rw [if_pos rfl] at hi
          simp only [Function.update_self]
          split_ifs at hi with h2
          exact stamp_pos h.gen_le (fun hd => h2 (Or.inl hd))
        · rw [if_neg hik] at hi
          simp only [Function.update_of_ne (Ne.symm hik)]
          exact h.inner i hi
      · intro i hi
        simp only [see] at hi
        by_cases hik : k = i
        · subst hik
          rw [if_pos rfl] at hi
          simp only [Function.update_self]
          split_ifs at hi with h2
          rcases h2 with h2 | h2
          · rw [h2]; exact stamp_zero h.gen_le
          · exact absurd h2 hno
        · rw [if_neg hik] at hi
          simp only [Function.update_of_ne (Ne.symm hik)]
          exact h.outer i hi
  | analyze k =>
    obtain ⟨hst, hk, hout⟩ := he
    subst hst
    show Inv (analyze s k) _ true
    have hsk := analyzeSkips_eq h hk (hout k)
    have hs : (s.gen <<< 1) % 2 ^ 32 = 2 * s.gen := by
      have := h.gen_le
      unfold lastGen at this
      rw [Nat.shiftLeft_eq]; omega
    unfold analyze
    rw [hsk, hs]
    by_cases hin : m k = .inner
    · rw [if_pos (by simpa using hin)]
      have hsame : (fun i => see i m (.analyze k)) = m := by
        funext i
        simp only [see]
        split_ifs with h1
        · subst h1; exact hin.symm
        · rfl
      rw [hsame]
      exact h
    · rw [if_neg (by simpa using hin)]
      refine ⟨h.gen_le, fun _ => h.gen_pos rfl, by simp, ?_, ?_, ?_⟩
      all_goals
        intro i hi
        simp only [see] at hi
        by_cases hik : k = i
        · subst hik
          simp_all
        · rw [if_neg hik] at hi
          simp only [Function.update_of_ne (Ne.symm hik)]
          first
          | exact h.no i hi
          | exact h.inner i hi
          | exact h.outer i hi
  | fresh k =>
    refine ⟨h.gen_le, h.gen_pos, h.unstarted, ?_, ?_, ?_⟩
    all_goals
      intro i hi
      simp only [see] at hi
      simp only [step]
      by_cases hik : k = i
      · subst hik
        simp_all
      · rw [if_neg hik] at hi
        simp only [Function.update_of_ne (Ne.symm hik)]
        first
        | exact h.no i hi
        | exact h.inner i hi
        | exact h.outer i hi
  | copy k j =>
    refine ⟨h.gen_le, h.gen_pos, h.unstarted, ?_, ?_, ?_⟩
    all_goals
      intro i hi
      simp only [see] at hi
      simp only [step]
      by_cases hik : k = i
      · subst hik
        rw [if_pos rfl] at hi
        simp only [Function.update_self]
        first
        | exact h.no j hi
        | exact h.inner j hi
        | exact h.outer j hi
      · rw [if_neg hik] at hi
        simp only [Function.update_of_ne (Ne.symm hik)]
        first
        | exact h.no i hi
        | exact h.inner i hi
        | exact h.outer i hi
  | stash k n =>
    refine ⟨h.gen_le, h.gen_pos, h.unstarted, ?_, ?_, ?_⟩
    all_goals
      intro i hi
      simp only [see] at hi
      simp only [step]
      by_cases hik : k = i
      · subst hik
        simp at hi
      · rw [if_neg hik] at hi
        simp only [Function.update_of_ne (Ne.symm hik)]
        first
        | exact h.no i hi
        | exact h.inner i hi
        | exact h.outer i hi

theorem step_noOuter {ana : Option Bool} {m : Nat → Visit} (h : NoOuter ana m) (e : Ev)
    (he : ∀ k, e = .analyze k → ana ≠ some false) :
    NoOuter (nextAna ana e) (fun i => see i m e) := by
  cases e with
  | newGen =>
    intro _ i
    simp only [see]
    split_ifs <;> simp
  | traverse k d => intro hc; simp [nextAna] at hc
  | analyze k =>
    intro _ i
    simp only [see]
    split_ifs
    · simp
    · exact h (he k rfl) i
  | fresh k =>
    intro hc i
    simp only [see]
    split_ifs
    · simp
    · exact h hc i
  | copy k j =>
    intro hc i
    simp only [see]
    split_ifs
    · exact h hc j
    · exact h hc i
  | stash k n =>
    intro hc i
    simp only [see]
    split_ifs
    · simp
    · exact h hc i

theorem run_inv {evs : List Ev} {s : St} {m : Nat → Visit} {started : Bool}
    {ana : Option Bool} (h : Inv s m started) (ho : NoOuter ana m)
    (hd : Disciplined evs started ana m) :
    ∃ st an, Inv (run s evs) (evs.foldl (fun m e i => see i m e) m) st ∧
      NoOuter an (evs.foldl (fun m e i => see i m e) m) ∧
      ∀ more, Disciplined (evs ++ more) started ana m →
        Disciplined more st an (evs.foldl (fun m e i => see i m e) m) := by
  induction evs generalizing s m started ana with
  | nil => exact ⟨started, ana, h, ho, fun _ hm => hm⟩
  | cons e evs ih =>
    obtain ⟨h1, h2⟩ := hd
    have hi := step_inv h e (by
      cases e with
      | traverse i d => exact ⟨h1.1, h1.2.2⟩
      | analyze i => exact ⟨h1.1, h1.2.2, ho h1.2.1⟩
      | _ => trivial)
    have hno := step_noOuter ho e (by
      intro k hk
      subst hk
      exact h1.2.1)
    obtain ⟨st, an, r1, r2, r3⟩ := ih hi hno h2
    exact ⟨st, an, r1, r2, fun more hm => r3 more hm.2⟩

/-! ## C54 -/

/-- **C54 (jit_eval).** In every history, of any length and hence across any number
of wrap-arounds of the generation counter, a traversal step skips a variable
exactly if this same traversal has already visited it (at depth 0, when the
present visit is at depth 0). -/
theorem C54_traverse_partial (evs : List Ev) (i d : Nat)
    (hd : Disciplined (evs ++ [.traverse i d]) false none (fun _ => .no)) :
    skips (run St.init evs) i d = decide (Seen (status evs i) d) := by
  have hpre : Disciplined evs false none (fun _ => .no) := by
    have aux : ∀ (l : List Ev) st an m, Disciplined (l ++ [.traverse i d]) st an m →
        Disciplined l st an m := by
      intro l
      induction l with
      | nil => intros; trivial
      | cons e l ih =>
        intro st an m h
        exact ⟨h.1, ih _ _ _ h.2⟩
    exact aux _ _ _ _ hd
  obtain ⟨st, an, h1, _, h3⟩ := run_inv inv_init (ana := none) (by intro _ i; simp) hpre
  obtain ⟨⟨hs, _, hk⟩, _⟩ := h3 _ hd
  subst hs
  exact skips_eq h1 hk

/-- **C54 (call analysis).** The same for the analysis of the body of a call. -/
theorem C54_analyze_partial (evs : List Ev) (i : Nat)
    (hd : Disciplined (evs ++ [.analyze i]) false none (fun _ => .no)) :
    analyzeSkips (run St.init evs) i = decide (status evs i = .inner) := by
  have hpre : Disciplined evs false none (fun _ => .no) := by
    have aux : ∀ (l : List Ev) st an m, Disciplined (l ++ [.analyze i]) st an m →
        Disciplined l st an m := by
      intro l
      induction l with
      | nil => intros; trivial
      | cons e l ih =>
        intro st an m h
        exact ⟨h.1, ih _ _ _ h.2⟩
    exact aux _ _ _ _ hd
  obtain ⟨st, an, h1, h2, h3⟩ := run_inv inv_init (ana := none) (by intro _ i; simp) hpre
  obtain ⟨⟨hs, hmode, hk⟩, _⟩ := h3 _ hd
  subst hs
  exact analyzeSkips_eq h1 hk (h2 hmode i)

/-- Running through all generations: after `lastGen` traversals the counter
starts over at 1, and the stamps are gone. -/
theorem run_newGens (n : Nat) (s : St) (h : s.gen + n ≤ lastGen) :
    run s (List.replicate n .newGen) = { s with gen := s.gen + n } := by
  induction n generalizing s with
  | zero => rfl
  | succ n ih =>
    show run (newGen s) (List.replicate n .newGen) = _
    have hn : newGen s = { s with gen := s.gen + 1 } := by
      unfold newGen
      rw [if_neg (by omega)]
    rw [hn, ih _ (by simp only; omega)]
    simp only [St.mk.injEq, and_true]
    omega

/-- The hypotheses are met by histories in which the counter wraps around: a
variable visited in generation 1 is visited again in the next generation 1. -/
example : ∃ evs : List Ev,
    Disciplined (evs ++ [.traverse 5 0]) false none (fun _ => .no) ∧
    (run St.init evs).gen = 1 ∧ Ev.traverse 5 0 ∈ evs ∧
    skips (run St.init evs) 5 0 = false := by
  have hD : ∀ n m, (∀ i, m i ≠ Visit.stashed) → ∀ st an,
      Disciplined (List.replicate (n + 1) Ev.newGen ++ [.traverse 5 0]) st an m := by
    intro n
    induction n with
    | zero =>
      intro m hm st an
      refine ⟨trivial, ⟨rfl, by simp [nextAna], ?_⟩, trivial⟩
      simp [see, hm]
    | succ n ih =>
      intro m hm st an
      refine ⟨trivial, ih _ ?_ _ _⟩
      intro i
      simp [see, hm]
  have hdis : Disciplined (([.newGen, .traverse 5 0] ++
      List.replicate (lastGen - 1 + 1) .newGen) ++ [.traverse 5 0]) false none (fun _ => .no) := by
    rw [List.append_assoc]
    refine ⟨trivial, ⟨rfl, by simp [nextAna], by simp [see]⟩, ?_⟩
    apply hD
    intro i
    simp [see]
    split_ifs <;> simp
  refine ⟨_, hdis, ?_, by simp, ?_⟩
  · rw [List.replicate_succ']
    simp only [run, List.foldl_append]
    have := run_newGens (lastGen - 1) (run St.init [.newGen, .traverse 5 0]) (by decide)
    simp only [run] at this
    rw [this]
    decide
  · rw [C54_traverse_partial _ _ _ hdis]
    clear hdis hD
    have hn : ∀ n m, (List.replicate (n + 1) Ev.newGen).foldl (fun m e i => see i m e) m 5 ≠
        Visit.outer := by
      intro n
      induction n with
      | zero =>
        intro m
        simp only [Nat.zero_add, List.replicate_one, List.foldl_cons, List.foldl_nil, see]
        split_ifs <;> simp
      | succ n ih => intro m; exact ih _
    rw [decide_eq_false_iff_not]
    rintro (hc | ⟨_, hc⟩)
    swap
    · exact hc rfl
    revert hc
    show status _ 5 ≠ _
    unfold status
    rw [List.foldl_append]
    exact hn _ _

/-- **C54 fails for literal call inputs.** `jitc_var_call_input` keeps the size of
a literal in the field that holds the stamps. If a traversal reaches the literal
before `jitc_var_call` clears the field, and the size happens to equal the stamp
of the traversal, the literal is skipped although nothing has visited it. Here
the first evaluation of the program reaches a literal call input of size 3. -/
theorem C54_stashed_size_fails :
    ∃ evs : List Ev, ∃ i, (∀ d, Ev.traverse i d ∉ evs) ∧ Ev.analyze i ∉ evs ∧
      skips (run St.init evs) i 0 = true :=
  ⟨[.stash 4 3, .newGen], 4, by simp, by simp, by decide⟩

end Verif.Eval.Gen
