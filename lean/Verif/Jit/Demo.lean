import Verif.Jit.Ref
/-!
# Example runs of evaluation
-/
namespace Verif.Jit
open Verif.Var Verif.Ops Verif.Gather

/-- A step of a run. -/
inductive JStep where
  | call (c : Call)
  | eval (q : List (Nat × Nat))

/-- Execute steps, all of which must be legal and return normally. -/
def runJ (E : Env) : List JStep → Store → (Nat → Nat) → Option (Store × (Nat → Nat))
  | [], s, u => some (s, u)
  | .call c :: l, s, u =>
    if c.legal u then
      match c.exec (evalJit E []) s with
      | .ok r s' => runJ E l s' (c.after u r)
      | _ => none
    else none
  | .eval q :: l, s, u =>
    match evalJit E q s with
    | .ok _ s' => runJ E l s' u
    | _ => none

theorem runJ_reachable {E : Env} : ∀ (l : List JStep) {s s' : Store} {u u' : Nat → Nat}, JReachable E s u →
    runJ E l s u = some (s', u') → JReachable E s' u'
  | [], s, s', u, u', h, e => by
    unfold runJ at e
    cases e; exact h
  | .call c :: l, s, s', u, u', h, e => by
    unfold runJ at e
    split at e
    · rename_i hl
      split at e
      · rename_i r s1 he
        exact runJ_reachable l (.call [] h (.ok hl he)) e
      · cases e
    · cases e
  | .eval q :: l, s, s', u, u', h, e => by
    unfold runJ at e
    split at e
    · rename_i s1 he
      exact runJ_reachable l (.eval q h he) e
    · cases e

/-- A reachable state in which `P` holds, from a run. -/
theorem jreach (mem : BitVec 64 → Nat → BitVec 64) (l : List JStep)
    (P : Store → (Nat → Nat) → Prop) [∀ s u, Decidable (P s u)]
    (h : (runJ refEnv l { mem := mem } (fun _ => 0)).any (fun p => decide (P p.1 p.2)) = true) :
    ∃ s u, JReachable refEnv s u ∧ P s u := by
  cases hr : runJ refEnv l { mem := mem } (fun _ => 0) with
  | none => rw [hr] at h; cases h
  | some p =>
    rw [hr] at h
    exact ⟨p.1, p.2, runJ_reachable l (.init mem true true true false false) hr, by simpa using h⟩

/-- What an evaluation did. -/
def after {α : Type} (r : Res α) (f : α → Store → Bool) : Bool :=
  match r with
  | .ok a s => f a s
  | _ => false

/-- A counter, a literal, their sum, and the square of the sum. -/
def sums : List JStep :=
  [.call (.counter 1 4), .call (.literal 1 .u32 5#64 1), .call (.node2 1 .add .u32 4 false 1 2 0#64),
   .call (.node2 1 .mul .u32 4 false 3 3 0#64)]

/-- The hypotheses of C61 are met: the sum is scheduled, and evaluated; the square is not scheduled,
and still an operation on the sum. -/
example : ∃ s u, JReachable refEnv s u ∧ (0 < u 3 ∧ 0 < u 4 ∧ (s.vars 3).kind = .add ∧
    after (evalJit refEnv [(3, (s.vars 3).counter)] s) (fun _ s' =>
      (s'.vars 3).kind == .evaluated && (s'.vars 4).kind == .mul && (s'.vars 4).d0 == 3 &&
      ((List.range 4).map fun l => s'.mem (s'.vars 3).literal l) == [5#64, 6#64, 7#64, 8#64] &&
      s'.acquired == [(s'.vars 3).literal]) = true) :=
  jreach memIdx sums (fun s u => 0 < u 3 ∧ 0 < u 4 ∧ (s.vars 3).kind = .add ∧
    after (evalJit refEnv [(3, (s.vars 3).counter)] s) (fun _ s' =>
      (s'.vars 3).kind == .evaluated && (s'.vars 4).kind == .mul && (s'.vars 4).d0 == 3 &&
      ((List.range 4).map fun l => s'.mem (s'.vars 3).literal l) == [5#64, 6#64, 7#64, 8#64] &&
      s'.acquired == [(s'.vars 3).literal]) = true) (by decide +kernel)

/-- Values before the evaluation: `C61_values` applies to entry 2 of the square. -/
example : ∃ s u s', JReachable refEnv s u ∧ evalJit refEnv [(3, (s.vars 3).counter)] s = .ok () s' ∧
    Entry s 4 2 49#64 ∧ Entry s' 4 2 49#64 := by
  obtain ⟨s, u, hr, hu, h4, h1, h2, h3, h5, h6, z1, z2, z3, z4, ho⟩ := jreach memIdx sums (fun s u => 0 < u 4 ∧
    ((s.vars 4).kind = .mul ∧ (s.vars 4).d0 = 3 ∧ (s.vars 4).d1 = 3 ∧ (s.vars 4).writePtr = false ∧
      (s.vars 4).type = .u32 ∧ (s.vars 4).refs = [3, 3, 0, 0]) ∧
    ((s.vars 1).kind = .counter ∧ (s.vars 1).type = .u32 ∧ (s.vars 1).refs = [0, 0, 0, 0]) ∧
    ((s.vars 2).kind = .literal ∧ (s.vars 2).type = .u32 ∧ (s.vars 2).literal = 5#64 ∧
      (s.vars 2).refs = [0, 0, 0, 0]) ∧
    ((s.vars 3).kind = .add ∧ (s.vars 3).d0 = 1 ∧ (s.vars 3).d1 = 2 ∧ (s.vars 3).writePtr = false ∧
      (s.vars 3).type = .u32 ∧ (s.vars 3).refs = [1, 2, 0, 0]) ∧ s.sideEffects = [] ∧ 0 < u 3 ∧
    (s.vars 1).size = 4 ∧ (s.vars 2).size = 1 ∧ (s.vars 3).size = 4 ∧ (s.vars 4).size = 4 ∧
    after (evalJit refEnv [(3, (s.vars 3).counter)] s) (fun _ _ => true) = true) (by decide +kernel)
  have hrun : ∃ s', evalJit refEnv [(3, (s.vars 3).counter)] s = .ok () s' := by
    cases he : evalJit refEnv [(3, (s.vars 3).counter)] s with
    | ok a s' => exact ⟨s', rfl⟩
    | raise s' => rw [he] at ho; cases ho
    | abort => rw [he] at ho; cases ho
    | stop r => rw [he] at ho; cases ho
  obtain ⟨s', he⟩ := hrun
  have v1 : Val s 1 2 2#64 := by
    have : Val s 1 2 (norm (s.vars 1).type (BitVec.ofNat 64 2)) := .counter h1.1
    rw [h1.2.1] at this; exact this
  have v2 : Val s 2 2 5#64 := by
    have : Val s 2 2 (norm (s.vars 2).type (s.vars 2).literal) := .literal h2.1
    rw [h2.2.1, h2.2.2.1] at this; exact this
  have v3 : Val s 3 2 7#64 := by
    refine .node2 (x := 2#64) (y := 5#64) h3.2.2.2.1 (by rw [h3.2.1]; decide) (by rw [h3.2.2.1]; decide)
      (by rw [h3.2.1]; exact v1) (by rw [h3.2.2.1]; exact v2) ?_
    rw [h3.1, h3.2.2.2.2.1, h3.2.1, h3.2.2.1, h1.2.1, h2.2.1]
    decide
  have v4 : Val s 4 2 49#64 := by
    refine .node2 (x := 7#64) (y := 7#64) h4.2.2.2.1 (by rw [h4.2.1]; decide) (by rw [h4.2.2.1]; decide)
      (by rw [h4.2.1]; exact v3) (by rw [h4.2.2.1]; exact v3) ?_
    rw [h4.1, h4.2.2.2.2.1, h4.2.1, h4.2.2.1, h3.2.2.2.2.1]
    decide
  have rd : ∀ k, Reads s 4 k → k = 1 ∨ k = 2 ∨ k = 3 ∨ k = 4 := by
    intro k hk
    induction hk with
    | root => simp
    | @dep k d _ _ hd h0 ih =>
      rcases ih with rfl | rfl | rfl | rfl
      · rw [h1.2.2] at hd; simp at hd; exact absurd hd h0
      · rw [h2.2.2.2] at hd; simp at hd; exact absurd hd h0
      · rw [h3.2.2.2.2.2] at hd; simp at hd; omega
      · rw [h4.2.2.2.2.2] at hd; simp at hd; omega
  have e4 : Entry s 4 2 49#64 := by
    refine ⟨v4, fun k hk => ?_⟩
    rcases rd k hk with rfl | rfl | rfl | rfl
    · left; omega
    · right; omega
    · left; omega
    · left; omega
  refine ⟨s, u, s', hr, he, e4, ?_⟩
  refine C61_values refEnv_ok refLaunch_ok hr he (by rw [h5]; intro i hi; cases hi) ?_ hu ?_ e4
  · intro i c hi hz
    simp only [List.mem_singleton, Prod.mk.injEq] at hi
    rw [hi.1, z3] at hz
    omega
  · left
    rw [h5]
    have vs : ∀ k, Visits s ([(3, (s.vars 3).counter)].map Prod.fst ++ []) k → k = 1 ∨ k = 2 ∨ k = 3 := by
      intro k hk
      induction hk with
      | root hi => simp at hi; omega
      | @dep k d _ hd ih =>
        obtain ⟨m, h0⟩ := takeWhile_ne hd
        rcases ih with rfl | rfl | rfl
        · rw [h1.2.2] at m; simp at m; exact absurd m h0
        · rw [h2.2.2.2] at m; simp at m; exact absurd m h0
        · rw [h3.2.2.2.2.2] at m; simp at m; omega
    intro i hi c
    rcases vs i hi with rfl | rfl | rfl
    · rw [h1.1]; exact fun e => by cases e
    · rw [h2.1]; exact fun e => by cases e
    · rw [h3.1]; exact fun e => by cases e

/-- A scatter of the values `v` (indices `i`) to the array `t`. -/
def scatterTo (p v i m : Nat) : List JStep :=
  [.call (.node4 1 scatterKind .void 4 false p v i m 0#64)]

/-- Evaluation with a pending side effect: the array is not dirty any more, the queue is empty, and the
scatter and its operands are gone. -/
example : ∃ s u, JReachable refEnv s u ∧ (s.sideEffects = [4] ∧ (s.vars 1).isDirty = true ∧
    after (evalJit refEnv [] s) (fun _ s' => s'.sideEffects == [] && !(s'.vars 1).isDirty &&
      !decide (Live s' 4) && !decide (Live s' 3) && decide (Live s' 1)) = true) :=
  jreach memIdx ([.call (.memMap 1 .u32 64#64 10 false), .call (.counter 1 4),
      .call (.pointer 1 64#64 1 true)] ++ scatterTo 3 2 2 2 ++ [.call (.decRef 3), .call (.markSideEffect 4)])
    (fun s _ => s.sideEffects = [4] ∧ (s.vars 1).isDirty = true ∧
      after (evalJit refEnv [] s) (fun _ s' => s'.sideEffects == [] && !(s'.vars 1).isDirty &&
      !decide (Live s' 4) && !decide (Live s' 3) && decide (Live s' 1)) = true) (by decide +kernel)

/-- **A lost reference.**  Variable 5 is a scatter to array 1; variable 9 is a scatter to array 6 of values read from
array 1.  The caller holds neither array.  Collection keeps the first scatter because array 1 is still
read, and then drops the second one.  Now nothing reads array 1, and the traversal drops the first scatter, too, but
its reference is not released: the scatter and array 1 stay in use forever. -/
theorem C61_lost_reference : ∃ s u, JReachable refEnv s u ∧ ((∀ i < s.len, u i = 0) ∧ s.sideEffects = [5, 9] ∧
    after (evalImpl refEnv [] s) (fun l s' => l == [5] && s'.sideEffects == [] && decide (Live s' 5) &&
      decide (Live s' 1) && !decide (Live s' 9)) = true) :=
  jreach memIdx ([.call (.memMap 1 .u32 64#64 10 false), .call (.counter 1 4),
      .call (.pointer 1 64#64 1 false), .call (.pointer 1 64#64 1 true)] ++ scatterTo 4 2 2 2 ++
      [.call (.memMap 1 .u32 128#64 10 false), .call (.pointer 1 128#64 6 true),
       .call (.node3 1 .gather .u32 4 false 3 2 2 0#64)] ++ scatterTo 7 8 2 2 ++
      [.call (.decRef 8), .call (.decRef 7), .call (.decRef 6), .call (.decRef 4), .call (.decRef 3),
       .call (.decRef 2), .call (.decRef 1), .call (.markSideEffect 5), .call (.markSideEffect 9)])
    (fun s u => (∀ i < s.len, u i = 0) ∧ s.sideEffects = [5, 9] ∧
    after (evalImpl refEnv [] s) (fun l s' => l == [5] && s'.sideEffects == [] && decide (Live s' 5) &&
      decide (Live s' 1) && !decide (Live s' 9)) = true) (by decide +kernel)

/-- **A lost reference.**  Marking a variable as side effect twice loses a reference. -/
theorem C61_marked_twice : ∃ s u, JReachable refEnv s u ∧ ((∀ i < s.len, i ≠ 1 → u i = 0) ∧ s.sideEffects = [4, 4] ∧
    after (evalImpl refEnv [] s) (fun l s' => l == [4] && s'.sideEffects == [] && decide (Live s' 4)) = true) :=
  jreach memIdx ([.call (.memMap 1 .u32 64#64 10 false), .call (.counter 1 4),
      .call (.pointer 1 64#64 1 true)] ++ scatterTo 3 2 2 2 ++ [.call (.decRef 3), .call (.decRef 2),
      .call (.incRef 4), .call (.markSideEffect 4), .call (.markSideEffect 4)])
    (fun s u => (∀ i < s.len, i ≠ 1 → u i = 0) ∧ s.sideEffects = [4, 4] ∧
    after (evalImpl refEnv [] s) (fun l s' => l == [4] && s'.sideEffects == [] && decide (Live s' 4)) = true)
    (by decide +kernel)

/-- A launch that fails. -/
def failEnv : Env := { refEnv with launch := fun s _ _ => .failed s.mem }

/-- After a failed evaluation, pending writes are dropped, and the array counts as up to date. -/
example : (runJ failEnv ([.call (.memMap 1 .u32 64#64 10 false), .call (.counter 1 4),
      .call (.pointer 1 64#64 1 true)] ++ scatterTo 3 2 2 2 ++ [.call (.decRef 3), .call (.markSideEffect 4)])
      { mem := memIdx } (fun _ => 0)).any (fun p => (p.1.vars 1).isDirty && match evalJit failEnv [] p.1 with
      | .raise s' => s'.sideEffects == [] && !(s'.vars 1).isDirty && decide (Live s' 1)
      | _ => false) = true := by decide +kernel

end Verif.Jit
