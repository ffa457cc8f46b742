import Verif.Freeze.Dry
import Verif.Freeze.Wrong

/-!
# C63: a dry run tells whether a recording can be replayed
-/

namespace Verif.Freeze

/-- The state before the first operation. -/
def startState (rc : Recording) (vs : List InVar) (heap : Nat → Option (List (Cell Nat)))
    (next : Nat) : RState :=
  { slot := initSlots rc.inputs vs fun _ => {}, heap := heap, next := next }

/-- **C63, no effects.** A dry run does not change the memory of the process, does not read or write
array contents, and never terminates the process: it accepts, rejects, or raises an
exception. -/
theorem C63_no_effects (sem : Sem) (rc : Recording) (vs : List InVar)
    (heap : Nat → Option (List (Cell Nat))) (next : Nat) :
    (∃ st, dryRun sem rc vs heap next = .ok st ∧ st.heap = heap ∧ st.next = next) ∨
    dryRun sem rc vs heap next = .reject ∨
    ∃ st, dryRun sem rc vs heap next = .raise st ∧ st.heap = heap ∧ st.next = next := by
  unfold dryRun
  cases rc.dry with
  | false => exact Or.inl ⟨_, rfl, rfl, rfl⟩
  | true =>
    have h := ops_harmless (sem := sem) rc.ops
      { slot := initSlots rc.inputs vs fun _ => {}, heap := heap, next := next }
    simp only [if_true]
    cases hx : replayOps sem true
      { slot := initSlots rc.inputs vs fun _ => {}, heap := heap, next := next } rc.ops with
    | ok st =>
      rw [hx] at h
      exact Or.inl ⟨st, rfl, h.1, h.2⟩
    | reject => exact Or.inr (Or.inl rfl)
    | raise st =>
      rw [hx] at h
      exact Or.inr (Or.inr ⟨st, rfl, h.1, h.2⟩)
    | abort =>
      rw [hx] at h
      exact False.elim h
    | ub =>
      rw [hx] at h
      exact False.elim h

/-- Its result does not depend on the contents of the arrays. -/
example (sem : Sem) (rc : Recording) (vs : List InVar) (heap : Nat → Option (List (Cell Nat)))
    (next : Nat) : dryRun sem rc vs heap next ≠ .ub := by
  rcases C63_no_effects sem rc vs heap next with ⟨st, h, _⟩ | h | ⟨st, h, _⟩ <;>
    rw [h] <;> intro e <;> cases e

theorem same_start (rc : Recording) (vs : List InVar) (heap : Nat → Option (List (Cell Nat)))
    (next : Nat) : Backed (startState rc vs heap next) :=
  fun s hd => backed_init rc.inputs vs (fun _ => {}) (fun _ _ => rfl) s hd

theorem makeOutputs_cases (rc : Recording) (st : RState) (as : List Access) :
    makeOutputs rc st as ≠ .reject ∧ (makeOutputs rc st as = .abort →
      ∃ a ∈ as, (rc.var a.slot).init = false ∧ (st.slot a.slot).data = none) := by
  induction as with
  | nil => exact ⟨fun h => (nomatch h), fun h => (nomatch h)⟩
  | cons a as ih =>
    have rest : ∀ o, (makeOutputs rc st as).bind (fun os => Res.ok (o :: os)) ≠ .reject ∧
        ((makeOutputs rc st as).bind (fun os => Res.ok (o :: os)) = .abort →
          ∃ a' ∈ a :: as, (rc.var a'.slot).init = false ∧ (st.slot a'.slot).data = none) := by
      intro o
      cases hx : makeOutputs rc st as with
      | ok os => exact ⟨fun h => (nomatch h), fun h => (nomatch h)⟩
      | reject => exact absurd hx ih.1
      | raise z => exact ⟨fun h => (nomatch h), fun h => (nomatch h)⟩
      | abort =>
        refine ⟨fun h => (nomatch h), fun _ => ?_⟩
        obtain ⟨b, hb, h⟩ := ih.2 hx
        exact ⟨b, List.mem_cons_of_mem _ hb, h⟩
      | ub => exact ⟨fun h => (nomatch h), fun h => (nomatch h)⟩
    unfold makeOutputs
    cases hi : (rc.var a.slot).init with
    | true =>
      simp only [if_true]
      exact rest _
    | false =>
      simp only [Bool.false_eq_true, if_false]
      cases hd : (st.slot a.slot).data with
      | none => exact ⟨fun h => (nomatch h), fun _ => ⟨a, List.mem_cons_self .., hi, hd⟩⟩
      | some p =>
        simp only
        cases (st.slot a.slot).size (typeSize a.vtype) with
        | none => exact ⟨fun h => (nomatch h), fun h => (nomatch h)⟩
        | some n => exact rest _

/-- **C63, acceptance.** If the dry run accepts, then none of the operations of the replay is
rejected or terminates the process. -/
theorem C63_accepted_operations {sem : Sem} {addr : Nat → Nat} {ext : List Nat} {ins : List Arr}
    {tr : List Cmd} {outs : List Arr} {rc : Recording} {vs : List InVar}
    {heap : Nat → Option (List (Cell Nat))} {next : Nat} {st : RState}
    (hrec : record addr ext ins tr outs = some rc)
    (hdry : dryRun sem rc vs heap next = .ok st) :
    replayOps sem false (startState rc vs heap next) rc.ops ≠ .reject ∧
    replayOps sem false (startState rc vs heap next) rc.ops ≠ .abort := by
  obtain ⟨e1, e2⟩ := record_rec hrec
  unfold dryRun at hdry
  cases hd : rc.dry with
  | false =>
    have hsafe : ∀ op ∈ rc.ops, Safe op.kind := by
      rw [e1]
      apply recordAll_safe
      · intro _ op hop
        rw [recordStart_ops] at hop
        cases hop
      · rw [← e2, hd]
    have h := ops_goes (sem := sem) rc.ops (startState rc vs heap next) hsafe
    constructor <;>
    · intro e
      rw [e] at h
      exact h
  | true =>
    rw [hd] at hdry
    simp only [if_true] at hdry
    rcases ops_dry (fun _ => rfl) (same_start rc vs heap next) rc.ops hdry with ⟨r1, e, _⟩ | e
    · rw [startState] at e ⊢
      rw [e]
      exact ⟨fun h => (nomatch h), fun h => (nomatch h)⟩
    · rw [startState] at e ⊢
      rw [e]
      exact ⟨fun h => (nomatch h), fun h => (nomatch h)⟩

/-- **C63, acceptance, complete replay.** After an accepting dry run, the replay is not
rejected.  It can only terminate the process when an output that is no input has no
memory, because it is empty.

Partial: the second case does occur (`C63_empty_output_counterexample`). -/
theorem C63_accepted_partial {sem : Sem} {addr : Nat → Nat} {ext : List Nat} {ins : List Arr}
    {tr : List Cmd} {outs : List Arr} {rc : Recording} {vs : List InVar}
    {heap : Nat → Option (List (Cell Nat))} {next : Nat} {st : RState}
    (hrec : record addr ext ins tr outs = some rc)
    (hdry : dryRun sem rc vs heap next = .ok st) :
    replay sem rc vs heap next ≠ .reject ∧
    (replay sem rc vs heap next = .abort →
      ∃ st1, replayOps sem false (startState rc vs heap next) rc.ops = .ok st1 ∧
        ∃ a ∈ rc.outputs, (rc.var a.slot).init = false ∧ (st1.slot a.slot).data = none) := by
  obtain ⟨h1, h2⟩ := C63_accepted_operations hrec hdry
  unfold replay
  unfold startState at h1 h2 ⊢
  cases hx : replayOps sem false
    { slot := initSlots rc.inputs vs fun _ => {}, heap := heap, next := next } rc.ops with
  | ok st1 =>
    simp only [Res.bind]
    obtain ⟨k1, k2⟩ := makeOutputs_cases rc st1 rc.outputs
    cases hy : makeOutputs rc st1 rc.outputs with
    | ok os => exact ⟨fun h => (nomatch h), fun h => (nomatch h)⟩
    | reject => exact absurd hy k1
    | raise z => exact ⟨fun h => (nomatch h), fun h => (nomatch h)⟩
    | abort => exact ⟨fun h => (nomatch h), fun _ => ⟨st1, rfl, k2 hy⟩⟩
    | ub => exact ⟨fun h => (nomatch h), fun h => (nomatch h)⟩
  | reject => exact absurd hx h1
  | abort => exact absurd hx h2
  | raise z => exact ⟨fun h => (nomatch h), fun h => (nomatch h)⟩
  | ub => exact ⟨fun h => (nomatch h), fun h => (nomatch h)⟩

/-- **C63, sizes.** If a dry run is required and accepts, then the operations of the replay do
not raise exceptions either, and all arrays of the replay have the sizes that the dry run
determined (unless an operation accesses invalid memory). -/
theorem C63_sizes {sem : Sem} {rc : Recording} {vs : List InVar}
    {heap : Nat → Option (List (Cell Nat))} {next : Nat} {st : RState} (hd : rc.dry = true)
    (hdry : dryRun sem rc vs heap next = .ok st) :
    (∃ st1, replayOps sem false (startState rc vs heap next) rc.ops = .ok st1 ∧
      ∀ s, (st1.slot s).dataSize = (st.slot s).dataSize) ∨
    replayOps sem false (startState rc vs heap next) rc.ops = .ub := by
  unfold dryRun at hdry
  rw [hd] at hdry
  simp only [if_true] at hdry
  rcases ops_dry (fun _ => rfl) (same_start rc vs heap next) rc.ops hdry with ⟨r1, e, h, _⟩ | e
  · exact Or.inl ⟨r1, e, fun s => (h s).symm⟩
  · exact Or.inr e

/-- **C63, rejection.** Inputs that can be replayed are not rejected, if the function performs no
compression and no dot product.

Partial: the dry run always rejects compressions, see `C63_compress_counterexample`. -/
theorem C63_rejected_partial {sem : Sem} {addr : Nat → Nat} {ext : List Nat} {ins : List Arr}
    {tr : List Cmd} {outs : List Arr} {rc : Recording} {vs : List InVar}
    {heap : Nat → Option (List (Cell Nat))} {next : Nat} {os : List OutVar} {st1 : RState}
    (hrec : record addr ext ins tr outs = some rc)
    (hc : ∀ src size out, Cmd.compress src size out ∉ tr)
    (hdot : ∀ vt x y size out, Cmd.dot vt x y size out ∉ tr)
    (hrep : replay sem rc vs heap next = .ok (os, st1)) :
    ∃ st, dryRun sem rc vs heap next = .ok st := by
  obtain ⟨e1, e2⟩ := record_rec hrec
  have hk : ∀ op ∈ rc.ops, op.kind ≠ .compress ∧ op.kind ≠ .dot := by
    rw [e1]
    refine recordAll_kinds (P := fun k => k ≠ .compress ∧ k ≠ .dot) ?_ ?_
    · intro op hop
      rw [recordStart_ops] at hop
      cases hop
    · intro c hc1 k hk
      constructor
      · rintro rfl
        cases c <;> first | exact hk.elim | exact hc _ _ _ hc1
      · rintro rfl
        cases c <;> first | exact hk.elim | exact hdot _ _ _ _ _ hc1
  unfold replay at hrep
  obtain ⟨st2, h2, _⟩ := bind_ok hrep
  obtain ⟨d, hd, _⟩ := ops_real (d := startState rc vs heap next) (fun _ => rfl) rc.ops hk h2
  unfold dryRun
  cases rc.dry with
  | false => exact ⟨_, rfl⟩
  | true => exact ⟨d, hd⟩

/-! ## A concrete case

The function of C62, recorded with 2 elements: the dry run accepts 4 elements. A reduction of blocks
with 2 elements is rejected for 3 elements, and the replay would terminate the process. -/

def dryOk (vt n : Nat) (tr : List Cmd) (outs : List Arr) (n' : Nat) : Option Bool :=
  (record wAddr [] [⟨0, vt, n⟩] tr outs).bind fun rc =>
    match dryRun exSem rc [⟨vt, n', 50⟩] (fun _ => none) 60 with
    | .ok _ => some true
    | .reject => some false
    | _ => none

example : dryOk 8 2 (exTrace 2) (exOuts 2) 4 = some true := by decide

example : dryOk 4 4 [.blockReduce 4 0 4 2 0 1] [⟨1, 4, 2⟩] 3 = some false ∧
    wOutcome 4 4 [.blockReduce 4 0 4 2 0 1] [⟨1, 4, 2⟩] 3 [1, 2, 3] = .aborted := by decide

example : ∃ rc, record wAddr [] (exIns 2) (exTrace 2) (exOuts 2) = some rc ∧ rc.dry = true :=
  ⟨_, rfl, by decide⟩

/-! ## Counterexamples -/

/-- A compression whose result is copied: there is no dry run, and the replay with an empty
mask terminates the process. -/
theorem C63_empty_output_counterexample :
    dryOk 1 1 [.compress 0 1 1, .memcpy 2 1 4] [⟨2, 8, 1⟩] 1 = some true ∧
    wOutcome 1 1 [.compress 0 1 1, .memcpy 2 1 4] [⟨2, 8, 1⟩] 1 [0] = .aborted := by decide

/-- A dot product of arrays whose sizes were equal when the function was recorded: there is no
dry run, although it would reject other sizes, and the replay accesses memory outside of the
smaller array. -/
theorem C63_dot_counterexample :
    ∃ rc, record wAddr [] [⟨0, 4, 2⟩, ⟨1, 4, 2⟩] [.dot 4 0 1 2 2] [⟨2, 4, 1⟩] = some rc ∧
    (∃ st, dryRun exSem rc [⟨4, 3, 50⟩, ⟨4, 2, 51⟩] (fun _ => none) 60 = .ok st) ∧
    replayOps exSem true (startState rc [⟨4, 3, 50⟩, ⟨4, 2, 51⟩] (fun _ => none) 60) rc.ops =
      .reject ∧
    replay exSem rc [⟨4, 3, 50⟩, ⟨4, 2, 51⟩]
      (fun a => if a = 50 then some [.byte 1, .byte 2, .byte 3]
        else if a = 51 then some [.byte 1, .byte 2] else none) 60 = .ub :=
  ⟨_, rfl, ⟨_, rfl⟩, rfl, rfl⟩

/-- A compression followed by a reduction: every dry run rejects, although the replay with the
same argument works. -/
theorem C63_compress_counterexample :
    dryOk 1 1 [.compress 0 1 1, .blockReduce 8 0 1 1 1 2] [⟨2, 8, 1⟩] 1 = some false ∧
    ∃ l, wOutcome 1 1 [.compress 0 1 1, .blockReduce 8 0 1 1 1 2] [⟨2, 8, 1⟩] 1 [1] = .values l :=
  ⟨by decide, _, rfl⟩

end Verif.Freeze
