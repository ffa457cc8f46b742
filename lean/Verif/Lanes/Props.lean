import Verif.Lanes.Lemmas

/-!
# C72: Lanes beyond the end of a computation do nothing
-/
namespace Verif.Lanes
open Verif.Llvm
open Expr

/-- **C72.**  While the mask stack is empty, or its top has a size that is incompatible with that of the
operation, a side effect of a kernel of size `N` happens exactly once for each element whose mask is set (in
increasing order within the tasks), and in no lane beyond the end; for every size, mask (also literals and
arrays with arbitrary content behind their end), vector width, block size and number of threads. -/
theorem C72_no_stack (m : Machine) (c : Cfg) {N : Nat} (h : m.Fits N) (stack : List Expr)
    (hst : ∀ (t : Expr) (rest : List Expr), stack = t :: rest → N ≠ 1 ∧ t.size ≠ 1 ∧ t.size ≠ N)
    (x r : Expr) (hr : maskApply c stack x N = some r) (hs : r.size = N) :
    effects N m.w m.desired m.cores r = (List.range N).filter fun l => x.elem l := by
  have hu : usable stack N = none := by
    unfold usable
    cases stack with
    | nil => rfl
    | cons t rest =>
      obtain ⟨h1, h2, h3⟩ := hst t rest rfl
      dsimp only
      rw [if_neg (by omega)]
  obtain ⟨hg, he⟩ := maskApply_spec (m := m) hr (fun y hy => by rw [hu] at hy; cases hy)
  rw [effects_guarded h (Or.inr hs) hg]
  apply List.filter_congr
  intro l _
  rw [he]
  unfold wanted
  cases stack with
  | nil => simp
  | cons t rest =>
    obtain ⟨h1, h2, h3⟩ := hst t rest rfl
    dsimp only
    rw [if_neg (by omega), Bool.and_true]

/-- **C72 (partial).**  After any sequence of operations on masks in which only masks obtained from the
mask functions are pushed, a side effect happens exactly once for each element whose mask is set and
where the mask at the top of the stack (if compatible) is set, and in no lane beyond the end.  Missing:
masks of other origin on the stack (false, see `C72_literal_counterexample`), and evaluation of masks
with one element (false, see `C72_scalar_counterexample`). -/
theorem C72_history_partial (m : Machine) (s : State) (hs : Reachable m s) (c : Cfg) (x r : Expr) (n N : Nat)
    (hr : maskApply c s.stack x n = some r) (h : m.Fits N) (hN : r.size = 1 ∨ r.size = N) :
    effects N m.w m.desired m.cores r = (List.range N).filter fun l => wanted s.stack x n l := by
  obtain ⟨hg, he⟩ := maskApply_spec (m := m) hr fun y hy => (reachable_guarded hs).2 y (usable_mem hy)
  rw [effects_guarded h hN hg]
  apply List.filter_congr
  intro l _
  rw [he]

/-- **C72 (partial).**  Masks obtained from the mask functions can themselves be used by operations. -/
theorem C72_masks_partial (m : Machine) (s : State) (hs : Reachable m s) (x : Expr) (hx : x ∈ s.masks) (N : Nat)
    (h : m.Fits N) (hN : x.size = 1 ∨ x.size = N) :
    effects N m.w m.desired m.cores x = (List.range N).filter fun l => x.elem l :=
  effects_guarded h hN ((reachable_guarded hs).1 x hx)

/-- A machine: 8 lanes, blocks of 16 elements, 4 threads -/
def mach : Machine := ⟨8, 16, 4, by decide, by decide, ⟨2, rfl⟩⟩

theorem mach_fits (n : Nat) (h0 : 0 < n) (h : n < 2 ^ 31) : mach.Fits n :=
  ⟨h0, by show n + 16 ≤ _; omega, by show n + (2 * 4 + 1) * 8 ≤ _; omega⟩

/-- Every second element of an array of 11 elements, whose memory continues behind the end -/
def odd : Expr := .input 11 fun l => l % 2 == 1

example : (maskApply ⟨true, false⟩ [] odd 11).map (effects 11 8 16 4) = some [1, 3, 5, 7, 9] := by decide +kernel
/-- without the mask functions -/
example : effects 11 8 16 4 odd = [1, 3, 5, 7, 9, 11, 13, 15] := by decide +kernel

example : effects 11 8 16 4 (.and 11 (.dflt 11) odd) = [1, 3, 5, 7, 9] := by
  have h := C72_no_stack mach ⟨true, false⟩ (mach_fits 11 (by decide) (by decide)) [] (fun t rest h => by cases h) odd
    (.and 11 (.dflt 11) odd) rfl rfl
  exact h.trans (by decide +kernel)

/-- a history: an evaluation scope, and in it an evaluated mask of 11 elements -/
def inScope : State :=
  { masks := [evaluate 8 (fun _ => true) (.and 11 (.dflt 1) odd), .dflt 1],
    stack := [evaluate 8 (fun _ => true) (.and 11 (.dflt 1) odd), .dflt 1] }

theorem inScope_reachable : Reachable mach inScope := by
  have h1 := Reachable.step .start (Step.default (m := mach) _ 1 _ rfl)
  have h2 := Reachable.step h1 (Step.push _ (.dflt 1) (List.mem_cons_self))
  have h3 := Reachable.step h2 (Step.apply _ ⟨true, false⟩ odd 11 _ rfl)
  have h4 := Reachable.step h3 (Step.eval _ 0 _ (fun _ => true) rfl (by decide))
  exact Reachable.step h4 (Step.push _ _ List.mem_cons_self)

example : (maskApply ⟨true, false⟩ inScope.stack (.lit 1 true) 11).map (effects 11 8 16 4) = some [1, 3, 5, 7, 9] := by
  decide +kernel
example (r : Expr) (hr : maskApply ⟨true, false⟩ inScope.stack (.lit 1 true) 11 = some r) (hN : r.size = 1 ∨ r.size = 11) :
    effects 11 8 16 4 r = (List.range 11).filter fun l => wanted inScope.stack (.lit 1 true) 11 l :=
  C72_history_partial mach inScope inScope_reachable _ _ _ _ _ hr (mach_fits 11 (by decide) (by decide)) hN

/-- **C72 fails** for masks of other origin: if the literal `true` is pushed, an operation of size 3 has
effects in the 5 lanes beyond the end.  (The mask stack is documented as a means to restrict operations
further.) -/
theorem C72_literal_counterexample :
    ∃ r : Expr, maskApply ⟨true, false⟩ [.lit 1 true] (.lit 1 true) 3 = some r
      ∧ (r.size = 1 ∨ r.size = 3)
      ∧ (List.range 3).filter (fun l => wanted [.lit 1 true] (.lit 1 true) 3 l) = [0, 1, 2]
      ∧ effects 3 8 16 4 r = [0, 1, 2, 3, 4, 5, 6, 7] :=
  ⟨.lit 1 true, rfl, Or.inl rfl, by decide +kernel, by decide +kernel⟩

/-- **C72 fails** if a mask of one element is evaluated: here the default mask of an evaluation scope.  Its
value is loaded from memory and broadcast to all lanes, including those beyond the end.  The
correction in `jitc_var_mask_apply` only applies to operations with one element. -/
theorem C72_scalar_counterexample :
    ∃ r : Expr, maskApply ⟨true, false⟩ [evaluate 8 (fun _ => false) (.dflt 1)] (.lit 1 true) 3 = some r
      ∧ (r.size = 1 ∨ r.size = 3)
      ∧ (List.range 3).filter (fun l => wanted [evaluate 8 (fun _ => false) (.dflt 1)] (.lit 1 true) 3 l) = [0, 1, 2]
      ∧ effects 3 8 16 4 r = [0, 1, 2, 3, 4, 5, 6, 7] :=
  ⟨evaluate 8 (fun _ => false) (.dflt 1), rfl, Or.inl rfl, by decide +kernel, by decide +kernel⟩

/-- With an operation of one element the correction works. -/
example : (maskApply ⟨true, false⟩ [evaluate 8 (fun _ => false) (.dflt 1)] (.lit 1 true) 1).map (effects 1 8 16 4) = some [0] := by
  decide +kernel

end Verif.Lanes
