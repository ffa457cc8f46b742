import Verif.Freeze.Closed
import Verif.Freeze.OwnProps

/-!
# C65: an accepted recording only depends on its arguments
-/

namespace Verif.Freeze

/-- **C65.** If `jit_freeze_stop` accepts the recording of a function, then the function only passed its
arguments, and arrays that it had computed before, to launches, copies, reductions, matrix
products and parameter blocks: a recording never contains the contents or the addresses of
arrays that are not arguments.

Partial: synchronous copies and permutations (`C65_sync_copy_counterexample`,
`C65_permutation_counterexample`) and functions that overwrite arrays
(`C65_overwritten_counterexample`). -/
theorem C65_self_contained_partial {addr : Nat → Nat} {ext : List Nat} {ins : List Arr}
    {tr : List Cmd} {outs : List Arr} {rc : Recording}
    (hp : Placed addr (ins.map (·.arr) ++ ext) tr) (hins : (ins.map (·.arr)).Nodup)
    (hf : Fresh (ins.map (·.arr) ++ ext) tr)
    (hrec : record addr ext ins tr outs = some rc) :
    SelfContained Cmd.tests (ins.map (·.arr)) tr := by
  have hapart : Apart addr (ins.map (·.arr)) := by
    have : Apart addr (ins.map (·.arr) ++ ext) := by
      cases tr with
      | nil => exact hp
      | cons c cs =>
        exact fun x hx y hy => hp.1 x (List.mem_append.2 (Or.inr hx)) y
          (List.mem_append.2 (Or.inr hy))
    exact fun x hx y hy => this x (List.mem_append.2 (Or.inl hx)) y (List.mem_append.2 (Or.inl hy))
  have hn : (ins.map fun i => addr i.arr).Nodup := by
    have : (ins.map fun i => addr i.arr) = (ins.map (·.arr)).map addr := by
      rw [List.map_map]
      rfl
    rw [this]
    exact hins.map_on fun x hx y hy => hapart x hx y hy
  have hw := start_well (ext := ext) hn
  have h0 : Tracks addr (ins.map (·.arr) ++ ext) (ins.map (·.arr)) (recordStart addr ins) := by
    refine ⟨hw.lt, hw.inj, fun p s hps _ => ?_⟩
    have hlt := hw.lt p s hps
    rw [(start_spec hn).1] at hlt
    obtain ⟨x, h1, h2, h3⟩ := hw.isInput p s hps hlt
    exact ⟨x, h1, h2, h3⟩
  unfold record recordStop at hrec
  split_ifs at hrec with he hv
  refine self_contained h0 hp hf (by simpa using he) ?_
  intro s hs
  unfold validate at hv
  have := List.all_eq_true.1 hv s (List.mem_range.2 hs)
  simpa using this

/-! ## A concrete case

The function of C62 is accepted; the same function is rejected if the array that its second
kernel accesses is not an argument, and so is a function that stores a pointer to such an array in a
parameter block. -/

example : (record wAddr [9] (exIns 2) (exTrace 2) (exOuts 2)).isSome = true := by decide

example : Placed wAddr ((exIns 2).map (·.arr) ++ [9]) (exTrace 2) ∧
    Fresh ((exIns 2).map (·.arr) ++ [9]) (exTrace 2) := by
  refine ⟨⟨?_, by decide, ?_, by decide, ?_, by decide, ?_, by decide, ?_⟩,
    by decide, by decide, by decide, by decide, by decide, by decide, by decide, by decide, trivial⟩ <;>
    (intro x _ y _ h; exact Nat.add_right_cancel h)

example : (record wAddr [9] [⟨0, 4, 1⟩] [.memcpy 1 9 1] [⟨1, 4, 1⟩]).isSome = false := by decide

example : (record wAddr [9] [⟨0, 4, 1⟩] [.aggregate 1 8 [.ptr 0 9]] [⟨1, 4, 8⟩]).isSome = false := by
  decide

example : ¬ SelfContained Cmd.tests [0] [.memcpy 1 9 1] := by
  intro h
  exact absurd (h.1 trivial 9 (List.mem_cons_self ..)) (by decide)

/-! ## Counterexamples -/

/-- A permutation of the array 9, which is no argument, is accepted and missing in the recording;
so is the result that it computes. -/
theorem C65_permutation_counterexample :
    ∃ rc, record wAddr [9] [⟨0, 4, 1⟩] [.mkperm 9 4 4 1 1 2] [⟨1, 8, 4⟩] = some rc ∧
      rc.ops = [] ∧ rc.outputs = [] := ⟨_, rfl, rfl, rfl⟩

/-- A synchronous copy of the array 9, which is no argument, is accepted and missing in the
recording: the result contains the contents that the array had before. -/
theorem C65_sync_copy_counterexample :
    outcome exSem wAddr [9] [⟨0, 4, 1⟩] [.memset 1 1 1 7, .memcpySync 1 9 1] [⟨1, 4, 1⟩] [⟨4, 1, 50⟩]
      (fun a => if a = 50 then some [.byte 1] else none) 60 = .values [some (4, [some 7])] := by
  decide

/-- A parameter block that contains the address of the array 9, which is no argument, is accepted if
the array is overwritten later.  The replay stores a null pointer. -/
theorem C65_overwritten_counterexample :
    outcome exSem wAddr [9] [⟨0, 4, 1⟩] [.aggregate 1 8 [.ptr 0 9], .memset 9 1 1 7] [⟨1, 4, 8⟩]
      [⟨4, 1, 50⟩] (fun a => if a = 50 then some [.byte 1] else none) 60 =
    .values [some (4, List.replicate 8 (some 0))] := by
  decide

end Verif.Freeze
