import Verif.FreeSlots.Lemmas
/-! # C03: the slot recycler behaves like a set with "remove the minimum" -/
namespace Verif.FreeSlots

/-- **C03.**  For every history of `push`/`pop`/`empty` calls that is legal for a
mathematical set of free indices, the bitmap implementation has no undefined behaviour and
returns exactly what the set specification returns: `pop` yields the minimum free index. -/
theorem C03_free_slots_refine_min_set (ops : List Op) (outs : List Out)
    (h : specRun [] ops = some outs) : ({} : FreeSlots).run ops = some outs :=
  run_refines ops rep_init h

/-- The hypothesis is met by a history that pushes across words and recycles. -/
example : specRun [] [.push 200, .push 3, .pop, .push 64, .push 5, .isEmpty, .pop, .pop, .pop,
    .isEmpty] =
    some [.unit, .unit, .idx 3, .unit, .unit, .bool false, .idx 5, .idx 64, .idx 200,
      .bool true] := by decide

/-- Popping from an empty recycler is undefined behaviour of the implementation, so the
callers' `empty()` guards (src/registry.cpp:91) are necessary. -/
theorem C03_pop_empty_is_ub : ({} : FreeSlots).pop = none := by
  simp [FreeSlots.pop, scan]

end Verif.FreeSlots
