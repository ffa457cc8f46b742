import Verif.Registry.Lemmas
/-! # C01, C02: the instance registry -/
namespace Verif.Registry

/-- **C01 / C02 (master theorem).**  For every history of `put`, `remove` and `clear` calls
(non-null instances, fewer than `2^32 - 1` calls), the results are those of the abstract
registry specification (`Spec.lean`): `put` returns the smallest unused positive ID and
raises exactly when the pointer is already registered, and in the resulting state all
queries (`id`, `ptr`, `id_bound`, `peek`, `get_pointers`) answer according to the
specification.  No undefined behaviour occurs. -/
theorem C01_C02_registry_refines_spec (ops : List Op) (hlen : ops.length < 2 ^ 32)
    (hleg : ∀ o ∈ ops, o.legal = true) :
    ∃ s, SpecRun Spec.init ops (({} : Registry).run ops).1 s ∧
      Queries s (({} : Registry).run ops).2 := by
  obtain ⟨s, h1, h2⟩ := sim_run ops sim_init (by simp [CLEARED]; omega) hleg
  exact ⟨s, h1, queries_of_sim h2⟩

/-- `LiveSince ops k p i`: the history `ops` contains a call `put k p` that returned ID `i`, and
after that call the pointer was not removed and the registry was not cleared. -/
def LiveSince (ops : List Op) (k : Key) (p i : Nat) : Prop :=
  ∃ a b, ops = a ++ Op.put k p :: b ∧
    ((({} : Registry).run a).2.step (.put k p)).1 = .ok i ∧ Op.remove p ∉ b ∧ Op.clear ∉ b

/-- **C01.**  After any history, an instance that was registered under ID `i` and not removed or
cleared since has a nonzero ID, `jit_registry_id` reports it and `jit_registry_ptr` maps
it back to the instance. -/
theorem C01_live_id_resolves (ops : List Op) (hlen : ops.length < 2 ^ 32)
    (hleg : ∀ o ∈ ops, o.legal = true) (k : Key) (p i : Nat) (h : LiveSince ops k p i) :
    i ≠ 0 ∧ (({} : Registry).run ops).2.id p = .ok i ∧
      (({} : Registry).run ops).2.ptr k i = .ok p := by
  obtain ⟨s, hrun, hq⟩ := C01_C02_registry_refines_spec ops hlen hleg
  obtain ⟨a, b, rfl, hput, h1, h2⟩ := h
  obtain ⟨sa, hra, hsima⟩ := sim_run a sim_init (by simp [CLEARED]; simp at hlen; omega)
    (fun o ho => hleg o (by simp [ho]))
  have hp : p ≠ 0 := by simpa [Op.legal] using hleg (.put k p) (by simp)
  obtain ⟨sp, hstep, hsimp⟩ := sim_put hsima (by simp [CLEARED]; simp at hlen; omega) k p hp
  simp only [Registry.step] at hput
  rw [hput] at hstep
  have hst : sp.st p = .live k i ∧ i ≠ 0 := by
    cases hstep with
    | put_new _ _ _ _ hl => exact ⟨by simp, by have := hl.1; omega⟩
  obtain ⟨sb, hrb, hsimb⟩ := sim_run b hsimp (by simp [CLEARED]; simp at hlen; omega)
    (fun o ho => hleg o (by simp [ho]))
  have hfin := live_preserved hrb p k i h1 h2 hst.1
  have hqb := queries_of_sim hsimb
  have erun : (({} : Registry).run (a ++ Op.put k p :: b)).2 =
      ((((({} : Registry).run a).2).put k p).2.run b).2 := by
    rw [run_append]; rfl
  rw [erun]
  exact ⟨hst.2, hqb.id_live p k i hp hfin, hqb.ptr_live p k i hfin⟩

/-- **C01.**  No two live instances of a domain share an ID. -/
theorem C01_live_ids_distinct (ops : List Op) (hlen : ops.length < 2 ^ 32)
    (hleg : ∀ o ∈ ops, o.legal = true) (k : Key) (p q i : Nat)
    (hp : LiveSince ops k p i) (hq : LiveSince ops k q i) : p = q := by
  have h1 := (C01_live_id_resolves ops hlen hleg k p i hp).2.2
  have h2 := (C01_live_id_resolves ops hlen hleg k q i hq).2.2
  rw [h1] at h2
  injection h2

/-- **C01.**  Registering a registered pointer raises and changes nothing. -/
theorem C01_double_put_raises (r : Registry) (k : Key) (p : Nat) (h : r.rev p ≠ none) :
    r.put k p = (.raise, r) := by
  unfold Registry.put
  cases hr : r.rev p with
  | none => exact absurd hr h
  | some _ => rfl

/-- Non-vacuity: an instance that is live since its registration in a history that recycles. -/
example : LiveSince [.put ("v", "A") 10, .put ("v", "A") 11, .remove 10, .put ("v", "A") 12]
    ("v", "A") 12 1 := by
  refine ⟨[.put ("v", "A") 10, .put ("v", "A") 11, .remove 10], [], rfl, ?_, ?_, ?_⟩ <;> decide +kernel

/-- A concrete legal history with recycling, a second domain, a duplicate and a clear. -/
example :
    let ops : List Op := [.put ("v", "A") 10, .put ("v", "A") 11, .put ("v", "B") 12, .remove 10,
      .put ("v", "A") 13, .put ("v", "A") 13, .clear, .put ("v", "A") 14, .remove 11]
    (∀ o ∈ ops, o.legal = true) ∧
    (({} : Registry).run ops).1 = [.ok 1, .ok 2, .ok 1, .ok 0, .ok 1, .raise, .ok 0, .ok 1, .ok 0] := by
  decide +kernel

/-- **Finding (C01).**  `jitc_registry_shutdown` forgets the domains but not the reverse map:
removing an instance that outlives the shutdown indexes an empty vector (undefined behaviour),
and re-registering such a pointer is refused.  Hence the theorem above cannot be extended to
histories with `shutdown`. -/
theorem C01_shutdown_then_remove_is_ub :
    (({} : Registry).run [.put ("v", "A") 10, .shutdown, .remove 10]).1 = [.ok 1, .ok 0, .ub] ∧
    (({} : Registry).run [.put ("v", "A") 10, .shutdown, .put ("v", "A") 10]).1 =
      [.ok 1, .ok 0, .raise] := by
  decide +kernel

end Verif.Registry
