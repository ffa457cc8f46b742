import Verif.Call.UploadProps

namespace Verif.Call

open Verif.Par
open Verif.Llvm.Mem (Byte Entry)

/-! ### Example, and a call that is assembled twice -/

/-- Calls 0 and 1, getter 0.  Instances 1 and 3 of call 0, instances 1, 2 and 3 of call 1 -/
def demoEnv : Env where
  p := params .llvm 8 false
  vars := fun r => if r = 5 then none else if r = 3 then some ⟨true, 8, 0xabcdef, 0⟩ else
    if r = 1 ∨ r = 4 ∨ r = 6 then some ⟨false, 4, 0, 100 * r⟩ else if r = 2 then some ⟨false, 1, 0, 20⟩ else none
  calls := fun id => if id = 0 then ⟨[1, 3], [[⟨1, 1⟩, ⟨2, 3⟩, ⟨3, 0⟩], [⟨4, 1⟩, ⟨5, 6⟩]], fun _ => ⟨0, 0, 0⟩, [1, 2]⟩
    else ⟨[3, 2, 1], [[], [⟨6, 1⟩], []], fun _ => ⟨0, 0, 0⟩, [3, 4, 3]⟩
  getters := fun _ => ⟨4, [some (.lit 77), none, some (.mem 900)]⟩

def demoEvs : List Ev := [.start 0, .getter 0, .start 1, .finish 1, .finish 0]

theorem demoEnv_ok : EnvOk demoEnv := by
  refine ⟨fun id => ?_, fun id => ?_, fun id => ?_, fun id => ?_, fun id => Or.inr (Or.inr (Or.inl rfl))⟩ <;> (unfold demoEnv; dsimp only; split)
  · exact ⟨rfl, rfl⟩
  · exact ⟨rfl, rfl⟩
  · decide
  · decide
  · decide
  · decide
  · simp only [List.mem_cons, List.not_mem_nil, or_false, forall_eq_or_imp, forall_eq]
    refine ⟨⟨⟨by decide, fun v hv => ?_⟩, ⟨by decide, fun v hv => ?_⟩, ⟨by decide, fun v hv => ?_⟩⟩, ⟨by decide, fun v hv => ?_⟩, ⟨by decide, fun v hv => ?_⟩⟩ <;>
      cases hv <;> rfl
  · simp only [List.mem_cons, List.not_mem_nil, or_false, forall_eq_or_imp, forall_eq]
    refine ⟨fun _ h => h.elim, ⟨by decide, fun v hv => ?_⟩, fun _ h => h.elim⟩
    cases hv; rfl

theorem demoEvs_ordered : Ordered demoEvs := by
  intro pre id post h
  unfold demoEvs at h
  rcases pre with _ | ⟨a, _ | ⟨b, _ | ⟨c, _ | ⟨d, _ | ⟨x, pre⟩⟩⟩⟩⟩ <;> simp at h <;> simp [← h.1, ← h.2.1, ← h.2.2.1] <;> simp [*]

theorem demo_source : NoSource demoEnv 10000 (10000 + 256) := by
  refine ⟨fun r v hv hp => ?_, fun id d hd => ?_⟩
  · unfold demoEnv at hv
    simp only at hv
    split_ifs at hv with h1 h2 h3 h4 <;> cases hv <;> simp at hp ⊢
    · rcases h3 with rfl | rfl | rfl <;> simp
  · unfold demoEnv at hd ⊢
    simp at hd
    subst hd
    exact Or.inl (by simp)

/-- The hypotheses can be met.  Code of call 0 uses the table at byte 0, that of call 1 the one at byte 48 -/
example (m : Nat → Byte) : ∃ m', Ends [upload 8 16384 demoEnv 64 (runBuf demoEnv demoEvs) 10000] m m' ∧
    readLE m' (10000 + 0 + 8 * 0) 8 = 0 ∧ readLE m' (10000 + 0 + 8 * 3) 8 % 2 ^ 32 = 2 ∧ readLE m' (10000 + 48 + 8 * 2) 8 % 2 ^ 32 = 4 ∧
    readLE m' (10000 + 32 + (0 + 1) * 4) 4 = 77 := by
  have ht : total 64 (runBuf demoEnv demoEvs) = 256 := by decide +kernel
  obtain ⟨⟨m', hm'⟩, h⟩ := C35_upload_partial 8 16384 (by omega) demoEnv demoEnv_ok (by decide) 64 (by omega) (by decide) demoEvs (by decide) (by decide)
    (by decide) demoEvs_ordered (by rw [ht]; omega) (by decide +kernel) 10000 (by rw [ht]; exact demo_source) m
  obtain ⟨_, h1, h2⟩ := h m' hm'
  have hcode : (runBuf demoEnv demoEvs).code = [.getter 0 32, .call 1 48, .call 0 0] := by rfl
  rw [hcode] at h1 h2
  obtain ⟨_, _, _, z, _, _, _, a, _⟩ := h1 0 0 (by simp)
  obtain ⟨_, _, _, _, _, _, _, b, _⟩ := h1 1 48 (by simp)
  obtain ⟨_, _, _, g⟩ := h2 0 32 (by simp)
  exact ⟨m', hm', z 0 (by decide) (by decide), (a 1 3 2 _ rfl rfl rfl).1, (b 1 2 4 _ rfl rfl rfl).1, g 0 _ rfl⟩

/-- **C35 (negation).**  Nothing prevents a call from being assembled twice in a kernel, for example if it has
size 1, has not been evaluated, and its results are used by two callables of another call.  The second
assembly overwrites `offset_base`; then no entry of the upload is written to the table used by the code that
was emitted first (bytes 0 to 31).  The same is true of getters. -/
theorem C35_twice :
    ((runBuf demoEnv [.start 1, .finish 1, .start 1, .finish 1]).code = [.call 1 0, .call 1 32] ∧
      ∀ x ∈ uploadEntries demoEnv 64 (runBuf demoEnv [.start 1, .finish 1, .start 1, .finish 1]), 32 ≤ x.offset) ∧
    ((runBuf demoEnv [.getter 0, .getter 0]).code = [.getter 0 0, .getter 0 16] ∧
      ∀ x ∈ uploadEntries demoEnv 64 (runBuf demoEnv [.getter 0, .getter 0]), 16 ≤ x.offset) := by
  refine ⟨⟨rfl, ?_⟩, rfl, ?_⟩
  · decide +kernel
  · decide +kernel

end Verif.Call
