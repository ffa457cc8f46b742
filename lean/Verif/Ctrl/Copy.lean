import Verif.Ctrl.Model
import Mathlib.Tactic.Common
import Mathlib.Tactic.SplitIfs

/-
Symbolic loops: the end of the body of a loop in CUDA and Metal kernels, where the variables of the
loop are updated one after the other.
-/

namespace Verif.Ctrl

/-- The registers of a thread, the temporaries, and the marks that are used while the code is
generated. -/
structure Regs where
  reg : Nat → Nat
  tmp : Nat → Nat
  scratch : Nat → Nat

/-- Is there code for a loop variable with the given `inner_in` and `inner_out`?  `ri` are the
register numbers, 0 if a variable is not part of the kernel (cuda_eval.cpp:520, 534, 553;
metal_eval.cpp:830, 839, 849). -/
def moved (ri : Nat → Nat) (p : Nat × Nat) : Bool := p.1 != p.2 && ri p.1 != 0 && ri p.2 != 0

/-- cuda_eval.cpp:509-513; metal_eval.cpp:821-825. -/
def clearMarks (s : Regs) (p : Nat × Nat) : Regs := { s with scratch := set (set s.scratch p.2 0) p.1 0 }

/-- cuda_eval.cpp:516-524; metal_eval.cpp:827-834. -/
def markInputs (ri : Nat → Nat) (s : Regs) (p : Nat × Nat) : Regs :=
  if moved ri p then { s with scratch := set s.scratch p.1 1 } else s

/-- cuda_eval.cpp:530-548; metal_eval.cpp:836-844.  The temporary is named after the register. -/
def saveInputs (ri : Nat → Nat) (s : Regs) (p : Nat × Nat) : Regs :=
  if moved ri p ∧ s.scratch p.2 = 1 then { s with tmp := set s.tmp (ri p.2) (s.reg (ri p.2)), scratch := set s.scratch p.2 2 }
  else s

/-- cuda_eval.cpp:550-565; metal_eval.cpp:846-856. -/
def update (ri : Nat → Nat) (s : Regs) (p : Nat × Nat) : Regs :=
  if moved ri p then
    { s with reg := set s.reg (ri p.1) (if s.scratch p.2 = 2 then s.tmp (ri p.2) else s.reg (ri p.2)) }
  else s

/-- The end of the body of a loop: `jitc_cuda_render_loop_end()` (cuda_eval.cpp:504-575) and
`LoopEnd` in metal_eval.cpp:815-866.  `ps` are the pairs of `inner_in` and `inner_out`. -/
def loopEnd (ri : Nat → Nat) (ps : List (Nat × Nat)) (s : Regs) : Regs :=
  ps.foldl (update ri) (ps.foldl (saveInputs ri) (ps.foldl (markInputs ri) (ps.foldl clearMarks s)))

/-! ### The update is simultaneous -/

theorem clear_reg : ∀ (ps : List (Nat × Nat)) (s : Regs), (ps.foldl clearMarks s).reg = s.reg
  | [], s => rfl
  | p :: ps, s => by rw [List.foldl_cons, clear_reg ps]; rfl

theorem clear_scratch : ∀ (ps : List (Nat × Nat)) (s : Regs) (v : Nat),
    ((∃ p ∈ ps, v = p.2) ∨ s.scratch v = 0) → (ps.foldl clearMarks s).scratch v = 0
  | [], s, v, h => by simpa using h
  | p :: ps, s, v, h => by
    rw [List.foldl_cons]
    refine clear_scratch ps _ v ?_
    by_cases h1 : ∃ p ∈ ps, v = p.2
    · exact .inl h1
    · right
      simp only [clearMarks, set]
      rcases h with ⟨q, hq, hv⟩ | h
      · rcases List.mem_cons.1 hq with rfl | hq
        · simp [hv]
        · exact absurd ⟨q, hq, hv⟩ h1
      · simp [h]

theorem mark_reg (ri : Nat → Nat) : ∀ (ps : List (Nat × Nat)) (s : Regs), (ps.foldl (markInputs ri) s).reg = s.reg
  | [], s => rfl
  | p :: ps, s => by rw [List.foldl_cons, mark_reg ri ps]; unfold markInputs; split <;> rfl

theorem mark_scratch (ri : Nat → Nat) : ∀ (ps : List (Nat × Nat)) (s : Regs) (v : Nat),
    (ps.foldl (markInputs ri) s).scratch v = if ∃ p ∈ ps, moved ri p = true ∧ p.1 = v then 1 else s.scratch v
  | [], s, v => by simp
  | p :: ps, s, v => by
    rw [List.foldl_cons, mark_scratch ri ps]
    by_cases h1 : ∃ p ∈ ps, moved ri p = true ∧ p.1 = v
    · obtain ⟨q, hq, h⟩ := h1
      rw [if_pos ⟨q, hq, h⟩, if_pos ⟨q, by simp [hq], h⟩]
    · rw [if_neg h1]
      unfold markInputs
      by_cases hm : moved ri p = true
      · rw [if_pos hm]
        by_cases hv : p.1 = v
        · rw [if_pos ⟨p, by simp, hm, hv⟩]; simp [set, hv]
        · rw [if_neg]
          · simp [set, Ne.symm hv]
          · rintro ⟨q, hq, h, h'⟩
            rcases List.mem_cons.1 hq with rfl | hq
            exacts [hv h', h1 ⟨q, hq, h, h'⟩]
      · rw [if_neg hm, if_neg]
        rintro ⟨q, hq, h, h'⟩
        rcases List.mem_cons.1 hq with rfl | hq
        exacts [hm h, h1 ⟨q, hq, h, h'⟩]

theorem save_reg (ri : Nat → Nat) : ∀ (ps : List (Nat × Nat)) (s : Regs), (ps.foldl (saveInputs ri) s).reg = s.reg
  | [], s => rfl
  | p :: ps, s => by rw [List.foldl_cons, save_reg ri ps]; unfold saveInputs; split <;> rfl

/-- A saved variable has its value in the temporary. -/
theorem save_tmp (ri : Nat → Nat) (v : Nat) : ∀ (ps : List (Nat × Nat)) (s : Regs),
    (s.scratch v = 2 → s.tmp (ri v) = s.reg (ri v)) →
    (ps.foldl (saveInputs ri) s).scratch v = 2 → (ps.foldl (saveInputs ri) s).tmp (ri v) = s.reg (ri v)
  | [], s, h, hv => h hv
  | p :: ps, s, h, hv => by
    rw [List.foldl_cons] at hv ⊢
    have hr : (saveInputs ri s p).reg = s.reg := by unfold saveInputs; split <;> rfl
    rw [← hr]
    refine save_tmp ri v ps _ (fun hw => ?_) hv
    rw [hr]
    revert hw
    unfold saveInputs
    split
    · intro hw
      simp only [set] at hw ⊢
      split_ifs with h1
      · rw [h1]
      · refine h ?_
        rwa [if_neg] at hw
        rintro rfl; exact h1 rfl
    · exact h

/-- A variable that is read and overwritten is saved. -/
theorem save_scratch (ri : Nat → Nat) : ∀ (ps : List (Nat × Nat)) (s : Regs) (v : Nat),
    (∃ p ∈ ps, moved ri p = true ∧ p.2 = v) → s.scratch v ≠ 0 → (s.scratch v = 1 ∨ s.scratch v = 2) →
    (ps.foldl (saveInputs ri) s).scratch v = 2
  | [], s, v, h, _, _ => by simp at h
  | p :: ps, s, v, h, h0, h1 => by
    rw [List.foldl_cons]
    have keep : ∀ (ps : List (Nat × Nat)) (s : Regs), s.scratch v = 2 → (ps.foldl (saveInputs ri) s).scratch v = 2 := by
      intro ps
      induction ps with
      | nil => intro s h; exact h
      | cons q ps ih =>
        intro s h
        rw [List.foldl_cons]
        refine ih _ ?_
        unfold saveInputs
        split
        · simp only [set]; split_ifs <;> simp [h]
        · exact h
    rcases h1 with h1 | h1
    · by_cases hp : moved ri p = true ∧ p.2 = v
      · refine keep ps _ ?_
        unfold saveInputs
        rw [if_pos ⟨hp.1, by rw [hp.2]; exact h1⟩]
        simp [set, hp.2]
      · have hs : (saveInputs ri s p).scratch v = 1 := by
          unfold saveInputs
          split
          · next hc =>
            have : v ≠ p.2 := fun h => hp ⟨hc.1, h.symm⟩
            simp [set, this, h1]
          · exact h1
        refine save_scratch ri ps _ v ?_ (by omega) (.inl hs)
        obtain ⟨q, hq, h⟩ := h
        rcases List.mem_cons.1 hq with rfl | hq
        · exact absurd h hp
        · exact ⟨q, hq, h⟩
    · refine keep ps _ ?_
      unfold saveInputs
      split
      · simp only [set]; split_ifs <;> simp [h1]
      · exact h1

theorem save_other (ri : Nat → Nat) (v : Nat) : ∀ (ps : List (Nat × Nat)) (s : Regs), s.scratch v = 0 →
    (ps.foldl (saveInputs ri) s).scratch v = 0
  | [], s, h => h
  | p :: ps, s, h => by
    rw [List.foldl_cons]
    refine save_other ri v ps _ ?_
    unfold saveInputs
    split
    · next hc =>
      have : v ≠ p.2 := by rintro rfl; omega
      simp [set, this, h]
    · exact h

theorem update_marks (ri : Nat → Nat) (s : Regs) (p : Nat × Nat) :
    (update ri s p).tmp = s.tmp ∧ (update ri s p).scratch = s.scratch := by
  unfold update; split <;> exact ⟨rfl, rfl⟩

/-- The values of the registers after the updates, if those that are read are either saved or not
written. -/
theorem update_reg (ri : Nat → Nat) (r0 : Nat → Nat) : ∀ (ps : List (Nat × Nat)) (s : Regs),
    ((ps.filter (moved ri)).map (fun p => ri p.1)).Nodup →
    (∀ p ∈ ps, moved ri p = true → if s.scratch p.2 = 2 then s.tmp (ri p.2) = r0 (ri p.2) else
      s.reg (ri p.2) = r0 (ri p.2) ∧ ∀ q ∈ ps, moved ri q = true → ri q.1 ≠ ri p.2) →
    (∀ p ∈ ps, moved ri p = true → (ps.foldl (update ri) s).reg (ri p.1) = r0 (ri p.2)) ∧
    ∀ j, (∀ p ∈ ps, moved ri p = true → ri p.1 ≠ j) → (ps.foldl (update ri) s).reg j = s.reg j
  | [], s, _, _ => ⟨by simp, fun _ _ => rfl⟩
  | p :: ps, s, hn, h => by
    rw [List.foldl_cons]
    obtain ⟨mt, ms⟩ := update_marks ri s p
    have hn' : ((ps.filter (moved ri)).map (fun p => ri p.1)).Nodup := by
      by_cases hm : moved ri p = true
      · rw [List.filter_cons_of_pos hm, List.map_cons, List.nodup_cons] at hn; exact hn.2
      · rwa [List.filter_cons_of_neg hm] at hn
    have hreg : ∀ j, (moved ri p = true → ri p.1 ≠ j) → (update ri s p).reg j = s.reg j := by
      intro j hj
      unfold update
      split
      · next hm => simp [set, Ne.symm (hj hm)]
      · rfl
    obtain ⟨i1, i2⟩ := update_reg ri r0 ps (update ri s p) hn' (fun q hq hm => by
      have := h q (by simp [hq]) hm
      rw [ms, mt]
      split_ifs with hs
      · rwa [if_pos hs] at this
      · rw [if_neg hs] at this
        exact ⟨by rw [hreg _ fun hm => this.2 p (by simp) hm]; exact this.1, fun q' hq' => this.2 q' (by simp [hq'])⟩)
    refine ⟨fun q hq hm => ?_, fun j hj => ?_⟩
    · rcases List.mem_cons.1 hq with rfl | hq
      · rw [i2 _ fun q' hq' hm' he => ?_]
        · unfold update
          rw [if_pos hm]
          have := h q (by simp) hm
          simp only [set, if_true]
          split_ifs with hs
          · rwa [if_pos hs] at this
          · rw [if_neg hs] at this; exact this.1
        · rw [List.filter_cons_of_pos hm, List.map_cons, List.nodup_cons] at hn
          exact hn.1 (List.mem_map.2 ⟨q', List.mem_filter.2 ⟨hq', hm'⟩, he⟩)
      · exact i1 q hq hm
    · rw [i2 j fun q hq => hj q (by simp [hq])]
      exact hreg j (hj p (by simp))

/-- The updates of the loop variables are simultaneous: each gets the value that the register of its
new value had before. -/
theorem loopEnd_simultaneous (ri : Nat → Nat) (ps : List (Nat × Nat)) (s : Regs)
    (hn : ((ps.filter (moved ri)).map (fun p => ri p.1)).Nodup)
    (hr : ∀ p ∈ ps, ∀ q ∈ ps, moved ri p = true → moved ri q = true → ri p.2 = ri q.1 → p.2 = q.1) :
    (∀ p ∈ ps, moved ri p = true → (loopEnd ri ps s).reg (ri p.1) = s.reg (ri p.2)) ∧
    ∀ j, (∀ p ∈ ps, moved ri p = true → ri p.1 ≠ j) → (loopEnd ri ps s).reg j = s.reg j := by
  have hc := clear_reg ps s
  have hm1 := mark_reg ri ps (ps.foldl clearMarks s)
  have hs1 := save_reg ri ps (ps.foldl (markInputs ri) (ps.foldl clearMarks s))
  -- the marks of the variables that are read
  have hmark : ∀ p ∈ ps, (ps.foldl (markInputs ri) (ps.foldl clearMarks s)).scratch p.2 =
      if ∃ q ∈ ps, moved ri q = true ∧ q.1 = p.2 then 1 else 0 := fun p hp => by
    rw [mark_scratch, clear_scratch ps s p.2 (.inl ⟨p, hp, rfl⟩)]
  have key := update_reg ri s.reg ps
    (ps.foldl (saveInputs ri) (ps.foldl (markInputs ri) (ps.foldl clearMarks s))) hn ?_
  · unfold loopEnd
    rw [hs1, hm1, hc] at key
    exact key
  · intro p hp hm
    by_cases hin : ∃ q ∈ ps, moved ri q = true ∧ q.1 = p.2
    · have h1 := hmark p hp
      rw [if_pos hin] at h1
      have h2 := save_scratch ri ps _ p.2 ⟨p, hp, hm, rfl⟩ (by rw [h1]; decide) (.inl h1)
      rw [if_pos h2]
      have h3 := save_tmp ri p.2 ps _ (fun h => by rw [h1] at h; cases h) h2
      rw [h3, hm1, hc]
    · have h1 := hmark p hp
      rw [if_neg hin] at h1
      have h2 := save_other ri p.2 ps _ h1
      rw [if_neg (by rw [h2]; decide), hs1, hm1, hc]
      exact ⟨rfl, fun q hq hmq he => hin ⟨q, hq, hmq, (hr p hp q hq hm hmq he.symm).symm⟩⟩

end Verif.Ctrl
