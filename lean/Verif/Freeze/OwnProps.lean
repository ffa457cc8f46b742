import Verif.Freeze.OwnRec
import Verif.Freeze.Frame
import Verif.Freeze.Wrong

/-!
# C64: ownership of memory

A replay neither leaks memory, nor releases memory that belongs to others, nor returns two
arrays that own the same memory.
-/

namespace Verif.Freeze

/-- The memory that a new array of a replay owns. -/
def OutVar.block : OutVar → Option Nat
  | .same _ => none
  | .new _ a _ => some a

/-! ## Lemmas -/

theorem start_well {addr : Nat → Nat} {ins : List Arr} {ext : List Nat}
    (hn : (ins.map fun i => addr i.arr).Nodup) :
    WellRec addr ins.length (ins.map (·.arr)) (ins.map (·.arr) ++ ext) (recordStart addr ins) := by
  obtain ⟨h1, h2, h3, h4, h5, h6⟩ := start_spec hn
  have hpos : ∀ (p : Nat) (l : List Nat), p ∈ l → pos p l < l.length ∧ l[pos p l]? = some p := by
    intro p l hp
    exact ⟨pos_lt hp, pos_get hp⟩
  constructor
  · intro p s hp
    rw [h5] at hp
    split_ifs at hp with hm
    · rw [h1]
      have := (hpos _ _ hm).1
      rw [List.length_map] at this
      cases hp
      exact this
  · intro p q s hp hq
    rw [h5] at hp hq
    split_ifs at hp with hm
    split_ifs at hq with hm'
    have e1 := (hpos _ _ hm).2
    have e2 := (hpos _ _ hm').2
    rw [Option.some.inj hp] at e1
    rw [Option.some.inj hq, e1] at e2
    exact Option.some.inj e2
  · intro p s hp _
    rw [h5] at hp
    split_ifs at hp with hm
    obtain ⟨i, hi, rfl⟩ := List.mem_map.1 hm
    have : i.arr ∈ ins.map (·.arr) := List.mem_map_of_mem hi
    exact ⟨i.arr, List.mem_append.2 (Or.inl this), this, rfl⟩
  · intro s hs
    rw [h1] at hs
    rw [h6 s ins[s] (List.getElem?_eq_getElem hs)]
    simp [hs]
  · intro s hs
    rw [h6 s ins[s] (List.getElem?_eq_getElem hs)]
  · exact Nat.le_of_eq h1.symm
  · exact h2
  · intro op hop
    rw [h4] at hop
    cases hop

theorem freeTemps_spec (rc : Recording) (ss : List Nat) (st : RState) (a : Nat) :
    (freeTemps rc ss st).heap a =
      if ∃ s ∈ ss, ((rc.var s).init = false ∧
          (rc.outputs.any fun a => decide (a.slot = s)) = false) ∧ (st.slot s).data = some a
      then none else st.heap a := by
  induction ss generalizing st with
  | nil => simp [freeTemps]
  | cons s ss ih =>
    unfold freeTemps
    rw [ih]
    by_cases hc : (rc.var s).init = false ∧
        (rc.outputs.any fun a => decide (a.slot = s)) = false
    · rw [if_pos hc]
      cases hd : (st.slot s).data with
      | none =>
        simp only
        congr 1
        apply propext
        constructor
        · rintro ⟨t, h1, h2⟩
          exact ⟨t, List.mem_cons_of_mem _ h1, h2⟩
        · rintro ⟨t, h1, h2, h3⟩
          rcases List.mem_cons.1 h1 with rfl | h1
          · rw [hd] at h3
            cases h3
          · exact ⟨t, h1, h2, h3⟩
      | some b =>
        simp only
        by_cases hb : a = b
        · subst hb
          rw [if_pos (⟨s, List.mem_cons_self .., hc, hd⟩ : ∃ t ∈ s :: ss, _)]
          simp [RState.setSlot, mfree]
        · simp only [RState.setSlot, mfree, hb, if_false]
          congr 1
          apply propext
          constructor
          · rintro ⟨t, h1, h2, h3⟩
            refine ⟨t, List.mem_cons_of_mem _ h1, h2, ?_⟩
            by_cases hts : t = s
            · rw [if_pos hts] at h3
              cases h3
            · rwa [if_neg hts] at h3
          · rintro ⟨t, h1, h2, h3⟩
            have hts : t ≠ s := by
              rintro rfl
              rw [hd] at h3
              exact hb (Option.some.inj h3).symm
            rcases List.mem_cons.1 h1 with h1 | h1
            · exact absurd h1 hts
            · exact ⟨t, h1, h2, by rw [if_neg hts]; exact h3⟩
    · rw [if_neg hc]
      congr 1
      apply propext
      constructor
      · rintro ⟨t, h1, h2⟩
        exact ⟨t, List.mem_cons_of_mem _ h1, h2⟩
      · rintro ⟨t, h1, h2, h3⟩
        rcases List.mem_cons.1 h1 with rfl | h1
        · exact absurd h2 hc
        · exact ⟨t, h1, h2, h3⟩

/-- The blocks of the new outputs. -/
theorem makeOutputs_blocks {rc : Recording} {st : RState} {as : List Access} {os : List OutVar}
    (h : makeOutputs rc st as = .ok os) :
    os.filterMap OutVar.block =
      (as.filter fun a => !(rc.var a.slot).init).filterMap fun a => (st.slot a.slot).data := by
  induction as generalizing os with
  | nil =>
    cases h
    rfl
  | cons a as ih =>
    unfold makeOutputs at h
    cases hi : (rc.var a.slot).init with
    | true =>
      simp only [hi, if_true] at h
      obtain ⟨os1, h1, h⟩ := bind_ok h
      cases h
      rw [List.filterMap_cons_none rfl, ih h1]
      simp [hi]
    | false =>
      simp only [hi, Bool.false_eq_true, if_false] at h
      cases hd : (st.slot a.slot).data with
      | none =>
        rw [hd] at h
        cases h
      | some p =>
        rw [hd] at h
        obtain ⟨size, _, h⟩ := orRaise_ok h
        obtain ⟨os1, h1, h⟩ := bind_ok h
        cases h
        simp [OutVar.block, hi, hd, ih h1]

theorem nodup_filterMap {α β : Type} {f : α → Option β} {l : List α} (hl : l.Nodup)
    (hf : ∀ x ∈ l, ∀ y ∈ l, ∀ b, f x = some b → f y = some b → x = y) : (l.filterMap f).Nodup := by
  induction l with
  | nil => exact List.nodup_nil
  | cons x l ih =>
    rw [List.nodup_cons] at hl
    have h1 := ih hl.2 fun y hy z hz =>
      hf y (List.mem_cons_of_mem _ hy) z (List.mem_cons_of_mem _ hz)
    cases hx : f x with
    | none => rwa [List.filterMap_cons_none hx]
    | some b =>
      rw [List.filterMap_cons_some hx, List.nodup_cons]
      refine ⟨fun hm => ?_, h1⟩
      obtain ⟨y, hy, hyb⟩ := List.mem_filterMap.1 hm
      have := hf x (List.mem_cons_self ..) y (List.mem_cons_of_mem _ hy) b hx hyb
      exact hl.1 (this ▸ hy)

/-! ## The theorem -/

/-- **C64.** A function is recorded that does not overwrite its arguments and returns different
arrays, and is then replayed (with any kernels and any arguments).  After the replay,
the allocated blocks of memory are those that were allocated before, and the blocks of the new arrays
that it returns.  These blocks were not allocated before, and no two of the new arrays have the
same block.

Partial: functions that return an array twice (`C64_duplicate_counterexample`), that
overwrite arguments (`C64_overwritten_counterexample`), and replays that raise exceptions
(`C64_raise_counterexample`). -/
theorem C64_ownership_partial {sem : Sem} {addr : Nat → Nat} {ext : List Nat} {ins : List Arr}
    {tr : List Cmd} {outs : List Arr} {rc : Recording} {vs : List InVar}
    {heap : Nat → Option (List (Cell Nat))} {next : Nat} {os : List OutVar} {st : RState}
    (hp : Placed addr (ins.map (·.arr) ++ ext) tr) (hins : (ins.map (·.arr)).Nodup)
    (hro : ∀ c ∈ tr, ∀ x ∈ c.outs, x ∉ ins.map (·.arr))
    (houts : (outs.map fun o => addr o.arr).Nodup)
    (hrec : record addr ext ins tr outs = some rc)
    (hvs : vs.length = ins.length) (hlive : ∀ v ∈ vs, (heap v.data).isSome)
    (hnext : ∀ a, next ≤ a → heap a = none)
    (hrep : replay sem rc vs heap next = .ok (os, st)) :
    (∀ a, (st.heap a).isSome ↔ (heap a).isSome ∨ a ∈ os.filterMap OutVar.block) ∧
    (∀ a ∈ os.filterMap OutVar.block, heap a = none) ∧
    (os.filterMap OutVar.block).Nodup := by
  have hapart : Apart addr (ins.map (·.arr)) := by
    have : Apart addr (ins.map (·.arr) ++ ext) := by
      cases tr with
      | nil => exact hp
      | cons c cs =>
        exact fun x hx y hy => hp.1 x (List.mem_append.2 (Or.inr hx)) y
          (List.mem_append.2 (Or.inr hy))
    exact fun x hx y hy => this x (List.mem_append.2 (Or.inl hx)) y (List.mem_append.2 (Or.inl hy))
  have hn : (ins.map fun i => addr i.arr).Nodup := by
    have : (ins.map fun i => addr i.arr) = (ins.map (·.arr)).map addr := by
      rw [List.map_map]
      rfl
    rw [this]
    exact hins.map_on fun x hx y hy => hapart x hx y hy
  obtain ⟨live', hw⟩ := (start_well (ext := ext) hn).all hp hro
  unfold record recordStop at hrec
  generalize hr : recordAll addr (ins.map (·.arr) ++ ext) (recordStart addr ins) tr = r at hrec hw
  split_ifs at hrec
  cases hrec
  unfold replay at hrep
  simp only at hrep
  obtain ⟨st1, h1, hrep⟩ := bind_ok hrep
  obtain ⟨os1, h2, hrep⟩ := bind_ok hrep
  cases hrep
  have hslot : ∀ t, initSlots r.inputs vs (fun _ => {}) t =
      match vs[t]? with | some v => initSlot v | none => {} := by
    intro t
    rw [hw.inputs, List.range_eq_range', ← hvs, initSlots_spec]
    simp only [Nat.zero_le, if_true, Nat.sub_zero]
    cases vs[t]? <;> rfl
  have hdata : ∀ t a, (initSlots r.inputs vs (fun _ => {}) t).data = some a →
      t < ins.length ∧ (heap a).isSome := by
    intro t a ha
    rw [hslot] at ha
    cases hv : vs[t]? with
    | none =>
      rw [hv] at ha
      cases ha
    | some v =>
      rw [hv] at ha
      simp only [initSlot, Option.some.injEq] at ha
      subst ha
      refine ⟨?_, hlive v (List.mem_of_getElem? hv)⟩
      rw [← hvs]
      exact (List.getElem?_eq_some_iff.1 hv).1
  have h0 : Owned ins.length r.n (fun s => (initSlots r.inputs vs (fun _ => {}) s).data) heap next
      { slot := initSlots r.inputs vs fun _ => {}, heap := heap, next := next } := by
    refine ⟨Nat.le_refl _, hnext, fun s a ha => (hdata s a ha).2, ?_, ?_, fun _ _ => rfl,
      fun _ _ => rfl, ?_⟩
    · intro s t a hs ha
      have := (hdata s a ha).1
      omega
    · intro a ha hx
      have hx : (heap a).isSome := hx
      rw [hnext a ha] at hx
      cases hx
    · intro s a hs ha
      have := (hdata s a ha).1
      omega
  have ho := ops_owned h0 r.ops hw.ops h1
  have hb := makeOutputs_blocks h2
  have hout : ∀ a ∈ outs.filterMap (fun o => addFunctionOutput r (addr o.arr) o.vt),
      (r.var a.slot).init = false → ins.length ≤ a.slot ∧ a.slot < r.n := by
    intro a ha hi
    obtain ⟨o, _, hoa⟩ := List.mem_filterMap.1 ha
    unfold addFunctionOutput getVariable at hoa
    obtain ⟨s, hs, rfl⟩ := Option.map_eq_some_iff.1 hoa
    have hlt := hw.lt _ _ hs
    have := hw.init s hlt
    simp only at hi
    rw [hi] at this
    have := of_decide_eq_false this.symm
    exact ⟨Nat.not_lt.1 this, hlt⟩
  have hmem : ∀ a, a ∈ os.filterMap OutVar.block ↔
      ∃ b ∈ outs.filterMap (fun o => addFunctionOutput r (addr o.arr) o.vt),
        (r.var b.slot).init = false ∧ (st1.slot b.slot).data = some a := by
    intro a
    rw [hb, List.mem_filterMap]
    constructor
    · rintro ⟨b, hb1, hb2⟩
      obtain ⟨hb1, hb3⟩ := List.mem_filter.1 hb1
      exact ⟨b, hb1, by simpa using hb3, hb2⟩
    · rintro ⟨b, hb1, hb2, hb3⟩
      exact ⟨b, List.mem_filter.2 ⟨hb1, by simpa using hb2⟩, hb3⟩
  refine ⟨?_, ?_, ?_⟩
  · intro a
    rw [freeTemps_spec]
    simp only [List.mem_range]
    by_cases hlt : a < next
    · have hnone : ¬ ∃ s, s < r.n ∧ ((r.var s).init = false ∧
          ((outs.filterMap fun o => addFunctionOutput r (addr o.arr) o.vt).any
            fun a => decide (a.slot = s)) = false) ∧ (st1.slot s).data = some a := by
        rintro ⟨s, h1, h2, h3⟩
        have := hw.init s h1
        rw [h2.1] at this
        have := of_decide_eq_false this.symm
        have := ho.newer s a (Nat.not_lt.1 this) h3
        omega
      rw [if_neg hnone, ho.old a hlt, hmem]
      constructor
      · exact Or.inl
      · rintro (h | ⟨b, hb1, hb2, hb3⟩)
        · exact h
        · have := ho.newer _ a (hout b hb1 hb2).1 hb3
          omega
    · have hle := Nat.not_lt.1 hlt
      rw [hnext a hle, hmem]
      simp only [Option.isSome_none, Bool.false_eq_true, false_or]
      constructor
      · intro h
        by_cases hc : ∃ s, s < r.n ∧ ((r.var s).init = false ∧
            ((outs.filterMap fun o => addFunctionOutput r (addr o.arr) o.vt).any
              fun a => decide (a.slot = s)) = false) ∧ (st1.slot s).data = some a
        · rw [if_pos hc] at h
          cases h
        rw [if_neg hc] at h
        obtain ⟨s, hs1, hs2, hs3⟩ := ho.cover a hle h
        have hi : (r.var s).init = false := by
          rw [hw.init s hs2]
          exact decide_eq_false (Nat.not_lt.2 hs1)
        cases hany : (outs.filterMap fun o => addFunctionOutput r (addr o.arr) o.vt).any
            fun a => decide (a.slot = s) with
        | false => exact absurd ⟨s, hs2, ⟨hi, hany⟩, hs3⟩ hc
        | true =>
          obtain ⟨b, hb1, hb2⟩ := List.any_eq_true.1 hany
          have hb2 : b.slot = s := of_decide_eq_true hb2
          subst hb2
          exact ⟨b, hb1, hi, hs3⟩
      · rintro ⟨b, hb1, hb2, hb3⟩
        have hc : ¬ ∃ s, s < r.n ∧ ((r.var s).init = false ∧
            ((outs.filterMap fun o => addFunctionOutput r (addr o.arr) o.vt).any
              fun a => decide (a.slot = s)) = false) ∧ (st1.slot s).data = some a := by
          rintro ⟨s, h1, h2, h3⟩
          have := ho.inj b.slot s a (hout b hb1 hb2).1 hb3 h3
          subst this
          rw [List.any_eq_false] at h2
          exact h2.2 b hb1 (by simp)
        rw [if_neg hc]
        exact ho.live _ a hb3
  · intro a ha
    obtain ⟨b, hb1, hb2, hb3⟩ := (hmem a).1 ha
    exact hnext a (ho.newer _ a (hout b hb1 hb2).1 hb3)
  · rw [hb]
    have hsn : ((outs.filterMap fun o => addFunctionOutput r (addr o.arr) o.vt).map
        (·.slot)).Nodup := by
      have e : (outs.filterMap fun o => addFunctionOutput r (addr o.arr) o.vt).map (·.slot) =
          (outs.map fun o => addr o.arr).filterMap r.map := by
        rw [List.map_filterMap, List.filterMap_map]
        congr 1
        funext o
        unfold addFunctionOutput getVariable
        cases hm : r.map (addr o.arr) <;> simp [hm]
      rw [e]
      exact nodup_filterMap houts fun x _ y _ s hx hy => hw.inj x y s hx hy
    have e2 : ((outs.filterMap fun o => addFunctionOutput r (addr o.arr) o.vt).filter
        fun a => !(r.var a.slot).init).filterMap (fun a => (st1.slot a.slot).data) =
        (((outs.filterMap fun o => addFunctionOutput r (addr o.arr) o.vt).filter
        fun a => !(r.var a.slot).init).map (·.slot)).filterMap fun s => (st1.slot s).data := by
      rw [List.filterMap_map]
      rfl
    rw [e2]
    refine nodup_filterMap ((List.filter_sublist.map _).nodup hsn) ?_
    intro x hx y _ a hxa hya
    obtain ⟨b, hb1, rfl⟩ := List.mem_map.1 hx
    obtain ⟨hb1, hb2⟩ := List.mem_filter.1 hb1
    exact ho.inj b.slot y a (hout b hb1 (by simpa using hb2)).1 hxa hya

/-- **C64, other memory.** Let `O` be a set of blocks that contains those of the arguments, those that
pointers within `O` lead to, and the unused ones.  The replay of any recording does not
release or change blocks outside of `O`. -/
theorem C64_reachable {sem : Sem} {rc : Recording} {vs : List InVar}
    {heap : Nat → Option (List (Cell Nat))} {next : Nat} {os : List OutVar} {st : RState}
    (O : Nat → Prop) (hin : ∀ v ∈ vs, O v.data) (hnew : ∀ a, next ≤ a → O a)
    (hcl : ∀ a cs t k, O a → heap a = some cs → Cell.ref t k ∈ cs → O t)
    (hrep : replay sem rc vs heap next = .ok (os, st)) :
    ∀ a, ¬ O a → st.heap a = heap a := by
  have hslots : ∀ (ss : List Nat) (vs : List InVar) (f : Nat → Slot), (∀ v ∈ vs, O v.data) →
      (∀ s a, (f s).data = some a → O a) → ∀ s a, (initSlots ss vs f s).data = some a → O a := by
    intro ss
    induction ss with
    | nil =>
      intro vs f _ hf
      unfold initSlots
      exact hf
    | cons t ss ih =>
      intro vs f hv hf
      cases vs with
      | nil =>
        unfold initSlots
        exact hf
      | cons v vs =>
        unfold initSlots
        refine ih vs _ (fun w hw => hv w (List.mem_cons_of_mem _ hw)) ?_
        intro s a ha
        split_ifs at ha
        · simp only [initSlot, Option.some.injEq] at ha
          exact ha ▸ hv v (List.mem_cons_self ..)
        · exact hf s a ha
  have h0 : Confined O heap
      { slot := initSlots rc.inputs vs fun _ => {}, heap := heap, next := next } :=
    ⟨hslots rc.inputs vs _ hin (fun s a ha => (nomatch ha)),
      fun a cs ha hc t k hm => hcl a cs t k ha hc hm, fun _ _ => rfl, hnew⟩
  unfold replay at hrep
  obtain ⟨st1, h1, hrep⟩ := bind_ok hrep
  obtain ⟨os1, h2, hrep⟩ := bind_ok hrep
  cases hrep
  exact ((ops_confined h0 rc.ops h1).temps rc _).rest

/-- In particular, if the arguments contain no pointers, then all other arrays keep their
contents. -/
theorem C64_other_arrays {sem : Sem} {rc : Recording} {vs : List InVar}
    {heap : Nat → Option (List (Cell Nat))} {next : Nat} {os : List OutVar} {st : RState}
    (hnext : ∀ a, next ≤ a → heap a = none)
    (hnp : ∀ v ∈ vs, ∀ cs t k, heap v.data = some cs → Cell.ref t k ∉ cs)
    (hrep : replay sem rc vs heap next = .ok (os, st)) {a : Nat} (ha : (heap a).isSome)
    (hne : ∀ v ∈ vs, v.data ≠ a) : st.heap a = heap a := by
  refine C64_reachable (fun a => next ≤ a ∨ ∃ v ∈ vs, v.data = a)
    (fun v hv => Or.inr ⟨v, hv, rfl⟩) (fun a ha => Or.inl ha) ?_ hrep a ?_
  · rintro b cs t k (hb | ⟨v, hv, rfl⟩) hc hm
    · rw [hnext b hb] at hc
      cases hc
    · exact absurd hm (hnp v hv cs t k hc)
  · rintro (hb | ⟨v, hv, e⟩)
    · rw [hnext a hb] at ha
      cases ha
    · exact hne v hv e

/-! ## A concrete case

The function of C62, recorded with 2 elements and replayed with 4: its temporary arrays are released,
the two blocks of its results remain. -/

/-- The allocated blocks below 90 after a replay, and those that its results own. -/
def blocksAfter (vt n : Nat) (tr : List Cmd) (outs : List Arr) (n' : Nat) (cs : List Nat) :
    Option (List Nat × List Nat) :=
  (record wAddr [] [⟨0, vt, n⟩] tr outs).bind fun rc =>
    match replay exSem rc [⟨vt, n', 50⟩]
      (fun a => if a = 50 then some (cs.map .byte) else if a = 51 then some [.byte 9] else none) 60 with
    | .ok (os, st) =>
      some ((List.range 90).filter fun a => (st.heap a).isSome, os.filterMap OutVar.block)
    | .raise st => some ((List.range 90).filter fun a => (st.heap a).isSome, [])
    | _ => none

example : blocksAfter 8 2 (exTrace 2) (exOuts 2) 4 (List.range 16) =
    some ([50, 51, 61, 62], [62, 61]) := by decide

example : Placed wAddr ((exIns 2).map (·.arr) ++ []) (exTrace 2) := by
  refine ⟨?_, by decide, ?_, by decide, ?_, by decide, ?_, by decide, ?_⟩ <;>
    (intro x _ y _ h; exact Nat.add_right_cancel h)

example : ∀ c ∈ exTrace 2, ∀ x ∈ c.outs, x ∉ (exIns 2).map (·.arr) := by decide

example : ((exOuts 2).map fun o => wAddr o.arr).Nodup := by decide

/-! ## Counterexamples -/

/-- A function that returns one array twice: two variables own the same block. -/
theorem C64_duplicate_counterexample :
    blocksAfter 4 1 [.memset 1 1 1 7] [⟨1, 4, 1⟩, ⟨1, 4, 1⟩] 1 [1] = some ([50, 51, 60], [60, 60]) := by
  decide

/-- A function that fills its argument with 2 elements, replayed with an argument of 1 element:
the memory of the argument is released although the variable still refers to it, and
the new memory is never released. -/
theorem C64_overwritten_counterexample :
    blocksAfter 4 2 [.memset 0 2 1 7] [] 1 [1] = some ([51, 60], []) := by decide

/-- A replay that raises an exception does not release the memory of its temporary arrays. -/
theorem C64_raise_counterexample :
    blocksAfter 4 1 [.memset 1 2 1 1, .compress 1 2 2] [⟨2, 8, 2⟩] 1 [1] =
      some ([50, 51, 60], []) := by decide

end Verif.Freeze
