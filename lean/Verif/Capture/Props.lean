import Verif.Capture.Code

/-!
# C71: recorded functions receive everything that their code refers to
-/

namespace Verif.Capture

open Verif.Eval (SV TS Act Reach edges Dead Acyclic Idle InputsAtOneDepth Before SortedSchedule)
open Verif.Eval (Gen.St)

variable {g : Graph}

/-- The call `d` was recorded: the analysis of its instances accepted them, and
determined the captured variables and the flags of the call. -/
structure Recorded (g : Graph) (d : CallData) : Prop where
  instances : d.innerOut.length = d.sideEffects.length
  analyzed : ∃ fuel gen m st, Eval.Gen.Inv gen m st ∧ (∀ i, m i ≠ .stashed) ∧
    anaCall g fuel (d.innerOut.zip d.sideEffects) gen {} = .ok (d.slots, d.uses)

theorem Recorded.instance (h : Recorded g d) (hcas : NoCas g) {inst : Nat}
    (hi : inst < d.innerOut.length) :
    ∃ u1 u2, Analyzed g (instRoots d inst) (d.slots.getD inst []) u1 u2 ∧ UsesLe u2 d.uses := by
  obtain ⟨fuel, gen, m, st, hI, hst, ha⟩ := h.analyzed
  obtain ⟨_, _, h3⟩ := anaCall_spec hcas ⟨m, st, hI, hst⟩ ha
  have hi2 : inst < d.sideEffects.length := h.instances ▸ hi
  obtain ⟨u1, u2, h4, h5⟩ := h3 inst (d.innerOut[inst], d.sideEffects[inst])
    (by rw [List.getElem?_zip_eq_some]; simp [hi, hi2])
  refine ⟨u1, u2, ?_, h5⟩
  unfold instRoots
  rw [List.getD_eq_getElem?_getD, List.getD_eq_getElem?_getD, List.getElem?_eq_getElem hi,
    List.getElem?_eq_getElem hi2]
  exact h4

/-- **C71 (captured values).** The list of captured variables of an instance
contains each evaluated variable and each pointer literal that the function refers
to, once; nothing else; and all of them are scalars. -/
theorem C71_captured_partial {d : CallData} (hrec : Recorded g d) (hcas : NoCas g) {inst : Nat}
    (hi : inst < d.innerOut.length) :
    (d.slots.getD inst []).Nodup ∧
    (∀ j ∈ d.slots.getD inst [], Within g (instRoots d inst) j ∧
      ∃ nd, g j = some nd ∧ nd.size = 1 ∧ (nd.kind = .evaluated ∨ nd.ptr = true)) ∧
    (∀ j, Within g (instRoots d inst) j → ∃ nd, g j = some nd ∧
      (nd.kind = .evaluated ∨ nd.kind = .literal ∧ nd.ptr = true →
        j ∈ d.slots.getD inst [])) := by
  obtain ⟨u1, u2, hA, _⟩ := hrec.instance hcas hi
  refine ⟨hA.once, ?_, ?_⟩
  · intro j hj
    obtain ⟨h1, nd, h2, h3, h4⟩ := hA.sound j hj
    refine ⟨h1, nd, h2, h4, ?_⟩
    unfold captured at h3
    rw [Bool.and_eq_true, Bool.or_eq_true, beq_iff_eq] at h3
    exact h3.2
  · intro j hj
    obtain ⟨nd, h1, h2, _⟩ := hA.complete j hj
    refine ⟨nd, h1, ?_⟩
    intro hk
    refine (h2 ?_).1
    unfold captured
    rcases hk with hk | ⟨hk, hp⟩
    · rw [hk]; rfl
    · rw [hk, hp]; rfl

/-- **C71 (code generation).** When the caller's code contains the call, then the
code of every instance can be generated, unless the variables of its body cannot be
scheduled at all: each name it refers to is declared in the function's signature,
each argument it refers to is passed, and each captured variable has a slot in the
data of this instance. -/
theorem C71_functions_complete_partial (hwf : Wf g) (hcalls : CallsOk g) (hcas : NoCas g)
    {c : Nat} {nd : Node} {d : CallData} (hg : g c = some nd) (hk : nd.kind = .call d)
    (hrec : Recorded g d)
    -- the code that performs the call
    {rank : Nat → Nat} (hac : Acyclic (view g) rank) {size fuel0 : Nat} {refs0 : Nat → Nat}
    {roots : List Nat} {gen0 : Gen.St} {base S : List SV} {s0 : TS}
    (hidle0 : Idle ⟨gen0, base, []⟩) (hone : InputsAtOneDepth (view g) roots)
    (hcount0 : Counted g refs0 roots) (hbase : ∀ x ∈ base, refs0 x.index ≠ 0)
    (hcaller : Eval.travGroup (view g) refs0 size fuel0 roots ⟨gen0, base, []⟩ = .ok s0)
    (hS : s0.sched = base ++ S) (hc : c ∈ S.map SV.index)
    -- the function
    {refs : Nat → Nat} (hok : CallerOk g refs c d) (hzero : ∀ t, refs0 t = 0 → refs t = 0)
    {inst : Nat} (hi : inst < d.innerOut.length) (hcount : Counted g refs (instRoots d inst))
    {sort : List SV → List SV} (hsort : ∀ l, (sort l).Perm l)
    {clobber : Nat → (Nat → Nat) → (Nat → Nat)} {start fuel : Nat} {laidOut : List Nat}
    (hlaid : laidOut.Perm (d.slots.getD inst [])) {po : Nat → Nat} {gen : Gen.St} {s : TS}
    (hidle : Idle ⟨gen, [], []⟩)
    (hbody : Eval.travGroup (view g) refs 1 fuel
      (funcRoots g (fun i => decide (i ∈ S.map SV.index)) d inst) ⟨gen, [], []⟩ = .ok s) :
    assembleFunc g sort clobber refs fuel (fun i => decide (i ∈ S.map SV.index)) d inst start
      laidOut po gen = .ok (sort s.sched) := by
  obtain ⟨u1, u2, hA, hu⟩ := hrec.instance hcas hi
  -- the caller
  obtain ⟨_, S', hS', hG⟩ := Eval.travGroup_spec hac hidle0 hcaller
  have : S' = S := List.append_cancel_left (hS'.symm.trans hS)
  subst this
  have hmin0 := Eval.travGroup_permitted (s := ⟨gen0, base, []⟩) rfl
    (fun t ht => ⟨fun hr => hcount0.reach hr ht, fun hb => by
      obtain ⟨x, hx, rfl⟩ := List.mem_map.1 hb
      exact hbase x hx ht⟩) hcaller hS
  -- the function
  have hmin := Eval.travGroup_permitted (s := ⟨gen, [], []⟩) (S := s.sched) rfl
    (fun t ht => ⟨fun hr => hcount.reach (hr.mono funcRoots_sub) ht, by simp⟩) hbody (by simp)
  have hnodup : laidOut.Nodup := hlaid.nodup_iff.2 hA.once
  unfold assembleFunc
  rw [hbody]
  dsimp only
  rw [genAll_ok (po0 := bindSlots start laidOut po)]
  · intro x hx
    have hx' := hmin x ((hsort _).mem_iff.1 hx)
    obtain ⟨ndx, hgx⟩ : ∃ ndx, g x.index = some ndx := by
      obtain ⟨_, S2, e1, e2⟩ := Eval.travGroup_spec hac hidle hbody
      have : S2 = s.sched := by rw [e1]; rfl
      subst this
      obtain ⟨_, ndv, e3, _⟩ := e2.entries x ((hsort _).mem_iff.1 hx)
      unfold view at e3
      cases hgx : g x.index with
      | none => rw [hgx] at e3; simp at e3
      | some ndx => exact ⟨ndx, rfl⟩
    refine ⟨ndx, hgx, ?_⟩
    intro po' hpo'
    unfold genVar
    by_cases hphi : ∃ k, ndx.kind = .loopPhi k
    · obtain ⟨k, hphi⟩ := hphi
      rw [if_neg (by rw [hphi]; simp), hphi]
    · have hw := scheduled_within hwf hcalls hg hk funcRoots_sub hx' hgx
        (fun k hk => hphi ⟨k, hk⟩)
      obtain ⟨ndx', hgx', hcap, huse⟩ := hA.complete _ hw
      rw [hgx] at hgx'
      have := Option.some.inj hgx'
      subst this
      have huse := huse.trans hu
      by_cases hev : ndx.kind = .evaluated ∨ (ndx.ptr = true ∧ ndx.kind = .literal)
      · rw [if_pos hev]
        have hmem : x.index ∈ d.slots.getD inst [] := by
          refine (hcap ?_).1
          unfold captured
          rcases hev with hk | ⟨hp, hk⟩
          · rw [hk]; rfl
          · rw [hk, hp]; rfl
        obtain ⟨k, hk⟩ := List.mem_iff_getElem?.1 (hlaid.mem_iff.2 hmem)
        rw [slotOf_bound hnodup hk hpo']
        dsimp only
        have hd : hasData d = true := by
          unfold hasData
          rw [List.any_eq_true]
          rw [List.getD_eq_getElem?_getD] at hmem
          cases hr : d.slots[inst]? with
          | none => rw [hr] at hmem; simp at hmem
          | some r =>
            rw [hr] at hmem
            refine ⟨r, List.mem_of_getElem? hr, ?_⟩
            cases r with
            | nil => simp at hmem
            | cons _ _ => rfl
        unfold require signature
        dsimp only
        rw [hd]
        rfl
      · rw [if_neg hev]
        unfold UsesLe noteUses at huse
        cases hkx : ndx.kind <;> rw [hkx] at huse <;> dsimp only at huse ⊢
        case callSelf => simp [require, signature, huse.1]
        case counter => simp [require, signature, huse.2.1]
        case threadIndex => simp [require, signature, huse.2.2.1]
        case callGetter => simp [require, signature, huse.2.2.2]
        case call d2 =>
          simp only [Bool.false_or] at huse
          have hn : d.uses.nested = true := huse.2.2.2 trivial
          have h1 : (!d2.uses.index || d.uses.index) = true := by
            cases hb : d2.uses.index with
            | false => rfl
            | true => rw [huse.2.1 hb]; rfl
          have h2 : (!d2.uses.thread || d.uses.thread) = true := by
            cases hb : d2.uses.thread with
            | false => rfl
            | true => rw [huse.2.2.1 hb]; rfl
          unfold require signature
          dsimp only
          rw [h1, h2, hn]
          simp
        case callInput =>
          obtain ⟨h1, h2, h3, h4⟩ := argument_scheduled hwf hcalls hg hk hok hzero hone
            hG.complete hmin0 hc hx' hgx hkx
          have : (inActive g refs (fun i => decide (i ∈ S'.map SV.index)) d).getD
              (firstIndex d.innerIn x.index) false = true := by
            unfold inActive
            rw [List.getD_eq_getElem?_getD, List.getElem?_zipWith, h1, h2]
            dsimp only [Option.getD]
            unfold inputActive
            beta_reduce
            rw [decide_eq_true h3]
            obtain ⟨ndo, hgo, _⟩ := hok.values _ (List.mem_of_getElem? h2)
            rw [hgo]
            have hr : (refs x.index == 1) = false := by simpa using h4
            rw [hr]
            cases hopt : d.optimize with
            | false => rfl
            | true =>
              have := hok.literals hopt _ _ _ _ _ h1 hgx hkx h2 hgo
              have hl : (ndo.kind == Kind.literal) = false := by simpa using this
              dsimp only
              rw [hl]
              rfl
          unfold require signature
          dsimp only
          rw [if_pos this]
        all_goals rfl
  · exact fun x hx => hx
  · exact fun x hx => rfl

/-- **C71 (arguments).** An argument to which the code of a function refers has been
computed by the caller: it is part of the same kernel, and stands before the call if
it was created in an older scope than the call. (`jit_new_scope()` is to be called
before `jit_var_call()`.) -/
theorem C71_arguments_partial (hwf : Wf g) (hcalls : CallsOk g)
    {c : Nat} {nd : Node} {d : CallData} (hg : g c = some nd) (hk : nd.kind = .call d)
    {rank : Nat → Nat} (hac : Acyclic (view g) rank) {size fuel0 : Nat} {refs0 : Nat → Nat}
    {roots : List Nat} {gen0 : Gen.St} {base S L : List SV} {s0 : TS}
    (hidle0 : Idle ⟨gen0, base, []⟩) (hone : InputsAtOneDepth (view g) roots)
    (hcount0 : Counted g refs0 roots) (hbase : ∀ x ∈ base, refs0 x.index ≠ 0)
    (hcaller : Eval.travGroup (view g) refs0 size fuel0 roots ⟨gen0, base, []⟩ = .ok s0)
    (hS : s0.sched = base ++ S) (hc : c ∈ S.map SV.index) (hL : SortedSchedule S L)
    {refs : Nat → Nat} (hok : CallerOk g refs c d) (hzero : ∀ t, refs0 t = 0 → refs t = 0)
    {inst : Nat} (hcount : Counted g refs (instRoots d inst)) {fuel : Nat}
    {gen : Gen.St} {s : TS}
    (hbody : Eval.travGroup (view g) refs 1 fuel
      (funcRoots g (fun i => decide (i ∈ S.map SV.index)) d inst) ⟨gen, [], []⟩ = .ok s)
    {x : SV} (hx : x ∈ s.sched) {ndx : Node} (hgx : g x.index = some ndx)
    (hkx : ndx.kind = .callInput) :
    ∃ (k o : Nat) (ndo : Node), d.innerIn[k]? = some x.index ∧ d.outerIn[k]? = some o ∧ o = ndx.dep.headD 0 ∧
      g o = some ndo ∧ o ∈ L.map SV.index ∧ (ndo.scope < nd.scope → Before o c L) := by
  obtain ⟨_, S', hS', hG⟩ := Eval.travGroup_spec hac hidle0 hcaller
  have : S' = S := List.append_cancel_left (hS'.symm.trans hS)
  subst this
  have hmin0 := Eval.travGroup_permitted (s := ⟨gen0, base, []⟩) rfl
    (fun t ht => ⟨fun hr => hcount0.reach hr ht, fun hb => by
      obtain ⟨x, hx, rfl⟩ := List.mem_map.1 hb
      exact hbase x hx ht⟩) hcaller hS
  have hmin := Eval.travGroup_permitted (s := ⟨gen, [], []⟩) (S := s.sched) rfl
    (fun t ht => ⟨fun hr => hcount.reach (hr.mono funcRoots_sub) ht, by simp⟩) hbody (by simp)
  obtain ⟨h1, h2, h3, _⟩ := argument_scheduled hwf hcalls hg hk hok hzero hone
    hG.complete hmin0 hc (hmin x hx) hgx hkx
  obtain ⟨ndo, hgo, _⟩ := hok.values _ (List.mem_of_getElem? h2)
  have hoL : ndx.dep.headD 0 ∈ L.map SV.index := (hL.perm.map _).mem_iff.2 h3
  refine ⟨_, _, ndo, h1, h2, rfl, hgo, hoL, ?_⟩
  intro hlt pre y post hsplit hy
  have hscope : ∀ z ∈ L, ∀ ndz, g z.index = some ndz → z.size = size ∧ z.scope = ndz.scope := by
    intro z hz ndz hgz
    obtain ⟨e1, ndv, e2, e3, _⟩ := hG.entries z (hL.perm.mem_iff.1 hz)
    refine ⟨e1, ?_⟩
    rw [e3]
    obtain ⟨nd', k, e4, _, e5⟩ := view_some e2
    rw [hgz] at e4
    rw [e5, Option.some.inj e4]
  obtain ⟨z, hz, hzo⟩ := List.mem_map.1 hoL
  have hyL : y ∈ L := by rw [hsplit]; simp
  obtain ⟨y1, y2⟩ := hscope y hyL nd (by rw [hy]; exact hg)
  obtain ⟨z1, z2⟩ := hscope z hz ndo (by rw [hzo]; exact hgo)
  rw [hsplit] at hz
  rcases List.mem_append.1 hz with hz | hz
  · rw [← hzo]
    exact List.mem_map_of_mem hz
  · exfalso
    rcases List.mem_cons.1 hz with rfl | hz
    · omega
    · have hp := hL.sorted
      rw [hsplit] at hp
      have := (List.pairwise_cons.1 (List.pairwise_append.1 hp).2.1).1 z hz
      unfold Eval.InOrder at this
      omega

/-- **C71 (termination).** The analysis ends, also for bodies with loops. -/
theorem C71_terminates {N : Nat} (hN : ∀ i, N ≤ i → g i = none)
    {insts : List (List Nat × List Nat)} {fuel : Nat} (hf : N < fuel) {gen : Gen.St} {u : Uses} :
    anaCall g fuel insts gen u ≠ .error .fuel := ana_terminates hN hf

end Verif.Capture
