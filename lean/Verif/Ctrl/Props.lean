import Verif.Ctrl.Vector
import Verif.Ctrl.Broadcast
import Verif.Ctrl.Copy

/-
Symbolic loops and conditionals: C41 and C42.

A program (`Stmt`, `Block` in the specification) is run in every lane by `runB`.  `recB` records it in
an empty graph of variables, with any of the settings; `den` is the value of a variable in one lane,
and `denV` the value in the lanes of a packet of the LLVM backend.
-/

namespace Verif.Ctrl

theorem empty_wf : WF {} := fun i hi => by
  have : i = 0 := by simp at hi; omega
  subst this
  simp [Kind.refs]

theorem empty_ok (cfg : Cfg) : AllOK cfg {} := fun i hi => by
  have : i = 0 := by simp at hi; omega
  subst this
  simp [NodeOK]

/-- C41: whatever is optimised away, the recorded variables have the values that the program
computes: for all nested loops and conditionals, all settings, lanes, and numbers of iterations. -/
theorem C41_recorded_loops_compute_the_program {cfg : Cfg} (hc : CfgOK cfg) {b : Block} {g : Graph} {rs : List Nat}
    (h : recB cfg b {} [] = some (g, rs)) {lane n : Nat} {ws : List Nat} (hr : runB false lane n b [] = some ws) :
    rs.length = ws.length ∧ ∀ k r w : Nat, rs[k]? = some r → ws[k]? = some w →
      ∀ e, ∃ m, den false g lane m e r = some w := by
  have ok := recB_ok (sp := false) hc b {} [] (g, rs) empty_wf (by simp) h
  have hv := fun e => ok.val lane e n [] ws .nil hr
  refine ⟨(hv fun _ => 0).length_eq, fun k r w hk hw e => ?_⟩
  obtain ⟨v, h1, h2⟩ := vals_getElem (hv e) k r hk
  rw [hw] at h1; cases h1; exact h2

/-- C41: loop variables that are optimised away have the same final values as in the loop that is
recorded without optimisations. -/
theorem C41_optimised_loops_agree {cfg cfg' : Cfg} (hc : CfgOK cfg) (hc' : CfgOK cfg') {b : Block}
    {g g' : Graph} {rs rs' : List Nat} (h : recB cfg b {} [] = some (g, rs)) (h' : recB cfg' b {} [] = some (g', rs'))
    {lane n : Nat} {ws : List Nat} (hr : runB false lane n b [] = some ws) :
    rs.length = rs'.length ∧ ∀ k r r' v v' : Nat, rs[k]? = some r → rs'[k]? = some r' →
      ∀ e m m', den false g lane m e r = some v → den false g' lane m' e r' = some v' → v = v' := by
  obtain ⟨h1, h2⟩ := C41_recorded_loops_compute_the_program hc h hr
  obtain ⟨h1', h2'⟩ := C41_recorded_loops_compute_the_program hc' h' hr
  refine ⟨h1.trans h1'.symm, fun k r r' v v' hk hk' e m m' hv hv' => ?_⟩
  have hl : k < ws.length := by rw [← h1]; exact (List.getElem?_eq_some_iff.1 hk).1
  have hw := List.getElem?_eq_getElem hl
  rw [Val.unique ⟨m, hv⟩ (h2 k r _ hk hw e), Val.unique ⟨m', hv'⟩ (h2' k r' _ hk' hw e)]

/-- C41 and C42: a kernel of the LLVM backend, which runs the lanes of a packet together and goes on
with a loop or a branch while any lane needs it, computes the results of each lane.  Every lane must
also end if it executes what it does not need; this holds, for example, if all conditions of loops
include those of the surrounding loops and conditionals. -/
theorem C41_llvm_kernels_compute_each_lane {cfg : Cfg} (hc : CfgOK cfg) (hl : cfg.llvm = true) {b : Block}
    {g : Graph} {rs : List Nat} (h : recB cfg b {} [] = some (g, rs)) {L : List Nat} (hL : L ≠ []) {n : Nat}
    {ws : Nat → List Nat} (hr : ∀ l ∈ L, runB true l n b [] = some (ws l)) (u : Nat → Nat) (e : Nat → Nat → Nat)
    {k r : Nat} (hk : rs[k]? = some r) :
    ∃ m x, denV g L u m e r = some x ∧ ∀ l ∈ L, (ws l)[k]? = some (x l) := by
  have ok := recB_ok (sp := true) hc b {} [] (g, rs) empty_wf (by simp) h
  have hgrow := recB_grow hc b {} [] (g, rs) empty_wf (by simp) h
  have hval : ∀ l ∈ L, ∃ v, (ws l)[k]? = some v ∧ Val true g l (e l) r v := fun l hm =>
    vals_getElem (ok.val l (e l) n [] (ws l) .nil (hr l hm)) k r hk
  -- one bound for all lanes
  have bound : ∀ L' : List Nat, (∀ l ∈ L', ∃ v, Val true g l (e l) r v) →
      ∃ m, ∀ l ∈ L', ∃ v, den true g l m (e l) r = some v := by
    intro L'
    induction L' with
    | nil => intro _; exact ⟨0, by simp⟩
    | cons l L' ih =>
      intro hh
      obtain ⟨m, hm⟩ := ih fun l hl => hh l (by simp [hl])
      obtain ⟨v, m', hv⟩ := hh l (by simp)
      refine ⟨max m m', fun l' hl' => ?_⟩
      rcases List.mem_cons.1 hl' with rfl | hl'
      · exact ⟨v, den_mono m' _ _ _ _ (by omega) hv⟩
      · obtain ⟨w, hw⟩ := hm l' hl'
        exact ⟨w, den_mono m _ _ _ _ (by omega) hw⟩
  obtain ⟨m, hm⟩ := bound L fun l hm => by
    obtain ⟨v, _, hv⟩ := hval l hm
    exact ⟨v, hv⟩
  obtain ⟨m', x, h1, h2⟩ := denV_lanes (u := u) hl hgrow.wf (hgrow.ok (empty_ok cfg)) hL m e r
    (ok.lt r (List.mem_of_getElem? hk)) hm
  refine ⟨m', x, h1, fun l hm => ?_⟩
  obtain ⟨v, hv1, hv2⟩ := hval l hm
  rw [hv1, hv2.unique ⟨m, h2 l hm⟩]

/-- C41: if the branches of the conditionals are not wider than the conditions, then the program
computes the same value in all lanes for a result of size 1, so that one entry suffices. -/
theorem C41_results_of_size_1_are_uniform_partial {cfg : Cfg} (hc : CfgOK cfg) {b : Block} {g : Graph} {rs : List Nat}
    (h : recB cfg b {} [] = some (g, rs)) (hfit : CondsFit g) {l l' n n' : Nat} {ws ws' : List Nat}
    (hr : runB false l n b [] = some ws) (hr' : runB false l' n' b [] = some ws') {k r : Nat}
    (hk : rs[k]? = some r) (hs : g.size r ≤ 1) : ws[k]? = ws'[k]? := by
  have ok := recB_ok (sp := false) hc b {} [] (g, rs) empty_wf (by simp) h
  have hgrow := recB_grow hc b {} [] (g, rs) empty_wf (by simp) h
  obtain ⟨v, h1, m, hv⟩ := vals_getElem (ok.val l (fun _ => 0) n [] ws .nil hr) k r hk
  obtain ⟨v', h1', m', hv'⟩ := vals_getElem (ok.val l' (fun _ => 0) n' [] ws' .nil hr') k r hk
  rw [h1, h1', den_broadcast hgrow.wf (hgrow.ok (empty_ok cfg)) hfit m m' _ _ r v v'
    (ok.lt r (List.mem_of_getElem? hk)) hs (fun _ _ => rfl) hv hv']

/-- C41: at the end of an iteration, CUDA and Metal kernels update all loop variables
simultaneously, although they do so one by one: each variable gets the value that the register of its
new value had before, also if that is another variable of the loop; other registers are unchanged. -/
theorem C41_back_edge_is_simultaneous (ri : Nat → Nat) (ps : List (Nat × Nat)) (s : Regs)
    (hn : ((ps.filter (moved ri)).map (fun p => ri p.1)).Nodup)
    (hr : ∀ p ∈ ps, ∀ q ∈ ps, moved ri p = true → moved ri q = true → ri p.2 = ri q.1 → p.2 = q.1) :
    (∀ p ∈ ps, moved ri p = true → (loopEnd ri ps s).reg (ri p.1) = s.reg (ri p.2)) ∧
    ∀ j, (∀ p ∈ ps, moved ri p = true → ri p.1 ≠ j) → (loopEnd ri ps s).reg j = s.reg j :=
  loopEnd_simultaneous ri ps s hn hr

/-- C42: an output of a conditional has the selected value in every lane, whether or not it is
elided. -/
theorem C42_outputs_have_the_selected_value {g : Graph} {c size t f : Nat} {g' : Graph} {o : Nat} (hw : WF g)
    (hc : c < g.next) (ht : t < g.next) (hf : f < g.next) (h : condOutput g c size t f = some (g', o))
    {lane n : Nat} {e : Nat → Nat} {x v : Nat} (hx : den false g lane n e c = some x)
    (hv : den false g lane n e (if x ≠ 0 then t else f) = some v) : ∃ m, den false g' lane m e o = some v :=
  (condOutput_makes (sp := false) hw hc ht hf h).2.2.2 lane e v ⟨x, ⟨n, hx⟩, ⟨n, hv⟩, fun h => by cases h⟩

/-! ### Non-vacuity -/

/-- Value numbering of literals. -/
def litTable (g : Graph) (v : Node) : Option Nat :=
  match v.kind with
  | .lit c => (List.range g.next).find? fun i => match (g.node i).kind with
    | .lit c' => c' == c && (g.node i).size == v.size
    | _ => false
  | _ => none

/-- Settings with constant propagation and value numbering. -/
def demoCfg (llvm optimize : Bool) : Cfg :=
  { llvm := llvm, optimize := optimize, simplify := true, lvn := litTable, simp := fun _ _ _ => none }

theorem demoCfg_ok (llvm optimize : Bool) : CfgOK (demoCfg llvm optimize) where
  lvn := by
    intro g v i h
    simp only [demoCfg, litTable] at h
    split at h
    · next c hk =>
      have h1 := List.find?_some h
      have h2 := List.mem_of_find?_eq_some h
      refine ⟨by simpa using h2, ?_⟩
      revert h1
      cases hi : g.node i with
      | mk kind size =>
        simp only
        cases kind with
        | lit c' =>
          intro h1
          cases v
          simp only [Bool.and_eq_true, beq_iff_eq] at h1 hk
          rw [hk, h1.1, h1.2]
        | _ => intro h1; simp at h1
    · cases h
  simp := by intro g f args i h; simp [demoCfg] at h

def addOp (l : List Nat) : Nat := l.foldl (· + ·) 0
def ltOp : List Nat → Nat
  | [a, b] => if a < b then 1 else 0
  | _ => 0

/-- `while i < n: (if i < 2: y = y + z else: y = y); i = i + 1`, where `z` does not change, `w` is
always 7 and `n` differs between the lanes. -/
def demoBlock : Block :=
  .seq (.input (fun l => l) 4) <|                                         -- 0: n
  .seq (.lit 0 1) <| .seq (.lit 1 1) <| .seq (.lit 7 1) <| .seq (.lit 2 1) <|    -- 1, 2, 3, 4
  .seq (.loop [1, 0, 2, 3]                                                -- state: i, y, z, w = 5, 6, 7, 8
    (.seq (.op ltOp [5, 0]) (.ret [9]))
    (.seq (.op ltOp [5, 4]) <|
     .seq (.ite 9 (.seq (.op addOp [6, 7]) (.ret [10])) (.ret [6])) <|    -- 10
     .seq (.op addOp [5, 2]) <|                                           -- 11
     .seq (.lit 7 1) (.ret [11, 10, 7, 12]))) <|
  .ret [5, 6, 7, 8]

example : (List.range 4).map (fun l => runB false l 10 demoBlock []) =
    [some [0, 0, 1, 7], some [1, 2, 1, 7], some [2, 4, 1, 7], some [3, 5, 1, 7]] := by decide

example : (List.range 4).map (fun l => runB true l 10 demoBlock []) =
    [some [0, 0, 1, 7], some [1, 2, 1, 7], some [2, 4, 1, 7], some [3, 5, 1, 7]] := by decide

/-- Two loop variables are eliminated with optimisations, none without. -/
def demoOuts (llvm optimize : Bool) : Option (List Nat × List (List (Option Nat))) :=
  (recB (demoCfg llvm optimize) demoBlock {} []).map fun r =>
    (r.2, (List.range 4).map fun l => r.2.map fun i => den false r.1 l 20 (fun _ => 0) i)

example : (demoOuts true true).map (·.2) =
    some [[some 0, some 0, some 1, some 7], [some 1, some 2, some 1, some 7], [some 2, some 4, some 1, some 7],
      [some 3, some 5, some 1, some 7]] := by decide +kernel

example : (demoOuts true true).map (·.2) = (demoOuts false false).map (·.2) := by decide +kernel

example : (demoOuts true true).map (·.1) ≠ (demoOuts true false).map (·.1) := by decide +kernel

/-- The LLVM kernel of the program. -/
example : (recB (demoCfg true true) demoBlock {} []).map (fun r => r.2.map fun i =>
    (denV r.1 [0, 1, 2, 3] (fun _ => 99) 20 (fun _ _ => 0) i).map fun x => (List.range 4).map x) =
    some [some [0, 1, 2, 3], some [0, 2, 4, 5], some [1, 1, 1, 1], some [7, 7, 7, 7]] := by decide +kernel

/-- Is `CondsFit` true? -/
def condsFit (g : Graph) : Bool := (List.range g.next).all fun i => match (g.node i).kind with
  | .condOut _ t f => g.size t ≤ g.size i && g.size f ≤ g.size i
  | _ => true

theorem condsFit_spec {g : Graph} (h : condsFit g = true) : CondsFit g := by
  intro i c t f hi hk
  have := List.all_eq_true.1 h i (List.mem_range.2 hi)
  simpa [hk] using this

/-- A loop with a conditional on variables of size 1, next to a wide variable. -/
def scalarBlock : Block :=
  .seq (.input (fun l => l) 4) <| .seq (.input (fun _ => 3) 1) <| .seq (.lit 0 1) <| .seq (.lit 1 1) <|  -- 0, 1, 2, 3
  .seq (.loop [2, 3]                                                -- state: i, y = 4, 5
    (.seq (.op ltOp [4, 1]) (.ret [6]))
    (.seq (.op ltOp [4, 3]) <| .seq (.op addOp [5, 5]) <| .seq (.ite 6 (.ret [5]) (.ret [7])) <|
     .seq (.op addOp [4, 3]) (.ret [9, 8]))) <|
  .seq (.op addOp [0, 5]) (.ret [4, 5, 6])

example : (recB (demoCfg true true) scalarBlock {} []).map (fun r => (condsFit r.1, r.2.map r.1.size)) =
    some (true, [1, 1, 4]) := by decide +kernel

example : (List.range 4).map (fun l => runB false l 10 scalarBlock []) =
    [some [3, 4, 4], some [3, 4, 5], some [3, 4, 6], some [3, 4, 7]] := by decide

/-- A swap of two loop variables: `a, b = b, a`. -/
example : let s := loopEnd id [(1, 2), (2, 1), (3, 3)] ⟨id, fun _ => 0, fun _ => 5⟩
    [s.reg 1, s.reg 2, s.reg 3, s.reg 4] = [2, 1, 3, 4] := by decide

/-! ### Findings -/

/-- Conditional with a condition of size 1 and branches of size 4. -/
def wideBranches : Block :=
  .seq (.input (fun _ => 1) 1) <| .seq (.input (fun l => l) 4) <| .seq (.input (fun l => l + 10) 4) <|
  .seq (.ite 0 (.ret [1]) (.ret [2])) <| .ret [3]

/-- Finding: the result of a conditional has the size of the condition.  If the condition has size 1
and the branches are wider, this is accepted, and the result has a single entry, although the lanes
have different values. -/
theorem C42_scalar_condition_truncates :
    ∃ g r, recB (demoCfg true true) wideBranches {} [] = some (g, [r]) ∧ g.size r = 1 ∧
      (List.range 4).map (fun l => runB false l 1 wideBranches []) = [some [0], some [1], some [2], some [3]] := by
  refine ⟨_, _, rfl, ?_, ?_⟩
  · decide
  · decide

end Verif.Ctrl
