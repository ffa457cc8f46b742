import Verif.Jit.Demo
import Verif.Gather.GatherProps
import Verif.Gather.MaskDemo
/-!
# Example runs of gathers

The contracts of `Verif.Gather` are met by the model of evaluation and a simple allocator.
-/
namespace Verif.Jit
open Verif.Var Verif.Ops Verif.Gather

variable {s s' : Store} {U : List Nat} {u : Nat → Nat} {st : List Nat}

/-- An allocator: the address above all addresses in use. -/
def refAlloc : M (BitVec 64) := do
  let s ← getStore
  if top s ≥ 2 ^ 64 then raise else pure (BitVec.ofNat 64 (top s))

theorem val_poke {p x : BitVec 64} (h : Inv s U u (fun _ => 0) [])
    (hp : ∀ k, k < s.len → (s.vars k).literal ≠ p) {k l : Nat} {v : BitVec 64} (hv : Val s k l v) :
    Alive s U k → Val (s.poke p x) k l v := by
  have dep : ∀ {k d : Nat}, Alive s U k → (s.vars k).writePtr = false →
      d ∈ [(s.vars k).d0, (s.vars k).d1, (s.vars k).d2, (s.vars k).d3] → d ≠ 0 → Alive s U d := by
    intro k d ha hw hd h0
    exact (h.deps k ha d (List.mem_append_left _ (by rw [refs_of hw]; exact hd)) h0).1
  have mem : ∀ {k : Nat} (_ : Alive s U k) (j : Nat),
      (s.poke p x).mem (s.vars k).literal j = s.mem (s.vars k).literal j := by
    intro k ha j
    show (if (s.vars k).literal = p ∧ j = 0 then x else s.mem (s.vars k).literal j) = _
    rw [if_neg (fun e => hp k ha.2.1 e.1)]
  induction hv with
  | literal hk => exact fun _ => Val.literal (s := s.poke p x) hk
  | @evaluated i l hk =>
    intro ha
    have : Val (s.poke p x) i l _ := .evaluated hk
    rwa [show ((s.poke p x).vars i) = s.vars i from rfl, mem ha] at this
  | counter hk => exact fun _ => Val.counter (s := s.poke p x) hk
  | defaultMask hk => exact fun _ => Val.defaultMask (s := s.poke p x) hk
  | @gatherOff i l m hk hw h2 hm hf ih =>
    exact fun ha => Val.gatherOff (s := s.poke p x) hk hw h2 (ih (dep ha hw (by simp) h2)) hf
  | @gatherOn i l y m hk hw h0 h1 h2 hk0 hx hm hf ihx ihm =>
    intro ha
    have : Val (s.poke p x) i l _ := Val.gatherOn (s := s.poke p x) hk hw h0 h1 h2 hk0
      (ihx (dep ha hw (by simp) h1)) (ihm (dep ha hw (by simp) h2)) hf
    rwa [show ((s.poke p x).vars) = s.vars from rfl, mem (dep ha hw (by simp) h0)] at this
  | @node1 i l y z hw h0 hx hz ih =>
    exact fun ha => Val.node1 (s := s.poke p x) hw h0 (ih (dep ha hw (by simp) h0)) hz
  | @node2 i l y y' z hw h0 h1 hx hy hz ihx ihy =>
    exact fun ha => Val.node2 (s := s.poke p x) hw h0 h1 (ihx (dep ha hw (by simp) h0))
      (ihy (dep ha hw (by simp) h1)) hz
  | @node3 i l y y' w z hw h0 h1 h2 hx hy hw' hz ihx ihy ihw =>
    exact fun ha => Val.node3 (s := s.poke p x) hw h0 h1 h2 (ihx (dep ha hw (by simp) h0))
      (ihy (dep ha hw (by simp) h1)) (ihw (dep ha hw (by simp) h2)) hz

theorem refAlloc_ok : AllocOK refAlloc := by
  intro s U u h p s' he
  unfold refAlloc at he
  have hw : wp refAlloc s (fun q t => t = s ∧ top s < 2 ^ 64 ∧ q = BitVec.ofNat 64 (top s)) (fun _ => True)
      (fun _ => True) := by
    unfold refAlloc
    rw [wp_bind, wp_getStore, wp_ite]
    by_cases hb : top s ≥ 2 ^ 64
    · rw [if_pos hb, wp_raise]; trivial
    · rw [if_neg hb, wp_pure]; exact ⟨rfl, by omega, rfl⟩
  unfold wp at hw
  unfold refAlloc at hw
  rw [he] at hw
  obtain ⟨h1, h2, h3⟩ := hw
  refine ⟨h1, fun k hk l x v hv => val_poke h ?_ hv (h.alive_of_ext (plus_pos_left hk))⟩
  intro k hk e
  have := lt_top hk
  rw [e, h3, BitVec.toNat_ofNat, Nat.mod_eq_of_lt h2] at this
  omega

/-! ## Checks of the assumptions about arguments -/

/-- Variables reached from `R` in `n` steps. -/
def closure (s : Store) : Nat → List Nat → List Nat
  | 0, R => R
  | n + 1, R => closure s n (R ++ (R.flatMap fun k => if (s.vars k).kind = .literal then [] else
      [(s.vars k).d0, (s.vars k).d1, (s.vars k).d2, (s.vars k).d3].filter (· ≠ 0))).eraseDups

/-- `R` contains `i` and everything that is reached from it. -/
def ClosedIn (s : Store) (R : List Nat) (i : Nat) : Prop :=
  i ∈ R ∧ ∀ k ∈ R, (s.vars k).kind ≠ .literal → ∀ d ∈ [(s.vars k).d0, (s.vars k).d1, (s.vars k).d2, (s.vars k).d3],
    d ≠ 0 → d ∈ R
instance (s : Store) (R : List Nat) (i : Nat) : Decidable (ClosedIn s R i) := by unfold ClosedIn; infer_instance

theorem ClosedIn.reads {R : List Nat} {i k : Nat} (h : ClosedIn s R i) (hr : Reads s i k) : k ∈ R := by
  induction hr with
  | root => exact h.1
  | @dep k d _ a b c ih =>
    refine h.2 k ih a d ?_ c
    unfold Var.refs at b
    revert b
    cases (s.vars k).writePtr <;> simp <;> tauto

theorem ClosedIn.part {R : List Nat} {i k : Nat} (h : ClosedIn s R i) (hr : Part s i k) : k ∈ R := by
  induction hr with
  | root => exact h.1
  | @dep k j _ a b c ih =>
    refine h.2 k ih a _ ?_ c
    have : j = 0 ∨ j = 1 ∨ j = 2 ∨ j = 3 := by omega
    rcases this with rfl | rfl | rfl | rfl <;> simp [Var.dep]

/-- Sizes fit, and scalars are uniform. -/
def Fits (s : Store) (R : List Nat) (i : Nat) : Prop :=
  ClosedIn s R i ∧ (∀ k ∈ R, (s.vars k).size = 1 ∨ (s.vars k).size = (s.vars i).size) ∧
  ((s.vars i).size ≠ 1 ∨ (s.vars i).kind = .literal ∨ (s.vars i).kind = .evaluated) ∧ (s.vars i).size < 2 ^ 32
instance (s : Store) (R : List Nat) (i : Nat) : Decidable (Fits s R i) := by unfold Fits; infer_instance

theorem Fits.ok {R : List Nat} {i : Nat} (h : Fits s R i) : Uniform s i ∧ Shaped s i := by
  refine ⟨fun h1 l l' x hx => ?_, fun k hk => h.2.1 k (h.1.reads hk)⟩
  rcases h.2.2.1 with h2 | h2 | h2
  · exact absurd h1 h2
  · have := hx.unique (.literal h2)
    rw [this]; exact .literal h2
  · have := hx.unique (.evaluated h2)
    rw [this, h1]
    have : Val s i l' _ := .evaluated h2
    rw [h1] at this
    simpa using this

/-- The expression consists of supported operations. -/
def TypedIn (s : Store) (R : List Nat) : Prop :=
  ∀ k ∈ R, ((s.vars k).kind = .literal → norm (s.vars k).type (s.vars k).literal = (s.vars k).literal ∧ (s.vars k).d0 = 0) ∧
    ((s.vars k).kind ≠ .literal → (s.vars k).writePtr = false) ∧
    ((s.vars k).kind = .counter → (s.vars k).type = .u32) ∧
    ((s.vars k).kind = .defaultMask → (s.vars k).type = .bool) ∧
    ((s.vars k).kind = .gather → (s.vars k).d2 ≠ 0 → (s.vars (s.vars k).d2).type = .bool) ∧
    (match (s.vars k).kind with | .other _ => false | _ => true) = true
instance (s : Store) (R : List Nat) : Decidable (TypedIn s R) := by unfold TypedIn; infer_instance

theorem TypedIn.ok {R : List Nat} {i : Nat} (h : TypedIn s R) (hc : ClosedIn s R i) : Typed s i where
  lit k hk e := ((h k (hc.part hk)).1 e).1
  read k hk e := (h k (hc.part hk)).2.1 e
  counter k hk e := (h k (hc.part hk)).2.2.1 e
  dmask k hk e := (h k (hc.part hk)).2.2.2.1 e
  gather k hk e := (h k (hc.part hk)).2.2.2.2.1 e
  pure k hk c e := by
    have := (h k (hc.part hk)).2.2.2.2.2
    rw [e] at this
    cases this
  leaf k hk e := ((h k (hc.part hk)).1 e).2

/-- All variables that are reached. -/
def parts (s : Store) (i : Nat) : List Nat := closure s 5 [i]

/-- `GatherArgs`, decidable, for an empty mask stack. -/
def Args (s : Store) (u : Nat → Nat) (src idx mask : Nat) : Prop :=
  Operand s u src ∧ ((s.vars src).type.isInt = true ∨ (s.vars src).type.isFloat = true ∨ (s.vars src).type = .bool) ∧
  TypedIn s (parts s src) ∧ Fits s (parts s src) src ∧ ((s.vars src).kind ≠ .evaluated → s.sideEffects = []) ∧
  Operand s u idx ∧ (s.vars idx).type.isInt = true ∧ ((s.vars idx).kind = .counter → (s.vars idx).type = .u32) ∧
  Fits s (parts s idx) idx ∧ Operand s u mask ∧ (s.vars mask).type = .bool ∧ Fits s (parts s mask) mask
instance (s : Store) (u : Nat → Nat) (src idx mask : Nat) : Decidable (Args s u src idx mask) := by
  unfold Args; infer_instance

theorem Args.ok {src idx mask : Nat} (h : Args s u src idx mask) : GatherArgs s u [] src idx mask := by
  obtain ⟨a1, a2, a3, a4, a5, b1, b2, b3, b4, c1, c2, c3⟩ := h
  exact ⟨a1, a2, a3.ok a4.1, a4.ok.1, a4.ok.2, a5, a4.2.2.2, b1, b2, b3, b4.ok.1, b4.ok.2, b4.2.2.2, c1, c2, c3.ok.1,
    c3.ok.2, c3.2.2.2, fun t ht => by cases ht⟩

/-- The evaluator. -/
def refEval : M Unit := evalJit refEnv []

/-- The gather of the examples. -/
def refGather (st : List Nat) (src idx mask : Nat) : M Nat :=
  varGather refEval (varEval refEnv) refAlloc (fun _ => false) st 20 src idx mask

/-- Histories of the examples. -/
abbrev Hist := GReachable refEval (varEval refEnv) refAlloc (fun _ => false)

theorem refEval_ok : EvOK refEval := evalJit_ok refEnv_ok []

/-- The theorems of `Verif.Gather.GatherProps` without assumptions. -/
theorem refGather_ok {src idx mask r : Nat} (h : Hist s u st) (hw : WritesOK s) (a : GatherArgs s u st src idx mask)
    (he : refGather st src idx mask s = .ok r s') : Gathers s u st src idx mask s' r :=
  C40_gather refEval_ok (varEval_ok refEnv_ok refLaunch_ok) refAlloc_ok h hw a he

/-- A reachable state in which `P` holds. -/
theorem greach' (mem : BitVec 64 → Nat → BitVec 64) (l : List MOp) (P : Store → (Nat → Nat) → List Nat → Prop) [∀ s u st, Decidable (P s u st)]
    (h : (runM refEval l { mem := mem } (fun _ => 0) []).any (fun p =>
      writesB p.1 && decide (P p.1 p.2.1 p.2.2)) = true) :
    ∃ s u st, Hist s u st ∧ WritesOK s ∧ P s u st := by
  cases hr : runM refEval l { mem := mem } (fun _ => 0) [] with
  | none => rw [hr] at h; cases h
  | some p =>
    rw [hr] at h
    have h' : writesB p.1 = true ∧ P p.1 p.2.1 p.2.2 := by simpa using h
    obtain ⟨s, u, st⟩ := p
    have steps : ∀ {l : List MOp} {s s' : Store} {u u' : Nat → Nat} {st st' : List Nat}, Hist s u st →
        MSteps refEval s u st l s' u' st' → Hist s' u' st' := by
      intro l s s' u u' st st' h0 h1
      induction h1 with
      | nil => exact h0
      | cons a _ ih => exact ih (.step h0 a)
    exact ⟨s, u, st, steps (.init (.init (.init mem true true true false false))) (runM_steps l hr),
      writesB_ok h'.1, h'.2⟩

@[inherit_doc greach'] theorem greach (l : List MOp) (P : Store → (Nat → Nat) → List Nat → Prop)
    [∀ s u st, Decidable (P s u st)]
    (h : (runM refEval l { mem := memIdx } (fun _ => 0) []).any (fun p =>
      writesB p.1 && decide (P p.1 p.2.1 p.2.2)) = true) :
    ∃ s u st, Hist s u st ∧ WritesOK s ∧ P s u st := greach' memIdx l P h

/-- An array 0..9 in memory (1), a counter of size 4 (2), the literals 5 (3) and true (4), the expression
`counter + 5` (5), an array of indices in memory (6), `index + 5` (7), and the literal 2 (8). -/
def gdemo : List MOp :=
  [.call (.memMap 1 .u32 64#64 10 false), .call (.counter 1 4), .call (.literal 1 .u32 5#64 1),
   .call (.literal 1 .bool 1#64 1), .call (.node2 1 .add .u32 4 false 2 3 0#64),
   .call (.memMap 1 .u32 128#64 4 false), .call (.node2 1 .add .u32 4 false 6 3 0#64),
   .call (.literal 1 .u32 2#64 1)]

/-- Gather from memory: a node. -/
example : ∃ s u st, Hist s u st ∧ WritesOK s ∧ (st = [] ∧ Args s u 1 2 4 ∧ gatherSize s 2 4 = 4 ∧
    got (refGather [] 1 2 4 s) (fun r s' => (s'.vars r).kind == .gather && (s'.vars r).size == 4) = true) :=
  greach gdemo (fun s u st => st = [] ∧ Args s u 1 2 4 ∧ gatherSize s 2 4 = 4 ∧
    got (refGather [] 1 2 4 s) (fun r s' => (s'.vars r).kind == .gather && (s'.vars r).size == 4) = true)
    (by decide +kernel)

/-- One entry is read from memory. -/
example : ∃ s u st, Hist s u st ∧ WritesOK s ∧ (st = [] ∧ Args s u 1 8 4 ∧
    got (refGather [] 1 8 4 s) (fun r s' => (s'.vars r).kind == .evaluated && (s'.vars r).size == 1 &&
      s'.mem (s'.vars r).literal 0 == 2#64) = true) :=
  greach gdemo (fun s u st => st = [] ∧ Args s u 1 8 4 ∧
    got (refGather [] 1 8 4 s) (fun r s' => (s'.vars r).kind == .evaluated && (s'.vars r).size == 1 &&
      s'.mem (s'.vars r).literal 0 == 2#64) = true)
    (by decide +kernel)

/-- The expression `counter + 5`, gathered with an array of indices, is rebuilt: the result is `index + 5`,
which exists already. -/
example : ∃ s u st, Hist s u st ∧ WritesOK s ∧ (st = [] ∧ Args s u 5 6 4 ∧
    got (refGather [] 5 6 4 s) (fun r _ => r == 7) = true) :=
  greach gdemo (fun s u st => st = [] ∧ Args s u 5 6 4 ∧
    got (refGather [] 5 6 4 s) (fun r _ => r == 7) = true)
    (by decide +kernel)

/-- Gather from an expression that depends on memory: it is evaluated. -/
example : ∃ s u st, Hist s u st ∧ WritesOK s ∧ (st = [] ∧ Args s u 7 6 4 ∧ (s.vars 7).kind = .add ∧
    got (refGather [] 7 6 4 s) (fun r s' => (s'.vars r).kind == .gather && (s'.vars 7).kind == .evaluated &&
      s'.mem (s'.vars 7).literal 3 == 8#64) = true) :=
  greach gdemo (fun s u st => st = [] ∧ Args s u 7 6 4 ∧ (s.vars 7).kind = .add ∧
    got (refGather [] 7 6 4 s) (fun r s' => (s'.vars r).kind == .gather && (s'.vars 7).kind == .evaluated &&
      s'.mem (s'.vars 7).literal 3 == 8#64) = true)
    (by decide +kernel)

/-- The index is the identity: the source itself is returned. -/
example : ∃ s u st, Hist s u st ∧ WritesOK s ∧ (st = [] ∧ Args s u 7 2 4 ∧
    got (refGather [] 7 2 4 s) (fun r _ => r == 7) = true) :=
  greach gdemo (fun s u st => st = [] ∧ Args s u 7 2 4 ∧ got (refGather [] 7 2 4 s) (fun r _ => r == 7) = true)
    (by decide +kernel)

/-- The source has one entry. -/
example : ∃ s u st, Hist s u st ∧ WritesOK s ∧ (st = [] ∧ Args s u 3 2 4 ∧
    got (refGather [] 3 2 4 s) (fun r s' => (s'.vars r).kind == .literal && (s'.vars r).literal == 5#64 &&
      (s'.vars r).size == 4) = true) :=
  greach gdemo (fun s u st => st = [] ∧ Args s u 3 2 4 ∧
    got (refGather [] 3 2 4 s) (fun r s' => (s'.vars r).kind == .literal && (s'.vars r).literal == 5#64 &&
      (s'.vars r).size == 4) = true) (by decide +kernel)

/-- A value: entry 3 of the gather from memory is 3. -/
example : ∃ s u s' r, Hist s u [] ∧ refGather [] 1 2 4 s = .ok r s' ∧ Gathers s u [] 1 2 4 s' r ∧
    GatherVal s [] 1 2 4 (gatherSize s 2 4) 3 3#64 ∧ ∀ x, Val s' r 3 x ↔ x = 3#64 := by
  obtain ⟨s, u, st, h, hw, rfl, ha, hg, h1, h2, h3, hz⟩ := greach gdemo (fun s u st => st = [] ∧ Args s u 1 2 4 ∧
    gatherSize s 2 4 = 4 ∧ ((s.vars 1).kind = .evaluated ∧ (s.vars 1).type = .u32 ∧ (s.vars 1).size = 10 ∧
      s.mem (s.vars 1).literal 3 = 3#64) ∧ ((s.vars 2).kind = .counter ∧ (s.vars 2).type = .u32) ∧
    ((s.vars 4).kind = .literal ∧ (s.vars 4).type = .bool ∧ (s.vars 4).literal = 1#64) ∧
    got (refGather [] 1 2 4 s) (fun _ _ => true) = true) (by decide +kernel)
  cases he : refGather [] 1 2 4 s with
  | ok r s' =>
    have G := refGather_ok h hw ha.ok he
    have gv : GatherVal s [] 1 2 4 (gatherSize s 2 4) 3 3#64 := by
      rw [hg]
      refine ⟨by omega, 3#64, ?_, .inl ⟨?_, fun t ht => (by cases ht.1), 3, ?_, by omega, ?_⟩⟩
      · have : Val s 2 3 _ := .counter h2.1
        rw [h2.2] at this; exact this
      · have : Val s 4 3 _ := .literal h3.1
        rw [h3.2.1, h3.2.2] at this; exact this
      · rw [h2.2]; decide
      · have : Val s 1 3 _ := .evaluated h1.1
        rw [h1.2.1, h1.2.2.1, if_neg (by decide), h1.2.2.2] at this; exact this
    exact ⟨s, u, s', r, h, he, G, gv, fun x => G.value 3 3#64 gv x⟩
  | raise s' => rw [he] at hz; cases hz
  | abort => rw [he] at hz; cases hz
  | stop r => rw [he] at hz; cases hz

/-- Memory with the entries 1, 2, 3, … -/
def memPos : BitVec 64 → Nat → BitVec 64 := fun _ i => BitVec.ofNat 64 (i + 1)

/-- The source `100 / gather(array)` (7), positions in memory (8), and the mask `position < 3` (10). -/
def ddemo : List MOp :=
  [.call (.memMap 1 .u32 64#64 10 false), .call (.pointer 1 64#64 1 false), .call (.counter 1 10),
   .call (.literal 1 .bool 1#64 1), .call (.literal 1 .u32 100#64 1),
   .call (.node3 1 .gather .u32 10 false 2 3 4 0#64),
   .call (.node2 1 .div .u32 10 false 5 6 0#64),
   .call (.memMap 1 .u32 128#64 10 false), .call (.literal 1 .u32 3#64 1),
   .call (.node2 1 .lt .bool 10 false 8 9 0#64)]

/-- **Masked lanes divide by zero.**  The arguments are admissible, and no entry of the array is zero.  The
gather from `100 / array` rebuilds the expression; masked lanes of the inner gather are zero, and
entry 5 of the result has no value, although its mask is not set.  (Hence `GatherVal` requires `Total`.) -/
theorem C40_masked_division : ∃ s u s' r, Hist s u [] ∧ WritesOK s ∧ GatherArgs s u [] 7 8 10 ∧
    refGather [] 7 8 10 s = .ok r s' ∧ (∀ l < 10, s.mem (s.vars 1).literal l ≠ 0#64) ∧ Val s 10 5 0#64 ∧
    ∀ x, ¬ Val s' r 5 x := by
  obtain ⟨s, u, st, h, hw, rfl, ha, hm, h8, h9, h10, hz⟩ := greach' memPos ddemo (fun s u st => st = [] ∧
    Args s u 7 8 10 ∧ (∀ l ∈ List.range 10, s.mem (s.vars 1).literal l ≠ 0#64) ∧
    ((s.vars 8).kind = .evaluated ∧ (s.vars 8).type = .u32 ∧ (s.vars 8).size = 10 ∧
      s.mem (s.vars 8).literal 5 = 6#64) ∧
    ((s.vars 9).kind = .literal ∧ (s.vars 9).type = .u32 ∧ (s.vars 9).literal = 3#64) ∧
    ((s.vars 10).kind = .lt ∧ (s.vars 10).type = .bool ∧ (s.vars 10).d0 = 8 ∧ (s.vars 10).d1 = 9 ∧
      (s.vars 10).writePtr = false) ∧
    got (refGather [] 7 8 10 s) (fun r s' => (s'.vars r).kind == .and && (s'.vars r).d0 != 0 &&
      !(s'.vars r).writePtr &&
      decide ((s'.vars (s'.vars r).d0).uid < 30) && interp s' 30 (s'.vars r).d0 5 == none) = true) (by decide +kernel)
  have v10 : Val s 10 5 0#64 := by
    refine .node2 (x := 6#64) (y := 3#64) h10.2.2.2.2 (by rw [h10.2.2.1]; decide) (by rw [h10.2.2.2.1]; decide) ?_ ?_ ?_
    · rw [h10.2.2.1]
      have : Val s 8 5 _ := .evaluated h8.1
      rw [h8.2.1, h8.2.2.1, if_neg (by decide), h8.2.2.2] at this; exact this
    · rw [h10.2.2.2.1]
      have : Val s 9 5 _ := .literal h9.1
      rw [h9.2.1, h9.2.2] at this; exact this
    · rw [h10.2.2.1, h10.2.2.2.1, h10.1, h10.2.1, h8.2.1, h9.2.1]; decide
  have hE := varEval_ok refEnv_ok refLaunch_ok
  cases he : refGather [] 7 8 10 s with
  | ok r s' =>
    refine ⟨s, u, s', r, h, hw, ha.ok, he, fun l hl => hm l (List.mem_range.2 hl), v10, fun x hx => ?_⟩
    obtain ⟨U, hI⟩ := greachable_inv refEval_ok hE refAlloc_ok (.gather h hw ha.ok he)
    rw [he] at hz
    simp only [got, Bool.and_eq_true, beq_iff_eq, bne_iff_ne, ne_eq, Bool.not_eq_true', decide_eq_true_eq] at hz
    obtain ⟨⟨⟨⟨z1, z2⟩, z3⟩, z4⟩, z5⟩ := hz
    have ar : Alive s' U r := (live_iff hI.2 r).1 (refGather_ok h hw ha.ok he).live
    have ad : Alive s' U (s'.vars r).d0 :=
      (hI.2.deps r ar _ (List.mem_append_left _ (by rw [refs_of z3]; simp)) z2).1
    have no : ∀ y, ¬ Val s' (s'.vars r).d0 5 y := by
      intro y hy
      have := interp_val hI.2 hy 30 ad z4
      rw [z5] at this
      cases this
    cases hx with
    | literal hk => rw [z1] at hk; cases hk
    | evaluated hk => rw [z1] at hk; cases hk
    | counter hk => rw [z1] at hk; cases hk
    | defaultMask hk => rw [z1] at hk; cases hk
    | gatherOff hk => rw [z1] at hk; cases hk
    | gatherOn hk => rw [z1] at hk; cases hk
    | node1 _ _ hv _ => exact no _ hv
    | node2 _ _ _ hv _ _ => exact no _ hv
    | node3 _ _ _ _ hv _ _ _ => exact no _ hv
  | raise s' => rw [he] at hz; cases hz
  | abort => rw [he] at hz; cases hz
  | stop r => rw [he] at hz; cases hz

end Verif.Jit
