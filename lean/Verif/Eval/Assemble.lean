import Verif.Eval.KernelProps

/-!
# Kernel parameters: the first half of `jitc_assemble` (C53)

Model of src/eval.cpp:349-560 (parameter slots, registers, output buffers) and of the
cleanup loop src/eval.cpp:1168-1218, as far as it stores the output buffers. Code
generation, Metal's visible function table and the counters used for log messages
are not modelled.
-/

namespace Verif.Eval.Asm

open Verif.Eval (SV)

inductive Backend where
  | cuda | llvm | metal
  deriving DecidableEq, Repr

/-- `ParamType` (src/internal.h). -/
inductive ParamType where
  | register | input | output
  deriving DecidableEq, Repr

/-- The fields of a variable that `jitc_assemble` reads. -/
structure Var where
  backend : Backend
  refCount : Nat
  size : Nat
  dirty : Bool
  scope : Nat
  dep : List Nat
  /-- `is_evaluated()`, with `v->data` -/
  evaluated : Option Nat
  outputFlag : Bool
  /-- `is_literal()` and type `Pointer`, with `v->literal` -/
  pointer : Option Nat
  /-- kind `Call` or `CallGetter` -/
  callBuffer : Bool
  /-- `type_size[v->type]` -/
  isize : Nat
  /-- `array_length` if `is_array()` -/
  arrayLength : Option Nat

inductive Err where
  | raise | fail
  deriving DecidableEq, Repr

/-- `kernel_params`, `kernel_param_ids`, `n_regs`, and what is written to the
variables: `param_type`, `param_offset`, `reg_index`, and `sv.data`. -/
structure St where
  params : List Nat
  ids : List Nat
  nRegs : Nat
  ptype : Nat → ParamType
  offset : Nat → Nat
  reg : Nat → Nat
  data : Nat → Nat
  /-- the sizes of the allocations made so far (for `jitc_malloc`) -/
  allocs : List (Nat × Nat)

def pointerSize : Nat := 8

/-- Function update. -/
def set {α : Type} (f : Nat → α) (i : Nat) (a : α) : Nat → α := fun j => if j = i then a else f j

/-- Reserved parameters (src/eval.cpp:386-400). -/
def init (b : Backend) (groupSize : Nat) : St where
  params := if b = .llvm then [0, 0, 0] else [groupSize]
  ids := []
  nRegs := if b = .cuda then 4 else 1
  ptype := fun _ => .register
  offset := fun _ => 0
  reg := fun _ => 0
  data := fun _ => 0
  allocs := []

/-- Size in bytes of an output buffer (src/eval.cpp:483-494). -/
def outputBytes (b : Backend) (width groupSize : Nat) (v : Var) : Nat :=
  let d0 := if b = .llvm then (groupSize + width - 1) / width * width else groupSize
  let d1 := match v.arrayLength with
    | some n => d0 * n
    | none => d0
  let d2 := d1 * v.isize
  if b = .llvm ∧ v.isize = 1 then d2 + (4 - v.isize) else d2

/-- The scope check for one operand list (src/eval.cpp:428-450). -/
def scopesOk (var : Nat → Option Var) (scope : Nat) : List Nat → Except Err Unit
  | [] => .ok ()
  | d :: ds =>
    if d = 0 then .ok ()
    else
      match var d with
      | none => .error .fail
      | some v2 => if v2.scope > scope then .error .raise else scopesOk var scope ds

/-- The sanity checks (src/eval.cpp:416-450). -/
def checks (var : Nat → Option Var) (b : Backend) (groupSize : Nat) (v : Var) : Except Err Unit :=
  if v.backend ≠ b then .error .raise
  else if v.refCount = 0 then .error .fail
  else if v.size ≠ 1 ∧ v.size ≠ groupSize then .error .fail
  else if v.dirty then .error .fail
  else scopesOk var v.scope v.dep

/-- One iteration of the loop over the group (src/eval.cpp:411-518). `malloc` stands
for `jitc_malloc`: it maps the history of allocations and a size to an address. -/
def stepVar (var : Nat → Option Var) (b : Backend) (width groupSize : Nat)
    (malloc : List (Nat × Nat) → Nat → Nat) (i : Nat) (s : St) : Except Err St :=
  match var i with
  | none => .error .fail
  | some v =>
    match checks var b groupSize v with
    | .error e => .error e
    | .ok _ =>
      let s := { s with
        offset := set s.offset i (s.params.length * pointerSize)
        reg := set s.reg i s.nRegs
        nRegs := s.nRegs + 1 }
      match v.evaluated with
      | some p => .ok { s with
          ptype := set s.ptype i .input, params := s.params ++ [p], ids := s.ids ++ [i] }
      | none =>
        if v.outputFlag ∧ v.size = groupSize then
          let n := outputBytes b width groupSize v
          let p := malloc s.allocs n
          .ok { s with
            ptype := set s.ptype i .output, params := s.params ++ [p], ids := s.ids ++ [i]
            data := set s.data i p, allocs := s.allocs ++ [(p, n)] }
        else
          match v.pointer with
          | some p => .ok { s with
              ptype := set s.ptype i .input, params := s.params ++ [p], ids := s.ids ++ [i] }
          | none => .ok { s with
              ptype := set s.ptype i .register, offset := set s.offset i 0xFFFF }

/-- The loop over the group. -/
def stepVars (var : Nat → Option Var) (b : Backend) (width groupSize : Nat)
    (malloc : List (Nat × Nat) → Nat → Nat) : List Nat → St → Except Err St
  | [], s => .ok s
  | i :: is, s =>
    match stepVar var b width groupSize malloc i s with
    | .error e => .error e
    | .ok s' => stepVars var b width groupSize malloc is s'

/-- `needs_call_buffer` (src/eval.cpp:456-457). -/
def needsCallBuffer (var : Nat → Option Var) (l : List Nat) : Bool :=
  l.any fun i => match var i with
    | some v => v.callBuffer
    | none => false

/-- The parameter that holds the call data (src/eval.cpp:523-553): the new variable
`base` gets the next register and slot. Its final value is stored by the code
generator (src/eval.cpp:617-619); `callData` is that value. -/
def addBase (base callData : Nat) (s : St) : St := { s with
  ptype := set s.ptype base .input
  reg := set s.reg base s.nRegs
  nRegs := s.nRegs + 1
  offset := set s.offset base (s.params.length * pointerSize)
  params := s.params ++ [callData]
  ids := s.ids ++ [base] }

/-- `jitc_assemble` up to the code generation. -/
def assemble (var : Nat → Option Var) (b : Backend) (width groupSize : Nat)
    (malloc : List (Nat × Nat) → Nat → Nat) (base callData : Nat) (l : List Nat) :
    Except Err St :=
  match stepVars var b width groupSize malloc l (init b groupSize) with
  | .error e => .error e
  | .ok s => if needsCallBuffer var l then .ok (addBase base callData s) else .ok s

/-! ## Specification -/

/-- Number of reserved slots. -/
def reserved : Backend → Nat
  | .llvm => 3
  | _ => 1

/-- First register that a variable may use. -/
def firstReg : Backend → Nat
  | .cuda => 4
  | _ => 1

/-- How a variable takes part in a kernel with `groupSize` threads. -/
inductive Role (groupSize : Nat) (v : Var) : ParamType → Prop where
  | evaluated {p} : v.evaluated = some p → Role groupSize v .input
  | pointer {p} : v.evaluated = none → ¬ (v.outputFlag = true ∧ v.size = groupSize) →
      v.pointer = some p → Role groupSize v .input
  | output : v.evaluated = none → v.outputFlag = true → v.size = groupSize →
      Role groupSize v .output
  | register : v.evaluated = none → ¬ (v.outputFlag = true ∧ v.size = groupSize) →
      v.pointer = none → Role groupSize v .register

structure SlotsOk (var : Nat → Option Var) (b : Backend) (groupSize : Nat) (l : List Nat)
    (s : St) : Prop where
  /-- the variables of the kernel use consecutive registers, in order -/
  regs : ∀ (k : Nat) (i : Nat), l[k]? = some i → s.reg i = firstReg b + k
  /-- each variable has the right role -/
  role : ∀ i ∈ l, ∃ v, var i = some v ∧ Role groupSize v (s.ptype i)
  /-- the table of ids lists the non-reserved slots, in order -/
  table : s.params.length = reserved b + s.ids.length
  ids : ∀ (m : Nat) (i : Nat), s.ids[m]? = some i → s.offset i = (reserved b + m) * pointerSize
  /-- exactly the inputs and outputs have a slot -/
  mem : ∀ i ∈ l, i ∈ s.ids ↔ s.ptype i ≠ .register
  only : ∀ i ∈ s.ids, i ∈ l
  nodup : s.ids.Nodup
  /-- the reserved slots keep their values -/
  fixed : s.params.take (reserved b) = (init b groupSize).params
  /-- the kernel receives the address of variable `i` in the slot of `i` -/
  passed : ∀ i ∈ l, s.ptype i ≠ .register → ∀ v, var i = some v → ∃ p,
    s.params[s.offset i / pointerSize]? = some p ∧
    ((s.ptype i = .output → p = s.data i) ∧
     (s.ptype i = .input → v.evaluated = some p ∨ v.pointer = some p))

/-! ## Proof -/

section
variable {var : Nat → Option Var} {b : Backend} {width groupSize : Nat}
  {malloc : List (Nat × Nat) → Nat → Nat}

/-- A step assigns the next register and either no slot or the next slot. -/
theorem stepVar_cases {i : Nat} {s s' : St}
    (h : stepVar var b width groupSize malloc i s = .ok s') :
    ∃ v, var i = some v ∧ checks var b groupSize v = .ok () ∧
      s'.reg = set s.reg i s.nRegs ∧ s'.nRegs = s.nRegs + 1 ∧
      Role groupSize v (s'.ptype i) ∧ (∀ j, j ≠ i → s'.ptype j = s.ptype j) ∧
      (∀ j, j ≠ i → s'.offset j = s.offset j ∧ s'.data j = s.data j) ∧
      ((s'.ptype i = .register ∧ s'.params = s.params ∧ s'.ids = s.ids ∧
          s'.allocs = s.allocs) ∨
       (s'.ptype i ≠ .register ∧ s'.offset i = s.params.length * pointerSize ∧
        s'.ids = s.ids ++ [i] ∧ ∃ p, s'.params = s.params ++ [p] ∧
        ((s'.ptype i = .output → p = s'.data i ∧
            s'.allocs = s.allocs ++ [(p, outputBytes b width groupSize v)] ∧
            p = malloc s.allocs (outputBytes b width groupSize v)) ∧
         (s'.ptype i = .input → (v.evaluated = some p ∨ v.pointer = some p) ∧
            s'.allocs = s.allocs)))) := by
  unfold stepVar at h
  cases hv : var i with
  | none => rw [hv] at h; simp at h
  | some v =>
    rw [hv] at h
    dsimp only at h
    cases hc : checks var b groupSize v with
    | error e => rw [hc] at h; simp at h
    | ok u =>
      rw [hc] at h
      dsimp only at h
      refine ⟨v, rfl, hc, ?_⟩
      cases he : v.evaluated with
      | some p =>
        rw [he] at h
        simp only [Except.ok.injEq] at h
        subst h
        refine ⟨rfl, rfl, ?_, ?_, ?_, Or.inr ⟨?_, ?_, rfl, p, rfl, ?_, ?_⟩⟩
        · simp only [set, if_true]; exact .evaluated he
        · intro j hj; simp [set, hj]
        · intro j hj; simp [set, hj]
        · simp [set]
        · simp [set]
        · simp [set]
        · intro _; exact ⟨Or.inl rfl, rfl⟩
      | none =>
        rw [he] at h
        dsimp only at h
        split_ifs at h with ho
        · simp only [Except.ok.injEq] at h
          subst h
          refine ⟨rfl, rfl, ?_, ?_, ?_, Or.inr ⟨?_, ?_, rfl, _, rfl, ?_, ?_⟩⟩
          · simp only [set, if_true]; exact .output he ho.1 ho.2
          · intro j hj; simp [set, hj]
          · intro j hj; simp [set, hj]
          · simp [set]
          · simp [set]
          · intro _; exact ⟨by simp [set], rfl, rfl⟩
          · simp [set]
        · cases hp : v.pointer with
          | some p =>
            rw [hp] at h
            simp only [Except.ok.injEq] at h
            subst h
            refine ⟨rfl, rfl, ?_, ?_, ?_, Or.inr ⟨?_, ?_, rfl, p, rfl, ?_, ?_⟩⟩
            · simp only [set, if_true]; exact .pointer he ho hp
            · intro j hj; simp [set, hj]
            · intro j hj; simp [set, hj]
            · simp [set]
            · simp [set]
            · simp [set]
            · intro _; exact ⟨Or.inr rfl, rfl⟩
          | none =>
            rw [hp] at h
            simp only [Except.ok.injEq] at h
            subst h
            refine ⟨rfl, rfl, ?_, ?_, ?_, Or.inl ⟨?_, rfl, rfl, rfl⟩⟩
            · simp only [set, if_true]; exact .register he ho hp
            · intro j hj; simp [set, hj]
            · intro j hj; simp [set, hj]
            · simp [set]

theorem init_ok : SlotsOk var b groupSize [] (init b groupSize) := by
  refine ⟨by simp, by simp, ?_, by simp [init], by simp, by simp [init], by simp [init], ?_, by simp⟩
  · cases b <;> simp [init, reserved]
  · cases b <;> simp [init, reserved]

theorem stepVar_ok {l : List Nat} {s s' : St} {i : Nat} (hi : i ∉ l)
    (hs : SlotsOk var b groupSize l s) (hn : s.nRegs = firstReg b + l.length)
    (h : stepVar var b width groupSize malloc i s = .ok s') :
    SlotsOk var b groupSize (l ++ [i]) s' ∧ s'.nRegs = firstReg b + (l ++ [i]).length := by
  obtain ⟨v, hv, hc, hreg, hnr, hrole, hpt, hoff, hcase⟩ := stepVar_cases h
  have hne : ∀ j ∈ l, j ≠ i := fun j hj he => hi (he ▸ hj)
  have hiids : i ∉ s.ids := fun hc => hi (hs.only i hc)
  have hidsne : ∀ j ∈ s.ids, j ≠ i := fun j hj he => hiids (he ▸ hj)
  refine ⟨⟨?_, ?_, ?_, ?_, ?_, ?_, ?_, ?_, ?_⟩, by rw [hnr, hn]; simp; omega⟩
  · intro k j hk
    rw [hreg]
    by_cases hkl : k < l.length
    · rw [List.getElem?_append_left hkl] at hk
      have hj : j ∈ l := List.mem_of_getElem? hk
      simp only [set, if_neg (hne j hj)]
      exact hs.regs k j hk
    · rw [List.getElem?_append_right (by omega)] at hk
      have hk0 : k - l.length = 0 := by
        by_contra hcc
        rw [List.getElem?_eq_none (by simp; omega)] at hk
        simp at hk
      rw [hk0] at hk
      simp only [List.getElem?_cons_zero, Option.some.injEq] at hk
      subst hk
      simp only [set, if_true, hn]
      omega
  · intro j hj
    rcases List.mem_append.1 hj with hj | hj
    · obtain ⟨w, hw, hr⟩ := hs.role j hj
      exact ⟨w, hw, by rw [hpt j (hne j hj)]; exact hr⟩
    · rw [List.mem_singleton.1 hj]
      exact ⟨v, hv, hrole⟩
  · rcases hcase with ⟨_, hp, hids, _⟩ | ⟨_, _, hids, p, hp, _⟩
    · rw [hp, hids]; exact hs.table
    · rw [hp, hids, List.length_append, List.length_append, hs.table]
      simp; omega
  · intro m j hm
    rcases hcase with ⟨_, _, hids, _⟩ | ⟨_, ho, hids, p, _, _⟩
    · rw [hids] at hm
      rw [(hoff j (hidsne j (List.mem_of_getElem? hm))).1]
      exact hs.ids m j hm
    · rw [hids] at hm
      by_cases hml : m < s.ids.length
      · rw [List.getElem?_append_left hml] at hm
        rw [(hoff j (hidsne j (List.mem_of_getElem? hm))).1]
        exact hs.ids m j hm
      · rw [List.getElem?_append_right (by omega)] at hm
        have hm0 : m - s.ids.length = 0 := by
          by_contra hcc
          rw [List.getElem?_eq_none (by simp; omega)] at hm
          simp at hm
        rw [hm0] at hm
        simp only [List.getElem?_cons_zero, Option.some.injEq] at hm
        subst hm
        rw [ho, hs.table]
        congr 2
        omega
  · intro j hj
    rcases List.mem_append.1 hj with hj | hj
    · rw [hpt j (hne j hj), ← hs.mem j hj]
      rcases hcase with ⟨_, _, hids, _⟩ | ⟨_, _, hids, _⟩
      · rw [hids]
      · rw [hids]; simp [hne j hj]
    · rw [List.mem_singleton.1 hj]
      rcases hcase with ⟨h1, _, hids, _⟩ | ⟨h1, _, hids, _⟩
      · rw [hids]; simp [hiids, h1]
      · rw [hids]; simp [h1]
  · intro j hj
    rcases hcase with ⟨_, _, hids, _⟩ | ⟨_, _, hids, _⟩
    · rw [hids] at hj
      exact List.mem_append_left _ (hs.only j hj)
    · rw [hids] at hj
      rcases List.mem_append.1 hj with hj | hj
      · exact List.mem_append_left _ (hs.only j hj)
      · exact List.mem_append_right _ hj
  · rcases hcase with ⟨_, _, hids, _⟩ | ⟨_, _, hids, _⟩
    · rw [hids]; exact hs.nodup
    · rw [hids, List.nodup_append]
      refine ⟨hs.nodup, by simp, ?_⟩
      intro a ha c hc'
      rw [List.mem_singleton.1 hc']
      exact hidsne a ha
  · rcases hcase with ⟨_, hp, _⟩ | ⟨_, _, _, p, hp, _⟩
    · rw [hp]; exact hs.fixed
    · rw [hp, List.take_append_of_le_length (by rw [hs.table]; omega)]
      exact hs.fixed
  · intro j hj hjr w hw
    rcases List.mem_append.1 hj with hj | hj
    · rw [hpt j (hne j hj)] at hjr ⊢
      rw [(hoff j (hne j hj)).1, (hoff j (hne j hj)).2]
      obtain ⟨p, hp1, hp2⟩ := hs.passed j hj hjr w hw
      refine ⟨p, ?_, hp2⟩
      rcases hcase with ⟨_, hp, _⟩ | ⟨_, _, _, q, hp, _⟩
      · rw [hp]; exact hp1
      · rw [hp]
        rw [List.getElem?_append_left]
        · exact hp1
        · by_contra hcc
          rw [List.getElem?_eq_none (by omega)] at hp1
          simp at hp1
    · have hji := List.mem_singleton.1 hj
      subst hji
      have hwv : w = v := by rw [hv] at hw; exact (Option.some.inj hw).symm
      subst hwv
      rcases hcase with ⟨h1, _⟩ | ⟨_, ho, _, p, hp, hout, hin⟩
      · exact absurd h1 hjr
      · refine ⟨p, ?_, fun h => (hout h).1, fun h => (hin h).1⟩
        rw [ho, hp, Nat.mul_div_cancel _ (by decide : 0 < pointerSize)]
        simp

theorem stepVars_ok {rest : List Nat} : ∀ {l : List Nat} {s s' : St}, (l ++ rest).Nodup →
    SlotsOk var b groupSize l s → s.nRegs = firstReg b + l.length →
    stepVars var b width groupSize malloc rest s = .ok s' →
    SlotsOk var b groupSize (l ++ rest) s' ∧ s'.nRegs = firstReg b + (l ++ rest).length := by
  induction rest with
  | nil =>
    intro l s s' _ hs hn h
    simp only [stepVars, Except.ok.injEq] at h
    subst h
    simpa using ⟨hs, hn⟩
  | cons i rest ih =>
    intro l s s' hnd hs hn h
    unfold stepVars at h
    cases hst : stepVar var b width groupSize malloc i s with
    | error e => rw [hst] at h; simp at h
    | ok s1 =>
      rw [hst] at h
      dsimp only at h
      have hi : i ∉ l := by
        intro hc
        exact (List.nodup_append.1 hnd).2.2 i hc i (by simp) rfl
      obtain ⟨h1, h2⟩ := stepVar_ok hi hs hn hst
      have := ih (l := l ++ [i]) (by simpa using hnd) h1 h2 h
      simpa using this

/-- **C53.** Assembling a kernel with the variables `l` (without repetition):

* the variables use consecutive registers, all different;
* inputs and outputs have one slot each, all different, none of them reserved, and
  the table `ids` names the variable of each non-reserved slot;
* the kernel receives in the slot of a variable the address of its data (inputs),
  of its newly allocated buffer (outputs) or its literal value (pointers);
* reserved slots keep their values;
* if calls need it, the last slot and register belong to the call data. -/
theorem C53_slots {l : List Nat} (hl : l.Nodup) {base callData : Nat} (hb : base ∉ l)
    {s : St} (h : assemble var b width groupSize malloc base callData l = .ok s) :
    ∃ l', (l' = if needsCallBuffer var l then l ++ [base] else l) ∧
      (∀ (k : Nat) (i : Nat), l'[k]? = some i → s.reg i = firstReg b + k) ∧
      s.params.length = reserved b + s.ids.length ∧
      s.params.take (reserved b) = (init b groupSize).params ∧
      s.ids.Nodup ∧
      (∀ i, i ∈ s.ids ↔ i ∈ l' ∧ s.ptype i ≠ .register) ∧
      (∀ (m : Nat) (i : Nat), s.ids[m]? = some i → s.offset i = (reserved b + m) * pointerSize) ∧
      (∀ i ∈ l, ∃ v, var i = some v ∧ Role groupSize v (s.ptype i) ∧
        (s.ptype i ≠ .register → ∃ p, s.params[s.offset i / pointerSize]? = some p ∧
          (s.ptype i = .output → p = s.data i) ∧
          (s.ptype i = .input → v.evaluated = some p ∨ v.pointer = some p))) ∧
      (needsCallBuffer var l = true →
        s.params[s.offset base / pointerSize]? = some callData ∧ base ∈ s.ids) := by
  unfold assemble at h
  cases hst : stepVars var b width groupSize malloc l (init b groupSize) with
  | error e => rw [hst] at h; simp at h
  | ok s1 =>
    rw [hst] at h
    dsimp only at h
    obtain ⟨hS, hn⟩ := stepVars_ok (l := []) (by simpa using hl) init_ok
      (by cases b <;> simp [init, firstReg]) hst
    rw [List.nil_append] at hS hn
    refine ⟨_, rfl, ?_⟩
    by_cases hc : needsCallBuffer var l = true
    · rw [if_pos hc] at h ⊢
      simp only [Except.ok.injEq] at h
      subst h
      have hbids : base ∉ s1.ids := fun h => hb (hS.only _ h)
      have hne : ∀ j ∈ l, j ≠ base := fun j hj he => hb (he ▸ hj)
      refine ⟨?_, ?_, ?_, ?_, ?_, ?_, ?_, ?_⟩
      · intro k j hk
        by_cases hkl : k < l.length
        · rw [List.getElem?_append_left hkl] at hk
          have hj : j ∈ l := List.mem_of_getElem? hk
          simp only [addBase, set, if_neg (hne j hj)]
          exact hS.regs k j hk
        · rw [List.getElem?_append_right (by omega)] at hk
          have hk0 : k - l.length = 0 := by
            by_contra hcc
            rw [List.getElem?_eq_none (by simp; omega)] at hk
            simp at hk
          rw [hk0] at hk
          simp only [List.getElem?_cons_zero, Option.some.injEq] at hk
          subst hk
          simp only [addBase, set, if_true, hn]
          omega
      · simp only [addBase, List.length_append, hS.table]
        simp; omega
      · simp only [addBase]
        rw [List.take_append_of_le_length (by rw [hS.table]; omega)]
        exact hS.fixed
      · simp only [addBase]
        rw [List.nodup_append]
        refine ⟨hS.nodup, by simp, ?_⟩
        intro a ha c hc'
        rw [List.mem_singleton.1 hc']
        exact fun he => hbids (he ▸ ha)
      · intro j
        simp only [addBase, List.mem_append, List.mem_singleton, set]
        by_cases hj : j = base
        · simp [hj]
        · simp only [hj, or_false, if_false]
          constructor
          · intro hm; exact ⟨hS.only j hm, (hS.mem j (hS.only j hm)).1 hm⟩
          · rintro ⟨h1, h2⟩; exact (hS.mem j h1).2 h2
      · intro m j hm
        simp only [addBase] at hm ⊢
        by_cases hml : m < s1.ids.length
        · rw [List.getElem?_append_left hml] at hm
          have hj : j ≠ base := fun he => hbids (he ▸ List.mem_of_getElem? hm)
          simp only [set, if_neg hj]
          exact hS.ids m j hm
        · rw [List.getElem?_append_right (by omega)] at hm
          have hm0 : m - s1.ids.length = 0 := by
            by_contra hcc
            rw [List.getElem?_eq_none (by simp; omega)] at hm
            simp at hm
          rw [hm0] at hm
          simp only [List.getElem?_cons_zero, Option.some.injEq] at hm
          subst hm
          simp only [set, if_true]
          rw [hS.table]
          congr 2
          omega
      · intro j hj
        obtain ⟨v, hv, hr⟩ := hS.role j hj
        simp only [addBase, set, if_neg (hne j hj)]
        refine ⟨v, hv, hr, ?_⟩
        intro hnr
        obtain ⟨p, hp1, hp2⟩ := hS.passed j hj hnr v hv
        refine ⟨p, ?_, hp2⟩
        rw [List.getElem?_append_left]
        · exact hp1
        · by_contra hcc
          rw [List.getElem?_eq_none (by omega)] at hp1
          simp at hp1
      · intro _
        simp only [addBase, set, if_true]
        rw [Nat.mul_div_cancel _ (by decide : 0 < pointerSize)]
        simp
    · rw [if_neg hc] at h ⊢
      simp only [Except.ok.injEq] at h
      subst h
      refine ⟨hS.regs, hS.table, hS.fixed, hS.nodup, ?_, hS.ids, ?_, fun h => absurd h hc⟩
      · intro j
        constructor
        · intro hm; exact ⟨hS.only j hm, (hS.mem j (hS.only j hm)).1 hm⟩
        · rintro ⟨h1, h2⟩; exact (hS.mem j h1).2 h2
      · intro j hj
        obtain ⟨v, hv, hr⟩ := hS.role j hj
        exact ⟨v, hv, hr, fun hnr => hS.passed j hj hnr v hv⟩

/-- Two variables never share a slot. -/
theorem C53_slots_differ {l : List Nat} (hl : l.Nodup) {base callData : Nat} (hb : base ∉ l)
    {s : St} (h : assemble var b width groupSize malloc base callData l = .ok s)
    {i j : Nat} (hi : i ∈ s.ids) (hj : j ∈ s.ids) (hij : i ≠ j) :
    s.offset i ≠ s.offset j ∧ reserved b * pointerSize ≤ s.offset i ∧
    s.offset i + pointerSize ≤ s.params.length * pointerSize := by
  obtain ⟨l', _, _, htab, _, hnd, _, hids, _⟩ := C53_slots hl hb h
  obtain ⟨m, hm⟩ := List.mem_iff_getElem?.1 hi
  obtain ⟨n, hn⟩ := List.mem_iff_getElem?.1 hj
  rw [hids m i hm, hids n j hn, htab]
  have hml : m < s.ids.length := by
    by_contra hcc
    rw [List.getElem?_eq_none (by omega)] at hm
    simp at hm
  refine ⟨?_, ?_, ?_⟩
  · intro he
    have : m = n := by unfold pointerSize at he; omega
    subst this
    rw [hm] at hn
    exact hij (Option.some.inj hn)
  · unfold pointerSize; omega
  · unfold pointerSize; omega

/-- **C53, operands.** A kernel that passes the checks only uses operands of its
own or an older scope, and only variables whose size is 1 or that of the kernel; no
variable has pending writes. -/
theorem C53_checks {l : List Nat} {base callData : Nat} {s : St}
    (h : assemble var b width groupSize malloc base callData l = .ok s) :
    ∀ i ∈ l, ∃ v, var i = some v ∧ v.backend = b ∧ v.refCount ≠ 0 ∧ v.dirty = false ∧
      (v.size = 1 ∨ v.size = groupSize) ∧
      ∀ d ∈ v.dep.takeWhile (· ≠ 0), ∃ v2, var d = some v2 ∧ v2.scope ≤ v.scope := by
  have hscopes : ∀ (ds : List Nat) (sc : Nat), scopesOk var sc ds = .ok () →
      ∀ d ∈ ds.takeWhile (· ≠ 0), ∃ v2, var d = some v2 ∧ v2.scope ≤ sc := by
    intro ds sc
    induction ds with
    | nil => simp
    | cons d ds ih =>
      intro hok e he
      unfold scopesOk at hok
      by_cases hd : d = 0
      · rw [List.takeWhile_cons, if_neg (by simp [hd])] at he
        simp at he
      · rw [if_neg hd] at hok
        rw [List.takeWhile_cons, if_pos (by simp [hd])] at he
        cases hv : var d with
        | none => rw [hv] at hok; simp at hok
        | some v2 =>
          rw [hv] at hok
          dsimp only at hok
          split_ifs at hok with hsc
          rcases List.mem_cons.1 he with rfl | he
          · exact ⟨v2, hv, by omega⟩
          · exact ih hok e he
  have hall : ∀ (rest : List Nat) (s s' : St),
      stepVars var b width groupSize malloc rest s = .ok s' → ∀ i ∈ rest, ∃ v, var i = some v ∧
        checks var b groupSize v = .ok () := by
    intro rest
    induction rest with
    | nil => simp
    | cons j rest ih =>
      intro s s' h i hi
      unfold stepVars at h
      cases hst : stepVar var b width groupSize malloc j s with
      | error e => rw [hst] at h; simp at h
      | ok s1 =>
        rw [hst] at h
        dsimp only at h
        rcases List.mem_cons.1 hi with rfl | hi
        · obtain ⟨v, hv, hc, _⟩ := stepVar_cases hst
          exact ⟨v, hv, hc⟩
        · exact ih s1 s' h i hi
  unfold assemble at h
  cases hst : stepVars var b width groupSize malloc l (init b groupSize) with
  | error e => rw [hst] at h; simp at h
  | ok s1 =>
    intro i hi
    obtain ⟨v, hv, hc⟩ := hall l _ _ hst i hi
    refine ⟨v, hv, ?_⟩
    unfold checks at hc
    split_ifs at hc with h1 h2 h3 h4
    refine ⟨by simpa using h1, h2, by simpa using h4, ?_, hscopes _ _ hc⟩
    by_contra hcc
    push Not at hcc
    exact h3 hcc

/-- **C53, capacity.** Every output buffer holds one element per thread. On the CPU
it holds full vectors, and a 4-byte access to any element of a byte array stays
inside. -/
theorem C53_capacity {width groupSize : Nat} (hw : 0 < width) (v : Var) (ha : v.arrayLength ≠ some 0) :
    groupSize * v.isize ≤ outputBytes b width groupSize v ∧
    (b = .llvm → ∀ k, k * width < groupSize → (k + 1) * width * v.isize ≤
      outputBytes b width groupSize v) ∧
    (b = .llvm → v.isize = 1 → ∀ k, k < groupSize → k + 4 ≤ outputBytes b width groupSize v) := by
  have hround : groupSize ≤ (groupSize + width - 1) / width * width := by
    have := Nat.div_add_mod (groupSize + width - 1) width
    have h2 := Nat.mod_lt (groupSize + width - 1) hw
    rw [Nat.mul_comm] at this
    omega
  have hpack : ∀ k, k * width < groupSize →
      (k + 1) * width ≤ (groupSize + width - 1) / width * width := by
    intro k hk
    apply Nat.mul_le_mul_right
    rw [Nat.le_div_iff_mul_le hw, Nat.add_mul]
    omega
  have hlen : ∀ d : Nat, d ≤ (match v.arrayLength with | some n => d * n | none => d) := by
    intro d
    cases hal : v.arrayLength with
    | none => exact le_refl _
    | some n =>
      have : 0 < n := by
        rcases Nat.eq_zero_or_pos n with h0 | h0
        · subst h0; exact absurd hal ha
        · exact h0
      exact Nat.le_mul_of_pos_right _ this
  have hgen : ∀ (d0 x : Nat), x ≤ d0 →
      x * v.isize ≤ (match v.arrayLength with | some n => d0 * n | none => d0) * v.isize :=
    fun d0 x hx => Nat.mul_le_mul_right _ (le_trans hx (hlen d0))
  refine ⟨?_, ?_, ?_⟩
  · unfold outputBytes
    dsimp only
    by_cases hb : b = .llvm
    · have := hgen _ _ hround
      simp only [hb, if_true, true_and]
      split_ifs <;> omega
    · have := hgen _ _ (le_refl groupSize)
      simp only [hb, if_false, false_and]
      exact this
  · intro hb k hk
    have := hgen _ _ (hpack k hk)
    unfold outputBytes
    dsimp only
    simp only [hb, if_true, true_and]
    split_ifs <;> omega
  · intro hb h1 k hk
    have := hgen _ _ hround
    unfold outputBytes
    dsimp only
    simp only [hb, if_true, true_and, h1]
    rw [h1] at this
    omega

end

/-! ## A concrete kernel -/

def demoVar : Nat → Option Var
  | 1 => some ⟨.llvm, 1, 10, false, 2, [0, 0, 0, 0], some 5000, false, none, false, 4, none⟩
  | 2 => some ⟨.llvm, 1, 1, false, 1, [0, 0, 0, 9], none, false, some 7000, false, 8, none⟩
  | 3 => some ⟨.llvm, 1, 10, false, 4, [1, 0, 0, 0], none, false, none, true, 4, none⟩
  | 4 => some ⟨.llvm, 2, 10, false, 4, [3, 1, 0, 0], none, true, none, false, 1, none⟩
  | 5 => some ⟨.llvm, 1, 10, false, 4, [2, 4, 3, 0], none, false, none, false, 0, none⟩
  | _ => none

def demoAsm : Except Err St :=
  assemble demoVar .llvm 8 10 (fun h n => 10000 + 100 * h.length + n) 99 12345 [2, 1, 3, 4, 5]

/-- Reserved slots, pointer, input array, output buffer (16 elements and 3 bytes of
padding), call data. -/
example : demoAsm.toOption.map (fun s => (s.params, s.ids, s.offset 4, s.reg 5)) =
    some ([0, 0, 0, 7000, 5000, 10019, 12345], [2, 1, 4, 99], 40, 5) := by
  decide

end Verif.Eval.Asm
