import Verif.Eval.KernelProps

/-!
# What a recorded function call captures (C71): model

Model of `jitc_var_call_analyze` (src/call.cpp:989-1096) and its use in
`jitc_var_call` (src/call.cpp:472-526), of `jitc_call_bind_slots` and
`jitc_call_slot_rel_offset` (src/call.cpp:121-153), of the selection of inputs and
outputs in `jitc_var_call_assemble` (src/call.cpp:864-917), and of
`jitc_assemble_func` (src/eval.cpp) with the LLVM backend's function signature and
function body (`jitc_llvm_assemble_func`, src/llvm_eval.cpp:332-530).

The traversal that selects the variables of a function body is the one of
`Verif.Eval` (`jitc_var_traverse`).
-/

namespace Verif.Capture

open Verif.Eval (SV TS)

/-- A loop state variable: the `outer_in`, `inner_in` and `inner_out` fields of
`LoopData` (src/loop.h), which are parallel arrays there. -/
structure Entry where
  outerIn : Nat
  innerIn : Nat
  innerOut : Nat
  deriving DecidableEq, Repr

/-- The `use_...` fields of `CallData` (src/call.h), apart from `use_optix`. -/
structure Uses where
  self : Bool := false
  index : Bool := false
  thread : Bool := false
  nested : Bool := false
  deriving DecidableEq, Repr

/-- `CallData` (src/call.h:40-215). `innerOut`, `sideEffects` and `slots` are listed
per instance; the code concatenates them. `outerOut` contains the weak references
that still resolve. -/
structure CallData where
  optimize : Bool
  outerIn : List Nat
  innerIn : List Nat
  outerOut : List (Option Nat)
  innerOut : List (List Nat)
  sideEffects : List (List Nat)
  uses : Uses
  slots : List (List Nat)
  deriving DecidableEq, Repr

/-- The parts of a variable's kind and payload that steer the analysis or the
traversal. `plain` stands for every kind without a case of its own. -/
inductive Kind where
  | plain
  | literal
  | evaluated
  | callSelf
  | counter
  | threadIndex
  | callInput
  | call (data : CallData)
  /-- `CallOutput`; `k` is the number of the output. -/
  | callOutput (k : Nat)
  | callGetter
  /-- `LoopStart`; its data is null if the loop was optimized away. -/
  | loopStart (data : Option (List Entry))
  | loopCond
  | loopPhi (k : Nat)
  | loopOutput (k : Nat)
  | packetScatter (values : List Nat)
  | coopVecPack (indices : List Nat)
  | traceRay (indices : List Nat)
  /-- The texture operations with the operands that are referenced out-of-band. -/
  | texture (operands : List Nat)
  | scatterCas (mask : Nat)
  | scatter (target : Nat)
  | arrayWrite (buffer : Nat)
  deriving DecidableEq, Repr

/-- A variable. `ptr`: its type is `Pointer`. -/
structure Node where
  kind : Kind
  dep : List Nat := [0, 0, 0, 0]
  ptr : Bool := false
  size : Nat := 1
  scope : Nat := 2
  consumed : Bool := false
  deriving DecidableEq, Repr

abbrev Graph := Nat → Option Node

inductive Err where
  /-- `jitc_raise`. -/
  | raise
  /-- `jitc_fail`: the process is aborted. -/
  | fail
  /-- A null pointer is dereferenced. -/
  | crash
  /-- The generated code uses a name that is not declared. -/
  | undeclared
  /-- The recursion bound of the model was hit. -/
  | fuel
  deriving DecidableEq, Repr

/-- Operands up to the first empty one. -/
def Node.deps (nd : Node) : List Nat := nd.dep.takeWhile (· ≠ 0)

/-- `(LoopData *) jitc_var(v->dep[0])->data`. -/
def loopOf (g : Graph) (nd : Node) : Option (Option (List Entry)) :=
  match g (nd.dep.headD 0) with
  | some ⟨.loopStart data, _, _, _, _, _⟩ => some data
  | _ => none

/-- `(CallData *) jitc_var(v->dep[0])->data`. -/
def callOf (g : Graph) (nd : Node) : Option CallData :=
  match g (nd.dep.headD 0) with
  | some ⟨.call data, _, _, _, _, _⟩ => some data
  | _ => none

/-! ## The view of `jitc_var_traverse` -/

/-- The kind as seen by the traversal (src/eval.cpp:175-318). -/
def viewKind (g : Graph) (nd : Node) : Option Eval.Kind :=
  match nd.kind with
  | .callInput => some .callInput
  | .call d => some (.call d.optimize d.outerIn d.innerOut.flatten d.sideEffects.flatten)
  | .callOutput k =>
    match callOf g nd with
    | some d => some (.callOutput (d.innerOut.map (·.getD k 0)))
    | none => none
  | .loopPhi k =>
    match loopOf g nd with
    | some (some l) =>
      match l[k]? with
      | some e => some (.loopPhi (some (e.outerIn, e.innerOut)))
      | none => none
    | some none => some (.loopPhi none)
    | none => none
  | .loopOutput k =>
    match loopOf g nd with
    | some (some l) =>
      match l[k]? with
      | some e => some (.loopOutput (some (e.innerOut, e.outerIn, e.innerIn)))
      | none => none
    | some none => some (.loopOutput none)
    | none => none
  | .packetScatter l => some (.extra l)
  | .coopVecPack l => some (.coopVecPack l)
  | .traceRay l => some (.extra l)
  | .texture l => some (.extra l)
  | .scatterCas m => some (.extra [m])
  | .scatter t => some (.scatter t)
  | .arrayWrite b => some (.arrayWrite b)
  | _ => some .plain

/-- The graph as seen by the traversal. -/
def view (g : Graph) (i : Nat) : Option Eval.Node :=
  match g i with
  | none => none
  | some nd =>
    match viewKind g nd with
    | none => none
    | some k => some ⟨k, nd.dep, nd.scope, nd.size, nd.consumed⟩

/-! ## The analysis when the call is recorded -/

/-- State of the analysis: visit stamps, the captured variables of the current
instance, and the flags of the call. -/
structure St where
  gen : Eval.Gen.St
  slots : List Nat
  uses : Uses

/-- The kinds that reach the last branch (src/call.cpp:1074). -/
def Kind.other : Kind → Bool
  | .callSelf | .counter | .threadIndex | .callInput | .call _ | .callGetter | .loopCond
  | .packetScatter _ | .coopVecPack _ | .traceRay _ | .texture _ => false
  | _ => true

/-- Is the variable captured? (src/call.cpp:1074) -/
def captured (nd : Node) : Bool :=
  nd.kind.other && (nd.kind == .evaluated || nd.ptr)

/-- The flags set by a variable (src/call.cpp:1004-1027). -/
def noteUses (u : Uses) (k : Kind) : Uses :=
  match k with
  | .callSelf => { u with self := true }
  | .counter => { u with index := true }
  | .threadIndex => { u with thread := true }
  | .call d =>
    { self := u.self || d.uses.self, index := u.index || d.uses.index,
      thread := u.thread || d.uses.thread, nested := true }
  | .callGetter => { u with nested := true }
  | _ => u

/-- The loop state of a `LoopCond` (src/call.cpp:1028-1044): entries that were
eliminated from the state are skipped. -/
def loopVisits (l : List Entry) : List Nat :=
  l.flatMap fun e => if e.outerIn = e.innerIn then [] else [e.innerOut, e.outerIn]

/-- The kind-specific visits (src/call.cpp:1010-1073). -/
def extraVisits (g : Graph) (nd : Node) : Except Err (List Nat) :=
  match nd.kind with
  | .call d => .ok d.outerIn
  | .loopCond =>
    match loopOf g nd with
    | some (some l) => .ok (loopVisits l)
    | some none => .error .crash
    | none => .error .fail
  | .packetScatter l => .ok l
  | .coopVecPack l => .ok l
  | .traceRay l => .ok l
  | .texture l => .ok l
  | _ => .ok []

/-- Visit the variables of a list in order. -/
def visitAll (rec : Nat → St → Except Err St) : List Nat → St → Except Err St
  | [], s => .ok s
  | i :: is, s =>
    match rec i s with
    | .ok s' => visitAll rec is s'
    | .error e => .error e

/-- The stamp, the flags and the slot of a newly visited variable
(src/call.cpp:995-1027, 1077-1078). -/
def enter (i : Nat) (nd : Node) (s : St) : St where
  gen := Eval.Gen.analyze s.gen i
  uses := noteUses s.uses nd.kind
  slots := if captured nd then s.slots ++ [i] else s.slots

/-- `jitc_var_call_analyze` (src/call.cpp:989-1096). The first argument bounds the
recursion, see `ana_terminates`. -/
def ana (g : Graph) : Nat → Nat → St → Except Err St
  | 0, _, _ => .error .fuel
  | f + 1, i, s =>
    match g i with
    | none => .error .fail
    | some nd =>
      if Eval.Gen.analyzeSkips s.gen i then .ok s
      else if nd.kind = .callInput then .ok (enter i nd s)
      else if captured nd ∧ nd.size ≠ 1 then .error .raise
      else
        match extraVisits g nd with
        | .error e => .error e
        | .ok l => visitAll (ana g f) (l ++ nd.deps) (enter i nd s)

/-- The analysis of one instance (src/call.cpp:505-515): a new generation, then all
outputs and all side effects. -/
def anaInst (g : Graph) (fuel : Nat) (outs ses : List Nat) (gen : Eval.Gen.St) (u : Uses) :
    Except Err St :=
  visitAll (ana g fuel) (outs ++ ses) ⟨Eval.Gen.newGen gen, [], u⟩

/-- The analysis of all instances (src/call.cpp:498-523). -/
def anaCall (g : Graph) (fuel : Nat) :
    List (List Nat × List Nat) → Eval.Gen.St → Uses → Except Err (List (List Nat) × Uses)
  | [], _, u => .ok ([], u)
  | (outs, ses) :: rest, gen, u =>
    match anaInst g fuel outs ses gen u with
    | .error e => .error e
    | .ok s =>
      match anaCall g fuel rest s.gen s.uses with
      | .error e => .error e
      | .ok (sl, u') => .ok (s.slots :: sl, u')

/-! ## Code generation -/

/-- `jitc_call_bind_slots` (src/call.cpp:123-130): the slots of the instance start at
position `start` of the list of the call; every variable is told its position. -/
def bindSlots (start : Nat) : List Nat → (Nat → Nat) → (Nat → Nat)
  | [], po => po
  | i :: is, po => bindSlots (start + 1) is (Function.update po i start)

/-- `jitc_call_slot_rel_offset` (src/call.cpp:135-153), without the offset: the
position of the slot, or an abort. -/
def slotOf (start : Nat) (slots : List Nat) (po : Nat → Nat) (i : Nat) : Except Err Nat :=
  if start ≤ po i ∧ po i < start + slots.length ∧ slots[po i - start]? = some i then
    .ok (po i)
  else .error .fail

/-- Is an input passed? (src/call.cpp:864-871). `reg`: the variables with a register
in the code that performs the call. -/
def inputActive (g : Graph) (refs : Nat → Nat) (reg : Nat → Bool) (optimize : Bool)
    (outer inner : Nat) : Bool :=
  !(!reg outer ||
    (optimize && ((match g outer with
        | some nd => nd.kind == .literal
        | none => false) || refs inner == 1)))

/-- `in_active` (src/call.cpp:864-882). The code visits the inputs in the order of
their sizes, which does not matter here. -/
def inActive (g : Graph) (refs : Nat → Nat) (reg : Nat → Bool) (d : CallData) : List Bool :=
  List.zipWith (inputActive g refs reg d.optimize) d.outerIn d.innerIn

/-- Is an output computed? (src/call.cpp:901-917). -/
def outputActive (g : Graph) (reg : Nat → Bool) (optimize : Bool) (out : Option Nat) : Bool :=
  (match out with
    | some o => reg o && !(match g o with
        | some nd => nd.kind == .evaluated
        | none => false)
    | none => false) || !optimize

/-- The outputs and side effects of an instance that are traversed
(src/eval.cpp, `jitc_assemble_func`). -/
def funcRoots (g : Graph) (reg : Nat → Bool) (d : CallData) (inst : Nat) : List Nat :=
  (((d.innerOut.getD inst []).zip d.outerOut).filter
      (fun p => outputActive g reg d.optimize p.2)).map Prod.fst ++
    d.sideEffects.getD inst []

/-- The signature of a function (src/llvm_eval.cpp:339-369). -/
structure Sig where
  self : Bool
  index : Bool
  thread : Bool
  /-- pointer to the captured data of all calls of the kernel -/
  data : Bool
  /-- offsets of the captured data of this call -/
  offsets : Bool
  inputs : List Bool
  deriving DecidableEq, Repr

/-- `!call->slots.empty()`. -/
def hasData (d : CallData) : Bool := d.slots.any (fun l => !l.isEmpty)

/-- The parameters that a function declares (src/llvm_eval.cpp:342-369). -/
def signature (d : CallData) (active : List Bool) : Sig where
  self := d.uses.self
  index := d.uses.index
  thread := d.uses.thread
  data := hasData d || d.uses.nested
  offsets := hasData d
  inputs := active

/-- Raise an error unless the condition holds. -/
def require (c : Bool) (e : Err) : Except Err Unit := if c then .ok () else .error e

/-- Position of the first occurrence, or the length (src/llvm_eval.cpp:451-454). -/
def firstIndex (l : List Nat) (i : Nat) : Nat := l.idxOf i

/-- The names that the code of one variable refers to, other than registers of its
operands (src/llvm_eval.cpp:402-472, 1093, 1122, 1151, 1664-1666, 1702-1788). -/
def genVar (d : CallData) (start : Nat) (slots : List Nat) (po : Nat → Nat) (sig : Sig)
    (i : Nat) (nd : Node) : Except Err Unit :=
  if nd.kind = .evaluated ∨ (nd.ptr = true ∧ nd.kind = .literal) then
    match slotOf start slots po i with
    | .error e => .error e
    | .ok _ => require (sig.data && sig.offsets) .undeclared
  else
    match nd.kind with
    | .callInput => require (sig.inputs.getD (firstIndex d.innerIn i) false) .undeclared
    | .counter => require sig.index .undeclared
    | .threadIndex => require sig.thread .undeclared
    | .callSelf => require sig.self .undeclared
    | .callGetter => require sig.data .undeclared
    | .call d2 =>
      require ((!d2.uses.index || sig.index) && (!d2.uses.thread || sig.thread) &&
        (!(decide (d2.innerOut.length ≠ 1) || hasData d2 || d2.uses.nested) || sig.data)) .undeclared
    | _ => .ok ()

/-- The effect of a variable's code generation on `param_offset`. A nested call
compiles its own functions, which write to the field (`clobber`, arbitrary); the
values of the variables in the schedule are saved before and restored afterwards
(src/call.cpp:808-846). -/
def afterVar (clobber : Nat → (Nat → Nat) → (Nat → Nat)) (sched : List SV) (i : Nat)
    (nd : Node) (po : Nat → Nat) : Nat → Nat :=
  match nd.kind with
  | .call _ => fun j => if j ∈ sched.map SV.index then po j else clobber i po j
  | _ => po

/-- The loop over the schedule (src/llvm_eval.cpp:389-474). `sched` is the complete
schedule, the last argument the part that is still to be processed. -/
def genAll (g : Graph) (clobber : Nat → (Nat → Nat) → (Nat → Nat)) (d : CallData)
    (start : Nat) (slots : List Nat) (sig : Sig) (sched : List SV) :
    (Nat → Nat) → List SV → Except Err Unit
  | _, [] => .ok ()
  | po, x :: xs =>
    match g x.index with
    | none => .error .fail
    | some nd =>
      match genVar d start slots po sig x.index nd with
      | .error e => .error e
      | .ok _ => genAll g clobber d start slots sig sched
          (afterVar clobber sched x.index nd po) xs

/-- Errors of the traversal. -/
def ofEval : Eval.Err → Err
  | .raise => .raise
  | .fail => .fail
  | .fuel => .fuel

/-- `jitc_assemble_func` for instance `inst` (src/eval.cpp) on the LLVM backend:
select the variables of the body, sort them by scope (`sort`), generate their code.
`laidOut` are the slots of the instance in the order chosen by the layout step,
`start` is the number of slots of the instances before it, `po` are the contents of
`param_offset`, and `reg` tells which variables have a register in the code that
performs the call. -/
def assembleFunc (g : Graph) (sort : List SV → List SV)
    (clobber : Nat → (Nat → Nat) → (Nat → Nat)) (refs : Nat → Nat) (fuel : Nat)
    (reg : Nat → Bool) (d : CallData) (inst start : Nat) (laidOut : List Nat)
    (po : Nat → Nat) (gen : Eval.Gen.St) : Except Err (List SV) :=
  match Eval.travGroup (view g) refs 1 fuel (funcRoots g reg d inst) ⟨gen, [], []⟩ with
  | .error e => .error (ofEval e)
  | .ok s =>
    match genAll g clobber d start laidOut (signature d (inActive g refs reg d))
        (sort s.sched) (bindSlots start laidOut po) (sort s.sched) with
    | .error e => .error e
    | .ok _ => .ok (sort s.sched)

end Verif.Capture
