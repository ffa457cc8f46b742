import Verif.LocalArr.Spec

/-
Local arrays (C43): src/array.cpp, and what src/eval.cpp, src/llvm_array.cpp, src/cuda_array.cpp
and src/metal_array.cpp do with them.

One thread is modelled, i.e. one lane of the LLVM backend.  Element types, the three backends and
reference counts are left out.  So are arrays that pass through loops, conditionals (`ArrayPhi`,
array-valued `LoopPhi`) and `jit_var_select` (`ArraySelect`).  The mask which
`jitc_var_mask_apply()` adds is set in every thread that has a result, and is left out as well.
-/

namespace Verif.LocalArr

/-- `VarKind` (internal.h:70-220), as far as it matters here: `compute` stands for every kind of
node that combines its operands in each thread. -/
inductive Kind where
  | literal | evaluated | compute | array | init | write | read
  deriving DecidableEq, Repr

/-- `ArrayState` (internal.h:222-237) without `Invalid`, which marks variables that are not
arrays. -/
inductive AState where
  | clean | modified | conflicted
  deriving DecidableEq, Repr

/-- `Variable` (internal.h:240-400).  The operands of array operations are given names: `dep0` is
`dep[0]`, the storage of the predecessor (`array`), the target or the source; `value` and `mask` are
the further operands; `offset = none` means that the offset is the literal `literal`; `store` is the
storage region of a write, in `dep[3]` or in the extra data.  `data` is what an evaluated variable
holds in this thread. -/
structure Var where
  kind : Kind := .literal
  isArray : Bool := false
  size : Nat := 1
  len : Nat := 0
  literal : Nat := 0
  dep0 : Nat := 0
  value : Nat := 0
  mask : Nat := 0
  offset : Option Nat := none
  store : Nat := 0
  fn : List Nat → Nat := fun _ => 0
  args : List Nat := []
  data : Nat → Nat := fun _ => 0

/-- The variables, the next index (`jitc_var_new`, var.cpp:760; indices are not reused here), the
field `array_state` of each variable, and the indices that were returned, in the order of the
calls. -/
structure State where
  vars : Nat → Var := fun _ => {}
  next : Nat := 1
  astate : Nat → AState := fun _ => .clean
  handles : List Nat := []

def set {α : Type} (f : Nat → α) (i : Nat) (a : α) : Nat → α := fun j => if j = i then a else f j

/-- The index of an operand; 0 if the call that should have returned it failed. -/
def State.idx (s : State) (k : Nat) : Nat := s.handles.getD k 0

/-- A new variable (`jitc_var_new`, var.cpp:760-850), whose index is returned.  Nodes that coincide
with an existing one are not merged here: this only concerns reads, all array operations disable
it. -/
def State.new (s : State) (v : Var) : State × Nat :=
  ({ s with vars := set s.vars s.next v, next := s.next + 1,
            astate := set s.astate s.next .clean }, s.next)

/-- The loop of `jitc_array_buffer()` (array.cpp:199-218), with a bound on the number of steps. -/
def bufferFrom (T : Nat → Var) : Nat → Nat → Nat
  | 0, v => v
  | n + 1, v =>
    match (T v).kind with
    | .array | .evaluated => v
    | .init => bufferFrom T n (T v).dep0
    | _ => bufferFrom T n (T v).store

/-- `jitc_array_buffer()` (array.cpp:199-228).  Targets have smaller indices, hence the bound. -/
def buffer (T : Nat → Var) (v : Nat) : Nat := bufferFrom T (v + 2) v

/-- `jitc_array_create()` (array.cpp:18-44); `pred = 0` if there is no predecessor.  `none`: an
exception. -/
def arrayCreate (s : State) (size len pred : Nat) : Option (State × Nat) :=
  if len > 0xFFFF then none
  else if size = 0 ∨ len = 0 then some (s, 0)
  else some (s.new { kind := .array, isArray := true, size, len, dep0 := pred })

/-- `jitc_array_init()` (array.cpp:46-83). -/
def arrayInit (s : State) (target value : Nat) : Option (State × Nat) :=
  if target = 0 ∧ value = 0 then some (s, 0)
  else if target = 0 ∨ value = 0 then none
  else
    let vt := s.vars target
    let vv := s.vars value
    if !vt.isArray || vv.isArray then none
    else if vt.size ≠ vv.size ∧ vt.size ≠ 1 then none
    else some (s.new { kind := .init, isArray := true, size := max vv.size vt.size, len := vt.len,
                       dep0 := target, value })

/-- Sizes are compatible. -/
def fits (size : Nat) (l : List Nat) : Bool := l.all fun x => x = size ∨ x = 1

/-- The node made by `jitc_array_read()` (array.cpp:180-196).  The size of the mask is not taken
into account (line 184). -/
def readVar (s : State) (source offset mask : Nat) : Var :=
  let vs := s.vars source
  let vo := s.vars offset
  let v : Var := { kind := .read, size := max vs.size vo.size, dep0 := source, mask }
  if vo.kind = .literal then { v with literal := vo.literal } else { v with offset := some offset }

/-- What `jitc_array_read()` returns once its operands have been checked (array.cpp:160-196).
Variables are not dirty here, and bounds are not checked at runtime (`JitFlag::Debug` is off). -/
def readFrom (s : State) (source offset mask : Nat) (symbolic : Bool) : State × Nat :=
  let vs := s.vars source
  let vo := s.vars offset
  let vm := s.vars mask
  if !symbolic && vs.kind == .init then (s, vs.value)
  else if !symbolic && vs.kind == .array then
    s.new { kind := .compute, size := max (max vs.size vo.size) vm.size }
  else s.new (readVar s source offset mask)

/-- `jitc_array_read()` (array.cpp:95-197). -/
def arrayRead (s : State) (source offset mask : Nat) (symbolic : Bool) : Option (State × Nat) :=
  if source = 0 ∧ offset = 0 ∧ mask = 0 then some (s, 0)
  else if source = 0 ∨ offset = 0 ∨ mask = 0 then none
  else
    let vs := s.vars source
    let vo := s.vars offset
    let vm := s.vars mask
    if vm.kind = .literal ∧ vm.literal = 0 then some (s.new { kind := .literal, literal := 0 })
    else if !vs.isArray || vo.isArray || vm.isArray then none
    else if !fits (max (max vs.size vo.size) vm.size) [vs.size, vo.size, vm.size] then none
    else if vo.kind = .literal ∧ vo.literal ≥ vs.len then none
    else some (readFrom s source offset mask symbolic)

/-- The node made by `jitc_array_write()` (array.cpp:316-341). -/
def writeVar (s : State) (target offset value mask size store : Nat) : Var :=
  let vo := s.vars offset
  let v : Var := { kind := .write, isArray := true, size, len := (s.vars target).len,
                   dep0 := target, value, mask, store }
  if vo.kind = .literal then { v with literal := vo.literal } else { v with offset := some offset }

/-- The two variables made by `jitc_array_write()`: the node and then its storage region, whose
predecessor is the storage of the target (array.cpp:352-379). -/
def writeTo (s : State) (target offset value mask size : Nat) : State × Nat :=
  let (s1, op) := s.new (writeVar s target offset value mask size (s.next + 1))
  let (s2, _) := s1.new { kind := .array, isArray := true, size, len := (s.vars target).len,
                          dep0 := buffer s.vars target }
  (s2, op)

/-- `jitc_array_write()` (array.cpp:230-382). -/
def arrayWrite (s : State) (target offset value mask : Nat) : Option (State × Nat) :=
  if target = 0 ∧ offset = 0 ∧ value = 0 ∧ mask = 0 then some (s, 0)
  else if target = 0 ∨ offset = 0 ∨ value = 0 ∨ mask = 0 then none
  else
    let vt := s.vars target
    let vo := s.vars offset
    let vv := s.vars value
    let vm := s.vars mask
    let size := max (max vt.size vo.size) (max vv.size vm.size)
    if vm.kind = .literal ∧ vm.literal = 0 then some (s, target)
    else if !vt.isArray || vv.isArray || vm.isArray || vo.isArray then none
    else if !fits size [vt.size, vo.size, vv.size, vm.size] then none
    else if vo.kind = .literal ∧ vo.literal ≥ vt.len then none
    else some (writeTo s target offset value mask size)

/-- Any other operation on variables that are not arrays; an operation without operands has the
given size.  Stands for the operations of op.cpp, whose operands are checked in `jitc_var_check`
(op.cpp:130-230). -/
def compute (s : State) (f : List Nat → Nat) (size : Nat) (args : List Nat) :
    Option (State × Nat) :=
  let sz := args.foldl (fun n a => max n (s.vars a).size) size
  if args.any (fun a => a == 0 || (s.vars a).isArray) then none
  else if !fits sz (args.map fun a => (s.vars a).size) then none
  else some (s.new { kind := .compute, size := sz, fn := f, args })

/-- One call, on variables. -/
def callOn (s : State) : Op → Option (State × Nat)
  | .literal x size => some (s.new { kind := .literal, literal := x, size })
  | .input x size => some (s.new { kind := .evaluated, data := fun _ => x, size })
  | .compute f size args => compute s f size (args.map s.idx)
  | .create size len => arrayCreate s size len 0
  | .init t v => arrayInit s (s.idx t) (s.idx v)
  | .write t o v m => arrayWrite s (s.idx t) (s.idx o) (s.idx v) (s.idx m)
  | .read a o m b => arrayRead s (s.idx a) (s.idx o) (s.idx m) b

/-- One call: its result is appended to the list of returned indices.  A call that raises an
exception leaves the variables as they are, and returns nothing. -/
def call (s : State) (op : Op) : State :=
  match callOn s op with
  | some (s', i) => { s' with handles := s.handles ++ [i] }
  | none => { s with handles := s.handles ++ [0] }

/-! ### Kernels -/

/-- The operands that must be computed before a node: `dep[0..3]`, and for writes their storage
(`jitc_var_traverse()`, eval.cpp:181-183, 271-277). -/
def deps (v : Var) : List Nat :=
  match v.kind with
  | .literal | .evaluated => []
  | .compute => v.args
  | .array => if v.dep0 = 0 then [] else [v.dep0]
  | .init => [v.dep0, v.value]
  | .write => v.dep0 :: v.value :: v.mask :: v.store :: v.offset.toList
  | .read => v.dep0 :: v.mask :: v.offset.toList

/-- A write or an initialisation. -/
def Kind.modifies : Kind → Bool
  | .init | .write => true
  | _ => false

/-- An operation on the array `dep0`. -/
def Kind.accesses : Kind → Bool
  | .init | .write | .read => true
  | _ => false

/-- The new state of the operand (array.cpp:403-428). -/
def nextState (k : Kind) (out : Bool) (a : AState) : AState :=
  if k.modifies then
    if out then .conflicted else if a = .clean then .modified else .conflicted
  else if a = .clean then .clean else .conflicted

/-- The second half of `jitc_process_array_op()` (array.cpp:403-438). -/
def touch (T : Nat → Var) (out : Nat → Bool) (a : Nat → AState) (v : Nat) : Nat → AState :=
  let p := (T v).dep0
  let st := nextState (T v).kind (out v) (a p)
  let a1 := set a p st
  if (T p).kind = .write then set a1 (buffer T p) st else a1

/-- `jitc_process_array_op()` (array.cpp:384-439), which `jitc_assemble()` calls for the array
operations of a kernel in the order of the schedule (eval.cpp:459-465). -/
def process (T : Nat → Var) (out : Nat → Bool) (a : Nat → AState) (v : Nat) : Nat → AState :=
  match (T v).kind with
  | .array => set a v .clean
  | .init | .write => touch T out (set a v .clean) v
  | .read => touch T out a v
  | _ => a

/-- The state of a kernel in one thread: the values of variables, the register of each array (the
index of its local memory), the local memories, and the outputs. -/
structure K where
  env : Nat → Nat
  reg : Nat → Nat
  mem : Nat → Nat → Nat
  out : Nat → Nat → Nat

/-- Variables that own or inherit local memory: llvm_eval.cpp:89. -/
def isDecl (v : Var) : Bool := v.kind == .array || (v.kind == .evaluated && v.isArray)

/-- `jitc_llvm_render_array()` (llvm_array.cpp:19-26; cuda_array.cpp:17-24; metal_array.cpp:18-25):
the storage of the predecessor is shared unless there is a conflict. -/
def allocReg (T : Nat → Var) (a : Nat → AState) (r : Nat → Nat) (v : Nat) : Nat :=
  if (T v).dep0 ≠ 0 ∧ a (T v).dep0 ≠ .conflicted then r (T v).dep0 else v

/-- The first loop of `jitc_llvm_assemble()` (llvm_eval.cpp:84-93), which stops at the first
variable that is not an array.  Registers are numbered (eval.cpp:449) by the index of the
variable. -/
def allocRegs (T : Nat → Var) (a : Nat → AState) : List Nat → (Nat → Nat) → (Nat → Nat)
  | [], r => r
  | v :: l, r => if isDecl (T v) then allocRegs T a l (set r v (allocReg T a r v)) else r

/-- Set the elements of a local memory. -/
def fill (m : Nat → Nat → Nat) (r len : Nat) (f : Nat → Nat) : Nat → Nat → Nat :=
  set m r fun i => if i < len then f i else m r i

/-- The offset of an access (llvm_array.cpp:105-108; cuda_array.cpp:65-70). -/
def offsetOf (k : K) (v : Var) : Nat :=
  match v.offset with
  | some o => k.env o
  | none => v.literal

/-- The store of `jitc_*_render_array_write()` (llvm_array.cpp:228-330; cuda_array.cpp:107-119).
`none`: an access out of bounds. -/
def store (k : K) (m : Nat → Nat → Nat) (r : Nat) (v : Var) : Option (Nat → Nat → Nat) :=
  if k.env v.mask = 0 then some m
  else if offsetOf k v < v.len then some (set m r (set (m r) (offsetOf k v) (k.env v.value)))
  else none

/-- The memory that is written (llvm_array.cpp:206-213). -/
def writeReg (T : Nat → Var) (a : Nat → AState) (k : K) (v : Nat) : Nat :=
  if a (T v).dep0 = .conflicted then k.reg (buffer T v) else k.reg (T v).dep0

/-- The copy that precedes the store (llvm_array.cpp:212-219; cuda_array.cpp:83-99). -/
def copied (T : Nat → Var) (a : Nat → AState) (k : K) (v : Nat) : Nat → Nat → Nat :=
  if a (T v).dep0 = .conflicted then
    fill k.mem (writeReg T a k v) (T v).len (k.mem (k.reg (T v).dep0))
  else k.mem

/-- The code of one variable: `jitc_llvm_assemble()` (llvm_eval.cpp:99-176) and
`jitc_llvm_render()` (llvm_eval.cpp:1292-1309).  `none`: an access out of bounds. -/
def render (T : Nat → Var) (a : Nat → AState) (k : K) (v : Nat) : Option K :=
  match (T v).kind with
  | .literal => some { k with env := set k.env v (T v).literal }
  | .evaluated =>
    if (T v).isArray then some { k with mem := fill k.mem (k.reg v) (T v).len (T v).data }
    else some { k with env := set k.env v ((T v).data 0) }
  | .compute => some { k with env := set k.env v ((T v).fn ((T v).args.map k.env)) }
  | .array => some k
  | .init =>
    some { k with reg := set k.reg v (k.reg (T v).dep0),
                  mem := fill k.mem (k.reg (T v).dep0) (T v).len fun _ => k.env (T v).value }
  | .write =>
    (store k (copied T a k v) (writeReg T a k v) (T v)).map fun m =>
      { k with mem := m, reg := set k.reg v (writeReg T a k v) }
  | .read =>
    if k.env (T v).mask = 0 then some { k with env := set k.env v 0 }
    else if offsetOf k (T v) < (T (T v).dep0).len then
      some { k with env := set k.env v (k.mem (k.reg (T v).dep0) (offsetOf k (T v))) }
    else none

/-- What is stored for an output (llvm_eval.cpp:177-195, llvm_array.cpp:352-367). -/
def result (T : Nat → Var) (k : K) (v : Nat) : Nat → Nat :=
  if (T v).isArray then k.mem (k.reg v) else fun _ => k.env v

/-- One variable and its output (llvm_eval.cpp:99-195). -/
def renderOut (T : Nat → Var) (a : Nat → AState) (out : Nat → Bool) (k : K) (v : Nat) : Option K :=
  (render T a k v).map fun k =>
    if out v then { k with out := set k.out v (result T k v) } else k

/-- The body of the kernel (llvm_eval.cpp:99-196). -/
def renderAll (T : Nat → Var) (a : Nat → AState) (out : Nat → Bool) : K → List Nat → Option K
  | k, [] => some k
  | k, v :: l => (renderOut T a out k v).bind fun k => renderAll T a out k l

/-- What can become of an evaluation. -/
inductive Outcome (α : Type) where
  | ok (x : α)
  /-- `jitc_fail()`: the process is aborted -/
  | abort
  /-- an access out of bounds -/
  | ub

/-- A kernel: its size and its schedule. -/
structure Group where
  size : Nat
  sched : List Nat

/-- `jitc_assemble()` and the kernel it produces (eval.cpp:372-465, 471-473), in one thread.  `m0` is
the content of the local memories when the thread starts.  Returns the states of the arrays and the
outputs. -/
def launch (T : Nat → Var) (m0 : Nat → Nat → Nat) (out : Nat → Bool) (a : Nat → AState) (g : Group) :
    Outcome ((Nat → AState) × (Nat → Nat → Nat)) :=
  if g.sched.any fun v => (T v).size ≠ 1 ∧ (T v).size ≠ g.size then .abort
  else
    let a' := g.sched.foldl (process T out) a
    match renderAll T a' (fun v => out v && (T v).size == g.size)
        ⟨fun _ => 0, allocRegs T a' g.sched id, m0, fun _ _ => 0⟩ g.sched with
    | some k => .ok (a', k.out)
    | none => .ub

/-- The outputs of a kernel join those of the kernels before it. -/
def collect (T : Nat → Var) (out : Nat → Bool) (g : Group) (o : Nat → Nat → Nat)
    (acc : Nat → Option (Nat → Nat)) : Nat → Option (Nat → Nat) := fun v =>
  if out v ∧ (T v).size = g.size ∧ v ∈ g.sched then some (o v) else acc v

/-- The kernels of an evaluation (eval.cpp:1144-1147). -/
def launches (T : Nat → Var) (m0 : Nat → Nat → Nat) (out : Nat → Bool) :
    (Nat → AState) → (Nat → Option (Nat → Nat)) → List Group →
      Outcome ((Nat → AState) × (Nat → Option (Nat → Nat)))
  | a, acc, [] => .ok (a, acc)
  | a, acc, g :: l =>
    match launch T m0 out a g with
    | .ok (a', o) => launches T m0 out a' (collect T out g o acc) l
    | .abort => .abort
    | .ub => .ub

/-- The outputs become evaluated variables without operands (eval.cpp:1188-1218). -/
def finish (T : Nat → Var) (acc : Nat → Option (Nat → Nat)) : Nat → Var := fun v =>
  match acc v with
  | some d => { kind := .evaluated, isArray := (T v).isArray, size := (T v).size, len := (T v).len,
                data := d }
  | none => T v

/-- `jitc_eval_impl()` (eval.cpp:1033-1222) for the given kernels. -/
def eval (s : State) (m0 : Nat → Nat → Nat) (roots : List Nat) (groups : List Group) :
    Outcome State :=
  match launches s.vars m0 (fun v => v ∈ roots.map s.idx) s.astate (fun _ => none) groups with
  | .ok (a, acc) => .ok { s with vars := finish s.vars acc, astate := a }
  | .abort => .abort
  | .ub => .ub

end Verif.LocalArr
