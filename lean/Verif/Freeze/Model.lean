import Verif.Freeze.Spec

/-!
# Model of the recording and the replay of frozen functions

`src/record_ts.cpp` and `src/record_ts.h`.  While a function is being recorded,
every call to the backend passes through `RecordThreadState`, which stores an
`Operation` and then performs the call.  Arrays are tracked by the addresses of
their memory (`ptr_to_slot`).  The recording is a list of operations on
numbered *slots*; its replay assigns memory to the slots, infers the sizes of
all operations from those of the inputs, and performs the operations.

Simplifications that apply to the whole file:
* `Recording::dependencies` is one vector into which operations store index
  ranges.  Here every operation holds its own list of accesses.
* An exception within a `record_*` function is stored, and `jit_freeze_stop`
  raises it, whatever happens in between.  The model only notes that
  it occurred (`exn`); changes that the function made before it are not modelled.
* Not modelled: paused recordings, `record_expand`, `reduce_expanded`
  and `narrow_f32_to_f16` (record_ts.cpp:1054-1308), the OptiX shader binding
  table, resource handles (textures, acceleration structures), profiling, logging,
  the kernel history and `check_kernel_cache` (2312-2332).
* Vectors that are indexed by slots are modelled as functions; all slots that occur
  in a recording are below `n`.
-/

namespace Verif.Freeze

/-! ## Recordings -/

/-- record_ts.h:143-153 `RecordedVarState`. -/
inductive VState where
  | uninit | opOutput | input
deriving DecidableEq, Repr

/-- record_ts.h:175-204 `RecordedVariable`: the fields `index`, `init`
(`true`: `RecordedVarInit::Input`), `state` and `type`.  `last_op` only occurs in
error messages, `last_memset` and `last_memcpy` only in `record_expand`. -/
structure RVar where
  index : Nat := 0
  init : Bool := false
  state : VState := .uninit
  type : Nat := 0
deriving DecidableEq, Repr

/-- internal.h:1219 `ParamType`. -/
inductive PType where
  | register | input | output
deriving DecidableEq, Repr

/-- record_ts.h:209-253 `AccessInfo` (without `resource_kind`). -/
structure Access where
  slot : Nat := 0
  ptype : PType := .input
  vtype : Nat := 0
  ptrAccess : Bool := false
  ptrInputSize : Bool := false
  testUninit : Bool := true
  data : Nat := 0
  offset : Nat := 0
  tsize : Nat := 0
deriving DecidableEq, Repr

/-- record_ts.h:41-61, 70-116: the type of an operation together with the members of
the union that belong to it. -/
inductive OpKind where
  | barrier
  | launch (k : Nat)
  | memset (value : Nat)
  | compress
  | memcpy
  | mkperm (buckets blockSize : Nat)
  | blockReduce (rop : Nat)
  | prefixReduce (rop : Nat) (exclusive reverse : Bool)
  | dot
  | gemm (flags M N K grid : Nat) (batch : List (Nat × Bool × Bool))
  | aggregate
  | opaqueWidth
  | undef
  | reduceBool (rop : Nat)
deriving DecidableEq, Repr

/-- record_ts.h:68-137 `Operation`. -/
structure Op where
  kind : OpKind
  deps : List Access
  size : Nat := 0
  inputSize : Nat := 0
deriving DecidableEq, Repr

/-- record_ts.h:267-312 `Recording`: `n` is the number of recorded variables. -/
structure Recording where
  dry : Bool
  n : Nat
  var : Nat → RVar
  inputs : List Nat
  outputs : List Access
  ops : List Op

/-- record_ts.h:440-600 `RecordThreadState`: `map` is `ptr_to_slot`, `exn` says
whether `m_exception` is set. -/
structure Rec where
  map : Nat → Option Nat
  n : Nat
  var : Nat → RVar
  inputs : List Nat
  ops : List Op
  dry : Bool
  exn : Bool

def Rec.empty : Rec :=
  { map := fun _ => none, n := 0, var := fun _ => {}, inputs := [], ops := [],
    dry := false, exn := false }

def Rec.setVar (r : Rec) (s : Nat) (v : RVar) : Rec :=
  { r with var := fun t => if t = s then v else r.var t }

/-- record_ts.cpp:2378-2400 `add_variable`. -/
def addVariable (r : Rec) (p : Nat) : Rec × Nat :=
  match r.map p with
  | some s => (r, s)
  | none =>
    ({ r.setVar r.n {} with
        map := fun q => if q = p then some r.n else r.map q, n := r.n + 1 }, r.n)

/-- record_ts.cpp:2404-2414 `get_variable`; `none` is an exception. -/
def getVariable (r : Rec) (p : Nat) : Option Nat := r.map p

/-- record_ts.cpp:2417-2421 `has_variable`. -/
def hasVariable (r : Rec) (p : Nat) : Bool := (r.map p).isSome

/-- record_ts.cpp:2428-2473 `add_param` for an input: the access is stored with the
type of the variable if none was given.  `none` is the exception "had not yet been
initialized". -/
def addInput (r : Rec) (a : Access) : Option Access :=
  if a.testUninit ∧ (r.var a.slot).state = .uninit then none
  else some (if a.vtype = 0 then { a with vtype := (r.var a.slot).type } else a)

/-- record_ts.cpp:2428-2440 `add_param` for an output. -/
def addOutput (r : Rec) (a : Access) : Rec × Access :=
  let v := r.var a.slot
  (r.setVar a.slot { v with type := if a.vtype ≠ 0 then a.vtype else v.type,
                            state := .opOutput }, a)

/-- record_ts.cpp:2476-2491 `add_in_param`. -/
def addInParam (r : Rec) (p vt : Nat) : Option Access :=
  (getVariable r p).bind fun s => addInput r { slot := s, ptype := .input, vtype := vt }

/-- record_ts.cpp:2494-2508 `add_out_param`. -/
def addOutParam (r : Rec) (p vt : Nat) : Rec × Access :=
  let q := addVariable r p
  addOutput q.1 { slot := q.2, ptype := .output, vtype := vt }

def Rec.push (r : Rec) (op : Op) : Rec := { r with ops := r.ops ++ [op] }

/-- record_ts.cpp:590-609 `add_input`: `v->data` is `p`, `v->type` is `vt`. -/
def addFunctionInput (r : Rec) (p vt : Nat) : Rec :=
  let i := r.inputs.length
  let q := addVariable r p
  { q.1.setVar q.2 { index := i, init := true, state := .input, type := vt } with
    inputs := r.inputs ++ [q.2] }

/-! ## Recording of calls

`addr x` is the address of the array `x`. -/

/-- record_ts.cpp:700-788: one parameter of a kernel.  The result consists of the
largest sizes of direct and indirect inputs so far and of the accesses.  A parameter that is
read must be known (`capture_variable`, 2346-2371, always raises). -/
def recordParam (addr : Nat → Nat) (size : Nat) (r : Rec) (inputSize ptrSize : Nat)
    (p : Param) : Option (Rec × Nat × Nat × Access) :=
  match p.kind with
  | .direct =>
    (getVariable r (addr p.arr)).bind fun s =>
      (addInput r { slot := s, ptype := .input, vtype := p.vt }).map fun a =>
        (r, max inputSize p.size, ptrSize, a)
  | .pointer =>
    (getVariable r (addr p.arr)).bind fun s =>
      (addInput r { slot := s, ptype := .input, vtype := p.vt, ptrAccess := true }).map fun a =>
        (r, inputSize,
          if p.size % size = 0 ∨ size % p.size = 0 then max ptrSize p.size else ptrSize, a)
  | .output =>
    let q := addVariable r (addr p.arr)
    let w := addOutput q.1 { slot := q.2, ptype := .output, vtype := p.vt }
    some (w.1, inputSize, ptrSize, w.2)

/-- record_ts.cpp:693-790: all parameters. -/
def recordParams (addr : Nat → Nat) (size : Nat) :
    List Param → Rec → Nat → Nat → List Access → Option (Rec × Nat × Nat × List Access)
  | [], r, i, q, as => some (r, i, q, as)
  | p :: ps, r, i, q, as =>
    (recordParam addr size r i q p).bind fun x =>
      recordParams addr size ps x.1 x.2.1 x.2.2.1 (as ++ [x.2.2.2])

/-- record_ts.cpp:821-838: which pointers determine the launch size. -/
def flagPointers (ptrSize : Nat) : List Param → List Access → List Access
  | p :: ps, a :: as =>
    (if p.kind = .pointer ∧ ptrSize = p.size then { a with ptrInputSize := true } else a)
      :: flagPointers ptrSize ps as
  | _, as => as

/-- record_ts.cpp:840-856: the recorded input size, 0 if the launch size is neither a
multiple nor a fraction of it. -/
def recordedInputSize (size inputSize ptrSize : Nat) : Nat :=
  let s := if inputSize = 0 then ptrSize else inputSize
  if 0 < s then
    if s < size ∧ size % s ≠ 0 then 0
    else if size < s ∧ s % size ≠ 0 then 0
    else s
  else s

/-- record_ts.cpp:672-873 `record_launch`. -/
def recordLaunch (addr : Nat → Nat) (r : Rec) (k size : Nat) (ps : List Param) : Option Rec :=
  (recordParams addr size ps r 0 0 []).map fun x =>
    x.1.push
      { kind := .launch k,
        deps := if x.2.1 = 0 then flagPointers x.2.2.1 ps x.2.2.2 else x.2.2.2,
        size := size, inputSize := recordedInputSize size x.2.1 x.2.2.1 }

/-- record_ts.cpp:1467-1494 `record_memset_async`. -/
def recordMemset (addr : Nat → Nat) (r : Rec) (x size isize v : Nat) : Rec :=
  let q := addOutParam r (addr x) 0
  q.1.push { kind := .memset v, deps := [q.2], size := size, inputSize := isize }

/-- record_ts.cpp:1380-1428 `memcpy_async`: an unknown source raises. -/
def recordMemcpy (addr : Nat → Nat) (r : Rec) (dst src bytes : Nat) : Option Rec :=
  (getVariable r (addr src)).bind fun s =>
    let q := addVariable r (addr dst)
    (addInput q.1 { slot := s, ptype := .input }).map fun a =>
      let w := addOutput q.1 { slot := q.2, ptype := .output, vtype := (q.1.var s).type }
      w.1.push { kind := .memcpy, deps := [a, w.2], size := bytes }

/-- record_ts.cpp:1533-1550 `record_compress`. -/
def recordCompress (addr : Nat → Nat) (r : Rec) (src size out : Nat) : Option Rec :=
  (addInParam r (addr src) 0).map fun a =>
    let w := addOutParam r (addr out) 8
    w.1.push { kind := .compress, deps := [a, w.2], size := size }

/-- record_ts.cpp:1612-1637 `record_block_mkperm`: nothing is recorded if the values
are unknown. -/
def recordMkperm (addr : Nat → Nat) (r : Rec) (src size bs buckets perm offs : Nat) :
    Option Rec :=
  if hasVariable r (addr src) then
    (addInParam r (addr src) 0).map fun a =>
      let w := addOutParam r (addr perm) 8
      let u := addOutParam w.1 (addr offs) 8
      u.1.push { kind := .mkperm buckets bs, deps := [a, w.2, u.2], size := size }
  else some r

/-- record_ts.cpp:1689-1711 `record_block_reduce`. -/
def recordBlockReduce (addr : Nat → Nat) (r : Rec) (vt rop size bs src out : Nat) :
    Option Rec :=
  (addInParam r (addr src) vt).map fun a =>
    let w := addOutParam r (addr out) vt
    { w.1.push { kind := .blockReduce rop, deps := [a, w.2], size := size, inputSize := bs }
      with dry := true }

/-- record_ts.cpp:1772-1799 `record_block_prefix_reduce`. -/
def recordPrefixReduce (addr : Nat → Nat) (r : Rec) (vt rop size bs : Nat) (ex rev : Bool)
    (src out : Nat) : Option Rec :=
  (addInParam r (addr src) vt).map fun a =>
    let w := addOutParam r (addr out) vt
    { w.1.push { kind := .prefixReduce rop ex rev, deps := [a, w.2], size := size,
                 inputSize := bs } with dry := true }

/-- record_ts.cpp:1324-1341 `record_block_reduce_bool`. -/
def recordReduceBool (addr : Nat → Nat) (r : Rec) (rop size src out : Nat) : Option Rec :=
  (addInParam r (addr src) 1).map fun a =>
    let w := addOutParam r (addr out) 1
    w.1.push { kind := .reduceBool rop, deps := [a, w.2], size := size }

/-- record_ts.cpp:1861-1882 `record_reduce_dot`. -/
def recordDot (addr : Nat → Nat) (r : Rec) (vt x y size out : Nat) : Option Rec :=
  let w := addOutParam r (addr out) vt
  (addInParam w.1 (addr x) vt).bind fun a =>
    (addInParam w.1 (addr y) vt).map fun b =>
      w.1.push { kind := .dot, deps := [w.2, a, b], size := size }

/-- record_ts.cpp:1933-1979 `record_batched_gemm` (for a batch that is not empty). -/
def recordGemm (addr : Nat → Nat) (r : Rec) (vt flags M N K grid : Nat)
    (batch : List (Nat × Bool × Bool)) (A B C : Nat) : Option Rec :=
  let w := addOutParam r (addr C) vt
  (addInParam w.1 (addr A) vt).bind fun a =>
    (addInParam w.1 (addr B) vt).map fun b =>
      { w.1.push { kind := .gemm flags M N K grid batch, deps := [w.2, a, b],
                   size := grid * M * N } with dry := true }

/-- record_ts.cpp:2071-2119: one entry of a parameter block.  Whether an entry of
8 bytes is a pointer is decided by looking up its value in the table of allocations
(`isAlloc`). -/
def recordEntry (addr : Nat → Nat) (isAlloc : Nat → Bool) (r : Rec) :
    Entry → Option (Rec × Access)
  | .lit off size v =>
    if size = 8 ∧ isAlloc v then
      let q := addVariable r v
      (addInput q.1 { slot := q.2, ptype := .input, ptrAccess := true, offset := off,
                      testUninit := false }).map fun a => (q.1, a)
    else some (r, { ptype := .register, data := v, offset := off, tsize := size })
  | .ptr off x =>
    if isAlloc (addr x) then
      let q := addVariable r (addr x)
      (addInput q.1 { slot := q.2, ptype := .input, ptrAccess := true, offset := off,
                      testUninit := false }).map fun a => (q.1, a)
    else some (r, { ptype := .register, data := addr x, offset := off, tsize := 8 })
  | .val off x _ =>
    let q := addVariable r (addr x)
    (addInput q.1 { slot := q.2, ptype := .input, offset := off,
                    testUninit := false }).map fun a => (q.1, a)

def recordEntries (addr : Nat → Nat) (isAlloc : Nat → Bool) :
    List Entry → Rec → List Access → Option (Rec × List Access)
  | [], r, as => some (r, as)
  | e :: es, r, as =>
    (recordEntry addr isAlloc r e).bind fun x => recordEntries addr isAlloc es x.1 (as ++ [x.2])

/-- record_ts.cpp:2062-2129 `record_aggregate`. -/
def recordAggregate (addr : Nat → Nat) (isAlloc : Nat → Bool) (r : Rec) (dst : Nat)
    (es : List Entry) : Option Rec :=
  let w := addOutParam r (addr dst) 4
  (recordEntries addr isAlloc es w.1 [w.2]).map fun x =>
    x.1.push { kind := .aggregate, deps := x.2, size := es.length }

/-- record_ts.cpp:493-508 `notify_opaque_width`. -/
def recordOpaqueWidth (addr : Nat → Nat) (r : Rec) (src vt out : Nat) : Option Rec :=
  (addInParam r (addr src) vt).map fun a =>
    let w := addOutParam r (addr out) 8
    w.1.push { kind := .opaqueWidth, deps := [a, w.2] }

/-- record_ts.cpp:529-542 `notify_init_undefined`. -/
def recordUndef (addr : Nat → Nat) (r : Rec) (x vt size : Nat) : Rec :=
  let w := addOutParam r (addr x) vt
  w.1.push { kind := .undef, deps := [w.2], size := size }

/-- record_ts.cpp:565-585 `notify_free`: the operation `Free` that this function
constructs is not stored. -/
def recordFree (addr : Nat → Nat) (r : Rec) (x : Nat) : Rec :=
  { r with map := fun q => if q = addr x then none else r.map q }

/-- The effect of one call on the recording.  `live` are the arrays that exist when the
call is made, which determine the table of allocations.  1372-1377: synchronous copies
are not recorded.  479-491: barriers. -/
def recordCmd (addr : Nat → Nat) (live : List Nat) (r : Rec) : Cmd → Option Rec
  | .launch k n ps => recordLaunch addr r k n ps
  | .memset x size isize v => some (recordMemset addr r x size isize v)
  | .memcpy dst src bytes => recordMemcpy addr r dst src bytes
  | .memcpySync _ _ _ => some r
  | .compress src size out => recordCompress addr r src size out
  | .mkperm src size bs buckets perm offs => recordMkperm addr r src size bs buckets perm offs
  | .blockReduce vt rop size bs src out => recordBlockReduce addr r vt rop size bs src out
  | .prefixReduce vt rop size bs ex rev src out =>
    recordPrefixReduce addr r vt rop size bs ex rev src out
  | .reduceBool rop size src out => recordReduceBool addr r rop size src out
  | .dot vt x y size out => recordDot addr r vt x y size out
  | .gemm vt flags M N K grid batch A B C => recordGemm addr r vt flags M N K grid batch A B C
  | .aggregate dst _ es =>
    recordAggregate addr (fun v => (dst :: live).any fun x => decide (addr x = v)) r dst es
  | .opaqueWidth src vt _ out => recordOpaqueWidth addr r src vt out
  | .undef x vt size => some (recordUndef addr r x vt size)
  | .barrier => some (r.push { kind := .barrier, deps := [] })
  | .free x => some (recordFree addr r x)

/-- Record a trace.  An exception is stored, and recording continues. -/
def recordAll (addr : Nat → Nat) : List Nat → Rec → List Cmd → Rec
  | _, r, [] => r
  | live, r, c :: cs =>
    recordAll addr (c.live live)
      (match recordCmd addr live r c with
       | some r1 => r1
       | none => { r with exn := true }) cs

/-- record_ts.cpp:2702-2749 `jitc_freeze_start`: the inputs. -/
def recordStart (addr : Nat → Nat) (ins : List Arr) : Rec :=
  ins.foldl (fun r i => addFunctionInput r (addr i.arr) i.vt) Rec.empty

/-- record_ts.cpp:616-637 `add_output`: an unknown output raises, but this exception
is caught and stored after `jitc_freeze_stop` has tested for exceptions. -/
def addFunctionOutput (r : Rec) (p vt : Nat) : Option Access :=
  (getVariable r p).map fun s => { slot := s, vtype := vt }

/-- record_ts.cpp:2232-2243 `validate`: all variables must be initialized. -/
def validate (n : Nat) (var : Nat → RVar) : Bool :=
  (List.range n).all fun s => decide ((var s).state ≠ .uninit)

/-- record_ts.cpp:2750-2821 `jitc_freeze_stop`; `none` is an exception. -/
def recordStop (addr : Nat → Nat) (r : Rec) (outs : List Arr) : Option Recording :=
  if r.exn then none
  else if validate r.n r.var then
    some { dry := r.dry, n := r.n, var := r.var, inputs := r.inputs,
           outputs := outs.filterMap fun o => addFunctionOutput r (addr o.arr) o.vt,
           ops := r.ops }
  else none

/-- `jit_freeze_start`, the function itself, `jit_freeze_stop`.  `ext` are the arrays that
exist in addition to the inputs. -/
def record (addr : Nat → Nat) (ext : List Nat) (ins : List Arr) (tr : List Cmd)
    (outs : List Arr) : Option Recording :=
  recordStop addr
    (recordAll addr (ins.map (·.arr) ++ ext) (recordStart addr ins) tr) outs

/-! ## Replay -/

/-- record_ts.cpp:161-262 `ReplayVariable`. -/
structure Slot where
  data : Option Nat := none
  allocSize : Nat := 0
  dataSize : Nat := 0
deriving DecidableEq, Repr

/-- The memory of the process: `heap` maps addresses of allocated blocks to their
contents, all addresses from `next` are unused. -/
structure RState where
  slot : Nat → Slot
  heap : Nat → Option (List (Cell Nat))
  next : Nat

/-- Outcome of an operation: done; `return false`; exception; `jitc_fail`; undefined
behavior (access to memory that does not exist). -/
inductive Res (σ : Type) where
  | ok (s : σ)
  | reject
  | raise (st : RState)
  | abort
  | ub

def Res.bind {σ τ : Type} : Res σ → (σ → Res τ) → Res τ
  | .ok s, f => f s
  | .reject, _ => .reject
  | .raise st, _ => .raise st
  | .abort, _ => .abort
  | .ub, _ => .ub

/-- Continue if the value exists; an exception otherwise. -/
def orRaise {σ τ : Type} (st : RState) : Option σ → (σ → Res τ) → Res τ
  | some s, f => f s
  | none, _ => .raise st

/-- Continue if the value exists; undefined behavior otherwise. -/
def orUb {σ τ : Type} : Option σ → (σ → Res τ) → Res τ
  | some s, f => f s
  | none, _ => .ub

def RState.setSlot (st : RState) (s : Nat) (v : Slot) : RState :=
  { st with slot := fun t => if t = s then v else st.slot t }

/-- malloc.cpp:101-250 `jitc_malloc`: a new block with undefined contents, null for
size 0.  The size of the block is not rounded up. -/
def malloc (st : RState) (n : Nat) : RState × Option Nat :=
  if n = 0 then (st, none)
  else ({ st with heap := fun a => if a = st.next then some (List.replicate n .undef)
                                   else st.heap a,
                  next := st.next + 1 }, some st.next)

/-- malloc.cpp:253-310 `jitc_free`. -/
def mfree (st : RState) (a : Nat) : RState :=
  { st with heap := fun b => if b = a then none else st.heap b }

/-- record_ts.cpp:192-213 `ReplayVariable::size`; `none` is an exception. -/
def Slot.size (v : Slot) (tsize : Nat) : Option Nat :=
  if tsize = 0 then none
  else
    let size := v.dataSize / tsize
    if size = 0 then none
    else if size * tsize ≠ v.dataSize then none
    else some (size % 2 ^ 32)

/-- record_ts.cpp:231-253 `ReplayVariable::alloc`. -/
def alloc (dry : Bool) (st : RState) (s dsize : Nat) : RState :=
  let v := st.slot s
  match v.data with
  | none =>
    if dry then st.setSlot s { v with allocSize := dsize, dataSize := dsize }
    else
      let q := malloc st dsize
      q.1.setSlot s { data := q.2, allocSize := dsize, dataSize := dsize }
  | some a =>
    if v.allocSize < dsize then
      if dry then st.setSlot s { v with allocSize := dsize, dataSize := dsize }
      else
        let q := malloc (mfree st a) dsize
        q.1.setSlot s { data := q.2, allocSize := dsize, dataSize := dsize }
    else st.setSlot s { v with dataSize := dsize }

/-- Read the first `n` bytes of a block; `none`: out of bounds. -/
def load (st : RState) (a n : Nat) : Option (List (Cell Nat)) :=
  (st.heap a).bind fun cs => if n ≤ cs.length then some (cs.take n) else none

/-- Write to the beginning of a block; `none`: out of bounds. -/
def store (st : RState) (a : Nat) (cs : List (Cell Nat)) : Option RState :=
  (st.heap a).bind fun old =>
    if cs.length ≤ old.length then
      some { st with heap := fun b => if b = a then some (cs ++ old.drop cs.length)
                                      else st.heap b }
    else none

/-- Read from the memory of a slot. -/
def loadSlot (st : RState) (s n : Nat) : Option (List (Cell Nat)) :=
  (st.slot s).data.bind fun a => load st a n

/-- Write to the memory of a slot. -/
def storeSlot (st : RState) (s : Nat) (cs : List (Cell Nat)) : Option RState :=
  (st.slot s).data.bind fun a => store st a cs

/-- The accesses of an operation by position. -/
def Op.dep (op : Op) (i : Nat) : Access := op.deps.getD i {}

/-- record_ts.cpp:907-932: sizes of the inputs of a kernel launch. -/
def launchSizes (dry : Bool) (st : RState) : List Access → Nat → Nat → Res (Nat × Nat)
  | [], i, q => .ok (i, q)
  | a :: as, i, q =>
    if a.ptype = .input then
      orRaise st ((st.slot a.slot).size (typeSize a.vtype)) fun size =>
        if (st.slot a.slot).data = none ∧ dry = false then .raise st
        else
          launchSizes dry st as (if a.ptrAccess = false then max i size else i)
            (if a.ptrAccess = true ∧ a.ptrInputSize = true then max q size else q)
    else launchSizes dry st as i q

/-- record_ts.cpp:941-967: the launch size. -/
def launchSize (op : Op) (inputSize ptrSize : Nat) : Nat :=
  let base := if inputSize ≠ 0 then inputSize else ptrSize
  let n :=
    if 0 < op.inputSize then
      if op.inputSize < op.size ∧ op.size % op.inputSize = 0 then
        base * (op.size / op.inputSize) % 2 ^ 32
      else if op.inputSize % op.size = 0 then base / (op.inputSize / op.size)
      else base
    else 0
  if n = 0 then op.size else n

/-- record_ts.cpp:974-998: allocation of the outputs of a kernel, and the addresses that
are passed to it. -/
def launchParams (dry : Bool) (n : Nat) :
    List Access → RState → List (Option Nat) → RState × List (Option Nat)
  | [], st, ps => (st, ps)
  | a :: as, st, ps =>
    let st1 := if a.ptype = .output then alloc dry st a.slot (n * typeSize a.vtype) else st
    launchParams dry n as st1 (ps ++ [(st1.slot a.slot).data])

/-- Change the contents of blocks. -/
def storeBlocks : List (Nat × List (Cell Nat)) → RState → RState
  | [], st => st
  | (a, cs) :: ws, st =>
    storeBlocks ws { st with heap := fun b => if b = a then (st.heap a).map fun _ => cs
                                              else st.heap b }

/-- record_ts.cpp:875-1052 `replay_launch`. -/
def replayLaunch (sem : Sem) (dry : Bool) (st : RState) (op : Op) (k : Nat) : Res RState :=
  (launchSizes dry st op.deps 0 0).bind fun q =>
    let n := launchSize op q.1 q.2
    let w := launchParams dry n op.deps st []
    if dry then .ok w.1
    else
      orUb (w.2.mapM id) fun ps =>
        orUb (callKernel (sem.kernel k n) w.1.heap ps) fun ws => .ok (storeBlocks ws w.1)

/-- record_ts.cpp:1496-1518 `replay_memset_async`. -/
def replayMemset (dry : Bool) (st : RState) (op : Op) (value : Nat) : Res RState :=
  let s := (op.dep 0).slot
  let st1 := alloc dry st s (op.size * op.inputSize)
  orRaise st1 ((st1.slot s).size op.inputSize) fun size =>
    if dry then .ok st1
    else orUb (storeSlot st1 s
      ((List.replicate size ((le op.inputSize value).map Cell.byte)).flatten)) .ok

/-- record_ts.cpp:1430-1452 `replay_memcpy_async`. -/
def replayMemcpy (dry : Bool) (st : RState) (op : Op) : Res RState :=
  let s := (op.dep 0).slot
  let d := (op.dep 1).slot
  let bytes := (st.slot s).dataSize
  let st1 := alloc dry st d bytes
  if dry then .ok st1
  else if (st1.slot s).dataSize = 0 then .ok st1
  else orUb (loadSlot st1 s (st1.slot s).dataSize) fun cs => orUb (storeSlot st1 d cs) .ok

/-- record_ts.cpp:1552-1593 `replay_compress`. -/
def replayCompress (sem : Sem) (dry : Bool) (st : RState) (op : Op) : Res RState :=
  let s := (op.dep 0).slot
  let d := (op.dep 1).slot
  orRaise st ((st.slot s).size (typeSize (op.dep 0).vtype)) fun size =>
    let st1 := alloc dry st d (size * typeSize (op.dep 1).vtype)
    if dry then .reject
    else
      orUb (loadSlot st1 s size) fun cs =>
        orUb (storeSlot st1 d (sem.bytes (.compress size) [dataOf cs] (size * 4))) fun st2 =>
          .ok (st2.setSlot d { st2.slot d with
            dataSize := min size (sem.count (dataOf cs)) * typeSize (op.dep 1).vtype % 2 ^ 32 })

/-- record_ts.cpp:1639-1672 `replay_block_mkperm`. -/
def replayMkperm (sem : Sem) (dry : Bool) (st : RState) (op : Op) (buckets bs : Nat) :
    Res RState :=
  let s := (op.dep 0).slot
  let p := (op.dep 1).slot
  let o := (op.dep 2).slot
  orRaise st ((st.slot s).size (typeSize (op.dep 0).vtype)) fun size =>
    let st1 := alloc dry st p (size * typeSize (op.dep 1).vtype)
    let st2 := alloc dry st1 o ((buckets * 4 + 1) % 2 ^ 32 * typeSize (op.dep 2).vtype)
    if dry then .ok st2
    else
      orUb (loadSlot st2 s (size * 4)) fun cs =>
        orUb (storeSlot st2 p (sem.bytes (.perm size bs buckets) [dataOf cs] (size * 4)))
          fun st3 => orUb (storeSlot st3 o
            (sem.bytes (.offsets size bs buckets) [dataOf cs] ((buckets * 4 + 1) * 4))) .ok

/-- record_ts.cpp:1713-1752 `replay_block_reduce`. -/
def replayBlockReduce (sem : Sem) (dry : Bool) (st : RState) (op : Op) (rop : Nat) :
    Res RState :=
  let s := (op.dep 0).slot
  let o := (op.dep 1).slot
  let vt := (op.dep 1).vtype
  orRaise st ((st.slot s).size (typeSize (op.dep 0).vtype)) fun size =>
    let bs := if op.inputSize = op.size then size else op.inputSize
    if size % bs ≠ 0 then (if dry then .reject else .abort)
    else
      let st1 := alloc dry st o (size / bs * typeSize vt)
      if dry then .ok st1
      else
        orUb (loadSlot st1 s (size * typeSize vt)) fun cs =>
          orUb (storeSlot st1 o (sem.bytes (.blockReduce vt rop size bs) [dataOf cs]
            ((size + bs - 1) / bs * typeSize vt))) .ok

/-- record_ts.cpp:1801-1845 `replay_block_prefix_reduce`. -/
def replayPrefixReduce (sem : Sem) (dry : Bool) (st : RState) (op : Op) (rop : Nat)
    (ex rev : Bool) : Res RState :=
  let s := (op.dep 0).slot
  let o := (op.dep 1).slot
  let vt := (op.dep 1).vtype
  orRaise st ((st.slot s).size (typeSize (op.dep 0).vtype)) fun size =>
    let bs := if op.inputSize = op.size then size else op.inputSize
    if size % bs ≠ 0 then (if dry then .reject else .abort)
    else
      let st1 := alloc dry st o (size * typeSize vt)
      if dry then .ok st1
      else
        orUb (loadSlot st1 s (size * typeSize vt)) fun cs =>
          orUb (storeSlot st1 o (sem.bytes (.prefixReduce vt rop size bs ex rev) [dataOf cs]
            (size * typeSize vt))) .ok

/-- record_ts.cpp:1343-1369 `replay_block_reduce_bool`. -/
def replayReduceBool (sem : Sem) (dry : Bool) (st : RState) (op : Op) (rop : Nat) :
    Res RState :=
  let s := (op.dep 0).slot
  let o := (op.dep 1).slot
  let st1 := alloc dry st o 1
  orRaise st1 ((st1.slot s).size (typeSize 1)) fun size =>
    if dry then .ok st1
    else
      orUb (loadSlot st1 s size) fun cs =>
        orUb (storeSlot st1 o (sem.bytes (.reduceBool rop size) [dataOf cs] 1)) .ok

/-- record_ts.cpp:1884-1917 `replay_reduce_dot`: the sizes are only compared in a dry
run. -/
def replayDot (sem : Sem) (dry : Bool) (st : RState) (op : Op) : Res RState :=
  let o := (op.dep 0).slot
  let x := (op.dep 1).slot
  let y := (op.dep 2).slot
  let vt := (op.dep 0).vtype
  orRaise st ((st.slot x).size (typeSize (op.dep 1).vtype)) fun size1 =>
    orRaise st ((st.slot y).size (typeSize (op.dep 2).vtype)) fun size2 =>
      if dry ∧ size1 ≠ size2 then .reject
      else
        let st1 := alloc dry st o (typeSize vt)
        if dry then .ok st1
        else
          orUb (loadSlot st1 x (size1 * typeSize vt)) fun cs =>
            orUb (loadSlot st1 y (size1 * typeSize vt)) fun ds =>
              orUb (storeSlot st1 o (sem.bytes (.dot vt size1) [dataOf cs, dataOf ds]
                (typeSize vt))) .ok

/-- record_ts.cpp:2004-2009: the expected size of an operand, computed modulo 2^32. -/
def expectedSize (base : Nat) (sel : Bool × Bool → Bool) : List (Nat × Bool × Bool) → Nat
  | [] => base % 2 ^ 32
  | d :: ds => expectedSize (if sel d.2 then base * d.1 % 2 ^ 32 else base) sel ds

/-- record_ts.cpp:1981-2046 `replay_batched_gemm`. -/
def replayGemm (sem : Sem) (dry : Bool) (st : RState) (op : Op) (flags M N K grid : Nat)
    (batch : List (Nat × Bool × Bool)) : Res RState :=
  let o := (op.dep 0).slot
  let x := (op.dep 1).slot
  let y := (op.dep 2).slot
  let vt := (op.dep 0).vtype
  let minA := expectedSize (M * K) (·.1) batch
  let minB := expectedSize (K * N) (·.2) batch
  orRaise st ((st.slot x).size (typeSize (op.dep 1).vtype)) fun size1 =>
    if size1 ≠ minA then (if dry then .reject else .abort)
    else
      orRaise st ((st.slot y).size (typeSize (op.dep 2).vtype)) fun size2 =>
        if size2 ≠ minB then (if dry then .reject else .abort)
        else
          let st1 := alloc dry st o (grid * M * N * typeSize vt)
          if dry then .ok st1
          else
            orUb (loadSlot st1 x (operandSize (M * K) batch (·.1) * typeSize vt)) fun cs =>
              orUb (loadSlot st1 y (operandSize (K * N) batch (·.2) * typeSize vt)) fun ds =>
                orUb (storeSlot st1 o (sem.bytes (.gemm vt flags M N K batch)
                  [dataOf cs, dataOf ds] (grid * M * N * typeSize vt))) .ok

/-- record_ts.cpp:2160-2189: the size of an entry of a parameter block. -/
def entrySize (a : Access) : Nat :=
  if a.ptype = .input then (if a.ptrAccess then 8 else typeSize a.vtype) else a.tsize

/-- record_ts.cpp:2160-2195: the size of the block, rounded up to a multiple of 8. -/
def blockSize (as : List Access) : Nat :=
  (as.foldl (fun n a => max n (a.offset + entrySize a)) 0 + 7) / 8 * 8

/-- The bytes that `aggregate` (llvm_ts.cpp:956-994) stores for an entry: the value of
`src`, or, if the size is negative, the bytes at this address. -/
def entryBytes (st : RState) (a : Access) : Option (List (Cell Nat)) :=
  if a.ptype = .input then
    if a.ptrAccess then
      some (match (st.slot a.slot).data with
        | some p => (List.range 8).map (.ref p)
        | none => List.replicate 8 (.byte 0))
    else if typeSize a.vtype = 0 then some []
    else loadSlot st a.slot (typeSize a.vtype)
  else some ((le a.tsize a.data).map .byte)

/-- Write the entries into the block. -/
def writeEntries (st : RState) : List Access → List (Cell Nat) → Option (List (Cell Nat))
  | [], cs => some cs
  | a :: as, cs =>
    (entryBytes st a).bind fun w => (patch cs a.offset w).bind (writeEntries st as)

/-- record_ts.cpp:2131-2210 `replay_aggregate`.  The addresses of the entries are
determined before the block is allocated.  The temporary array `agg` is not modelled. -/
def replayAggregate (dry : Bool) (st : RState) (op : Op) : Res RState :=
  let d := (op.dep 0).slot
  let as := op.deps.drop 1
  let st1 := alloc dry st d (blockSize as)
  if dry then .ok st1
  else
    orUb (loadSlot st1 d (blockSize as)) fun cs =>
      orUb (writeEntries { st1 with slot := st.slot } as cs) fun cs1 => orUb (storeSlot st1 d cs1) .ok

/-- record_ts.cpp:510-527 `replay_opaque_width`. -/
def replayOpaqueWidth (dry : Bool) (st : RState) (op : Op) : Res RState :=
  let s := (op.dep 0).slot
  let o := (op.dep 1).slot
  let st1 := alloc dry st o (typeSize (op.dep 1).vtype)
  orRaise st1 ((st1.slot s).size (typeSize (op.dep 0).vtype)) fun size =>
    if dry then .ok st1
    else orUb (storeSlot st1 o ((le 4 size).map .byte)) .ok

/-- record_ts.cpp:544-555 `replay_init_undefined`. -/
def replayUndef (dry : Bool) (st : RState) (op : Op) : Res RState :=
  .ok (alloc dry st (op.dep 0).slot (op.size % 2 ^ 32 * typeSize (op.dep 0).vtype))

/-- record_ts.cpp:333-414: one operation. -/
def replayOp (sem : Sem) (dry : Bool) (st : RState) (op : Op) : Res RState :=
  match op.kind with
  | .barrier => .ok st
  | .launch k => replayLaunch sem dry st op k
  | .memset v => replayMemset dry st op v
  | .memcpy => replayMemcpy dry st op
  | .compress => replayCompress sem dry st op
  | .mkperm buckets bs => replayMkperm sem dry st op buckets bs
  | .blockReduce rop => replayBlockReduce sem dry st op rop
  | .prefixReduce rop ex rev => replayPrefixReduce sem dry st op rop ex rev
  | .reduceBool rop => replayReduceBool sem dry st op rop
  | .dot => replayDot sem dry st op
  | .gemm flags M N K grid batch => replayGemm sem dry st op flags M N K grid batch
  | .aggregate => replayAggregate dry st op
  | .opaqueWidth => replayOpaqueWidth dry st op
  | .undef => replayUndef dry st op

/-- record_ts.cpp:331-415: all operations (none of the modelled ones is disabled). -/
def replayOps (sem : Sem) (dry : Bool) : RState → List Op → Res RState
  | st, [] => .ok st
  | st, op :: ops => (replayOp sem dry st op).bind fun st1 => replayOps sem dry st1 ops

/-- An evaluated variable that is passed to `jit_freeze_replay`. -/
structure InVar where
  vt : Nat
  size : Nat
  data : Nat
deriving DecidableEq, Repr

/-- record_ts.cpp:173-177 `init_from_input`: the product is computed with 32 bits. -/
def initSlot (v : InVar) : Slot :=
  { data := some v.data, allocSize := typeSize v.vt * v.size % 2 ^ 32,
    dataSize := typeSize v.vt * v.size % 2 ^ 32 }

/-- record_ts.cpp:313-328: the slots before the first operation. -/
def initSlots : List Nat → List InVar → (Nat → Slot) → (Nat → Slot)
  | s :: ss, v :: vs, f => initSlots ss vs fun t => if t = s then initSlot v else f t
  | _, _, f => f

/-- A result of a replay: one of the inputs, or a new variable that owns its memory. -/
inductive OutVar where
  | same (i : Nat)
  | new (vt data size : Nat)
deriving DecidableEq, Repr

/-- record_ts.cpp:424-458: create the outputs. -/
def makeOutputs (rc : Recording) (st : RState) : List Access → Res (List OutVar)
  | [] => .ok []
  | a :: as =>
    let v := st.slot a.slot
    if (rc.var a.slot).init then
      (makeOutputs rc st as).bind fun os => .ok (.same (rc.var a.slot).index :: os)
    else
      match v.data with
      | none => .abort
      | some p =>
        orRaise st (v.size (typeSize a.vtype)) fun size =>
          (makeOutputs rc st as).bind fun os => .ok (.new a.vtype p size :: os)

/-- record_ts.cpp:460-475: release the memory of all slots that are neither inputs nor
outputs. -/
def freeTemps (rc : Recording) : List Nat → RState → RState
  | [], st => st
  | s :: ss, st =>
    freeTemps rc ss
      (if (rc.var s).init = false ∧ (rc.outputs.any fun a => decide (a.slot = s)) = false then
        match (st.slot s).data with
        | some a => (mfree st a).setSlot s {}
        | none => st
      else st)

/-- record_ts.cpp:292-477 `Recording::replay` without dry run, with the memory `heap`. -/
def replay (sem : Sem) (rc : Recording) (ins : List InVar)
    (heap : Nat → Option (List (Cell Nat))) (next : Nat) : Res (List OutVar × RState) :=
  (replayOps sem false
    { slot := initSlots rc.inputs ins fun _ => {}, heap := heap, next := next } rc.ops).bind
    fun st => (makeOutputs rc st rc.outputs).bind fun os =>
      .ok (os, freeTemps rc (List.range rc.n) st)

/-- record_ts.cpp:2926-2939 `jitc_freeze_dry_run`; `reject` is the result 0. -/
def dryRun (sem : Sem) (rc : Recording) (ins : List InVar)
    (heap : Nat → Option (List (Cell Nat))) (next : Nat) : Res RState :=
  let st : RState := { slot := initSlots rc.inputs ins fun _ => {}, heap := heap, next := next }
  if rc.dry then replayOps sem true st rc.ops else .ok st

end Verif.Freeze
