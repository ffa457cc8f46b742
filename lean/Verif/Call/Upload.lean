import Verif.Call.LayoutLoads
import Verif.Llvm.Mem

/-!
# C35: dispatch tables and captured values of virtual function calls, getter tables

`/repo/src/call.cpp:732-760, 783-806, 985-988, 1101-1245`, `/repo/src/llvm_eval.cpp:1652-1690, 1735-1765`.

All byte offsets are natural numbers (32 bit integers in the program, so the size of the buffer must be
below `2^32`).
-/
namespace Verif.Call

open Verif.Par
open Verif.Llvm.Mem (Byte Entry aggregate)

/-- The captured variable: pointer or value in memory (`v->literal`, `v->data`), size of its type -/
structure Src where
  ptr : Bool
  size : Nat
  literal : Nat
  data : Nat

/-- `CallData` (call.h:24-165): ids of the instances, values captured by each of them (with the order of the
traversal), contents of the scratch buffer used by the layout, index of the callable of each instance
(`globals_map.find(..)->second.callable_index`) -/
structure CallNode where
  instId : List Nat
  insts : List (List Cap)
  old : Nat → Slot
  callable : List Nat

/-- Value of an instance in a getter: literal or value in memory -/
inductive Val
  | lit (v : Nat)
  | mem (data : Nat)

/-- `GetterData` (call.h:226-240): type size, values by callable -/
structure GetterNode where
  tsize : Nat
  values : List (Option Val)

/-- The program: layout parameters, live variables, `Call` and `CallGetter` nodes by index -/
structure Env where
  p : Params
  vars : Nat → Option Src
  calls : Nat → CallNode
  getters : Nat → GetterNode

/-- `offset_count` (call.cpp:489, 523, 527) -/
def CallNode.count (c : CallNode) : Nat := c.instId.foldl max 0 + 1

/-- Layout of a call -/
def Env.lay (e : Env) (id : Nat) : List Layout × List Slot × Nat := layoutCall e.p (e.calls id).old (e.calls id).insts

/-- What happens while the kernel is assembled, in order: `jitc_var_call_assemble` starts (and reserves its
slice), it ends, `jitc_var_call_getter_assemble` runs.  Nested calls are assembled between start and end. -/
inductive Ev
  | start (id : Nat)
  | finish (id : Nat)
  | getter (id : Nat)
deriving DecidableEq

/-- Code emitted into the kernel: dispatch through the table at byte `base`, load from the table at `base` -/
inductive Code
  | call (id base : Nat)
  | getter (id base : Nat)

/-- `CallBufferState` (call.h:243-275), `calls_assembled`, and the fields `offset_base`, `data_base`,
`header_offset` of the nodes; `code` is the emitted code -/
structure Buf where
  offSize : Nat := 0
  dataSize : Nat := 0
  data : List (Src × Nat) := []
  calls : List Nat := []
  getters : List Nat := []
  offB : Nat → Nat := fun _ => 0
  dataB : Nat → Nat := fun _ => 0
  hdr : Nat → Nat := fun _ => 0
  code : List Code := []

/-- Captured variables of a call that are alive, and their offsets (call.cpp:796-801) -/
def liveSlots (e : Env) (slots : List Slot) (base : Nat) : List (Src × Nat) :=
  slots.filterMap fun s => (e.vars s.ref).map fun v => (v, base + s.offset)

/-- One event -/
def stepBuf (e : Env) (s : Buf) : Ev → Buf
  -- call.cpp:788-801
  | .start id => { s with
      offB := fun k => if k = id then s.offSize else s.offB k
      dataB := fun k => if k = id then s.dataSize else s.dataB k
      offSize := s.offSize + (e.calls id).count * 8
      dataSize := s.dataSize + (e.lay id).2.2
      data := s.data ++ liveSlots e (e.lay id).2.1 s.dataSize }
  -- call.cpp:947-968 (llvm_eval.cpp:1739-1765), 985-987
  | .finish id => { s with code := s.code ++ [.call id (s.offB id)], calls := s.calls ++ [id] }
  -- call.cpp:739-760 (llvm_eval.cpp:1655-1682)
  | .getter id => { s with
      hdr := fun k => if k = id then s.offSize else s.hdr k
      offSize := s.offSize + alignUp (((e.getters id).values.length + 1) * (e.getters id).tsize) 8
      getters := s.getters ++ [id]
      code := s.code ++ [.getter id s.offSize] }

def runBuf (e : Env) (evs : List Ev) : Buf := evs.foldl (stepBuf e) {}

/-- `data_start` (call.cpp:1118) -/
def dataStart (al : Nat) (s : Buf) : Nat := alignUp s.offSize al

/-- `total` (call.cpp:1119) -/
def total (al : Nat) (s : Buf) : Nat := dataStart al s + s.dataSize

/-- `(data_off << 32) | callable_index` (call.cpp:1150-1153) -/
def packEntry (off idx : Nat) : Nat := (off <<< 32) % 2 ^ 64 ||| idx

/-- `offset_entries` after the loop over the instances (call.cpp:1138-1154) -/
def offsetEntries (e : Env) (al : Nat) (s : Buf) (id : Nat) : List Nat :=
  (List.range (e.calls id).instId.length).foldl (fun es i =>
      es.set ((e.calls id).instId[i]?.getD 0)
        (packEntry (dataStart al s + s.dataB id + (((e.lay id).1[i]?.map Layout.dataOffset).getD 0)) ((e.calls id).callable[i]?.getD 0)))
    (List.replicate (e.calls id).count 0)

/-- Part 1 of the upload, for one call (call.cpp:1156-1171) -/
def offEntries (e : Env) (al : Nat) (s : Buf) (id : Nat) : List Entry :=
  (List.range (e.calls id).count).flatMap fun i =>
    let x := (offsetEntries e al s id)[i]?.getD 0
    [⟨4, s.offB id + i * 8, x % 2 ^ 32⟩, ⟨4, s.offB id + i * 8 + 4, (x >>> 32) % 2 ^ 32⟩]

/-- Part 2 (call.cpp:1175-1183) -/
def dataEntry (al : Nat) (s : Buf) (d : Src × Nat) : Entry :=
  ⟨if d.1.ptr then 8 else -(d.1.size : Int), d.2 + dataStart al s, if d.1.ptr then d.1.literal else d.1.data⟩

/-- An entry of part 3 (call.cpp:1203-1216) -/
def valEntry (tsize off : Nat) : Option Val → Entry
  | none => ⟨tsize, off, 0⟩
  | some (.lit v) => ⟨tsize, off, v⟩
  | some (.mem d) => ⟨-(tsize : Int), off, d⟩

/-- Part 3 of the upload, for one getter (call.cpp:1190-1219) -/
def getterEntries (e : Env) (s : Buf) (id : Nat) : List Entry :=
  ⟨(e.getters id).tsize, s.hdr id, 0⟩ ::
  (List.range (e.getters id).values.length).map fun j =>
    valEntry (e.getters id).tsize (s.hdr id + (j + 1) * (e.getters id).tsize) ((e.getters id).values[j]?.getD none)

/-- The array passed to `jitc_aggregate` (call.cpp:1128-1220) -/
def uploadEntries (e : Env) (al : Nat) (s : Buf) : List Entry :=
  s.calls.flatMap (offEntries e al s) ++ s.data.map (dataEntry al s) ++ s.getters.flatMap (getterEntries e s)

/-- `jitc_call_upload` (call.cpp:1222-1223) with the thread pool of the LLVM backend; `dst` is the buffer -/
def upload (workers ideal : Nat) (e : Env) (al : Nat) (s : Buf) (dst : Nat) : Phase Nat Byte :=
  aggregate workers ideal dst (uploadEntries e al s).length fun i => (uploadEntries e al s)[i]?.getD ⟨0, 0, 0⟩

/-! ### Specification -/

/-- `n` bytes at address `a` as a number (little endian) -/
def readLE (m : Nat → Byte) (a : Nat) : Nat → Nat
  | 0 => 0
  | n + 1 => (m a).toNat + 256 * readLE m (a + 1) n

/-- Byte `k` of the captured variable: of the address for pointers, else of the value in memory -/
def Src.byte (v : Src) (m : Nat → Byte) (k : Nat) : Byte :=
  if v.ptr then BitVec.ofNat 8 (v.literal / 2 ^ (8 * k)) else m (v.data + k)

/-- Number of bytes of the captured variable -/
def Src.bytes (v : Src) : Nat := if v.ptr then 8 else v.size

/-- Value of an instance in a getter, as a number; `none` stands for an instance without value -/
def Val.read (m : Nat → Byte) (tsize : Nat) : Option Val → Nat
  | none => 0
  | some (.lit v) => v % 256 ^ tsize
  | some (.mem d) => readLE m d tsize

/-- Validity of the nodes: one layout and callable per instance, distinct ids, sizes known to Dr.Jit -/
structure EnvOk (e : Env) : Prop where
  inst : ∀ id, (e.calls id).insts.length = (e.calls id).instId.length ∧ (e.calls id).callable.length = (e.calls id).instId.length
  nodup : ∀ id, (e.calls id).instId.Nodup
  callable : ∀ id, ∀ c ∈ (e.calls id).callable, c < 2 ^ 32
  bucket : ∀ id, ∀ caps ∈ (e.calls id).insts, ∀ c ∈ caps, c.bucket < 8 ∧ ∀ v, e.vars c.ref = some v → v.bytes = bsize c.bucket
  tsize : ∀ id, (e.getters id).tsize = 1 ∨ (e.getters id).tsize = 2 ∨ (e.getters id).tsize = 4 ∨ (e.getters id).tsize = 8

/-- Calls that were started, finished, and getters, in order -/
def starts (evs : List Ev) : List Nat := evs.filterMap fun | .start id => some id | _ => none
def finishes (evs : List Ev) : List Nat := evs.filterMap fun | .finish id => some id | _ => none
def getterIds (evs : List Ev) : List Nat := evs.filterMap fun | .getter id => some id | _ => none

/-- No captured value or getter value is stored in the range `[a, b)` -/
def NoSource (e : Env) (a b : Nat) : Prop :=
  (∀ r v, e.vars r = some v → v.ptr = false → v.data + v.size ≤ a ∨ b ≤ v.data) ∧
  ∀ id d, some (Val.mem d) ∈ (e.getters id).values → d + (e.getters id).tsize ≤ a ∨ b ≤ d

end Verif.Call
