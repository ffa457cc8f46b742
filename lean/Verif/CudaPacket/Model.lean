import Mathlib.Data.List.Basic
import Mathlib.Logic.Function.Basic
import Mathlib.Data.Nat.Bitwise

/-!
# Gathers, scatters and packets of them on CUDA devices

Sources: `src/cuda_packet.cpp:18-166,328-441` (packets), `src/cuda_eval.cpp:1090-1122` (gathers), `src/cuda_scatter.cpp:25-59` (scatters),
`src/op.cpp:2258-2380,3088-3318` (choice between both), `src/var.cpp:1812-1816`.

What is modelled: the code that is generated for one lane, for every packet size, element size and device: address arithmetic, the division into
vector accesses, packing and unpacking of registers, masks.  Memory consists of bytes.  A register or value is a function from the number of a byte
(little endian) to this byte.  `none` stands for code that is not generated (internal failures) or invalid.

Simplifications: pointers are natural numbers (64-bit arithmetic does not wrap around).
-/
namespace Verif.CudaPacket

abbrev Byte := BitVec 8

/-! ### Vector accesses -/

/-- Bytes of the registers of an access (`dst_bits / 8`, `var_bits / 8`), `cuda_packet.cpp:41-61,351-362` -/
def regBytes (tsize total : Nat) : Nat := if tsize ≥ 4 then tsize else if total % 4 = 0 then 4 else 2

/-- Number of these registers (`dst_count`, `var_count`), same lines -/
def regCount (count tsize : Nat) : Nat :=
  if tsize ≥ 4 then count else if count * tsize % 4 = 0 then count * tsize / 4 else count * tsize / 2

/-- `bytes_per_it`, `cuda_packet.cpp:70-72,373-374`; `b` is 32 or 16 initially -/
def bytesPerIt (total b : Nat) : Nat := if h : total &&& (b - 1) ≠ 0 then bytesPerIt total (b / 2) else b
termination_by b
decreasing_by
  have : b ≠ 0 := by rintro rfl; simp at h
  omega

/-- An access: offset from the address of the packet, number of registers -/
structure Access where
  off : Nat
  regs : Nat

/-- The accesses of a packet of `count` elements of `tsize` bytes, `cuda_packet.cpp:70-119,369-440`.  `wide`: 256-bit accesses are supported
(`cuda_core.cpp:19-24`). -/
def accesses (wide : Bool) (count tsize : Nat) : Option (List Access) :=
  let total := count * tsize
  let perIt := bytesPerIt total (if wide then 32 else 16)
  let regs := perIt * 8 / (regBytes tsize total * 8)
  if regs = 1 ∨ regs = 2 ∨ regs = 4 ∨ regs = 8 then some ((List.range ((total + perIt - 1) / perIt)).map fun i => ⟨i * perIt, regs⟩)
  else none

/-! ### Gathers -/

/-- A load of an access with registers of `nb` bytes, `cuda_packet.cpp:78-119` -/
def load (mem : Nat → Byte) (addr nb : Nat) (r : Nat → Nat → Byte) (a : Access) : Nat → Nat → Byte := fun i k =>
  let first := a.off * 8 / (nb * 8)
  if first ≤ i ∧ i < first + a.regs then mem (addr + a.off + (i - first) * nb + k) else r i k

/-- Unpacking of registers, `cuda_packet.cpp:121-156`.  (`mov` with 16 bits cannot be split into two halves of 16 bits.) -/
def unpack (count tsize : Nat) (r : Nat → Nat → Byte) : Option (List (Nat → Byte)) :=
  let nb := regBytes tsize (count * tsize)
  if tsize = 1 then
    let per := nb * 8 / (tsize * 8)
    if per = 1 ∨ per = 2 ∨ per = 4 then
      some ((List.range (regCount count tsize)).flatMap fun i => (List.range per).map fun j => fun k => r i (j * tsize + k))
    else none
  else if tsize = 2 then
    if nb = 4 then some ((List.range (count / 2)).flatMap fun i => (List.range 2).map fun j => fun k => r i (j * tsize + k))
    else none
  else some ((List.range count).map r)

/-- `jitc_cuda_render_gather_packet`, `cuda_packet.cpp:18-166`, executed by a lane: the elements.  `init` is the initial content of registers,
which are only initialised if a mask is used.  (For masks, conversions see `gatherBool`.) -/
def gatherPacket (wide masked : Bool) (count tsize : Nat) (mem : Nat → Byte) (base index : Nat) (mask : Bool) (init : Nat → Nat → Byte) :
    Option (List (Nat → Byte)) :=
  let addr := base + index * (count * tsize)
  let nb := regBytes tsize (count * tsize)
  match accesses wide count tsize with
  | none => none
  | some l =>
    let r0 := if masked then fun i k => if i < regCount count tsize then 0 else init i k else init
    let r1 := if masked && !mask then r0 else l.foldl (load mem addr nb) r0
    unpack count tsize r1

/-- Conversion to masks, `cuda_packet.cpp:158-165`, `cuda_eval.cpp:1117-1118` -/
def gatherBool (v : Nat → Byte) : Bool := v 0 != 0

/-- Addresses of single elements, `cuda_scatter.cpp:25-35`, `cuda_eval.cpp:1095-1103`; `zero`: the index is the literal 0 -/
def address (zero : Bool) (tsize base index : Nat) : Nat :=
  if zero then base
  else if tsize = 1 then index + base
  else index * tsize + base

/-- A single gather, `cuda_eval.cpp:1090-1122` -/
def gather1 (masked zero : Bool) (tsize : Nat) (mem : Nat → Byte) (base index : Nat) (mask : Bool) : Nat → Byte :=
  if masked && !mask then fun _ => 0 else fun k => mem (address zero tsize base index + k)

/-- `jit_var_mem_map`, `var.cpp:1812-1816`: is an array marked as unaligned?  `w` is the vector width of the LLVM backend. -/
def unalignedFlag (llvm : Bool) (w tsize ptr : Nat) : Bool := if llvm then ptr % min 64 (w * tsize) != 0 else false

/-- `jitc_var_gather_packet`, `op.cpp:2258-2380`, on CUDA devices, executed by a lane; `other` stands for the conditions of lines
2291-2299 that involve neither packet size nor alignment.  `size` is the size of the source. -/
def gatherN (wide masked other unaligned : Bool) (count tsize size : Nat) (mem : Nat → Byte) (base index : Nat) (mask : Bool)
    (init : Nat → Nat → Byte) : Option (List (Nat → Byte)) :=
  if count = 1 then none
  else if size % count ≠ 0 ∧ size ≠ 1 then none
  else if other || decide (count % 2 ≠ 0) || unaligned then
    some ((List.range count).map fun i => gather1 masked false tsize mem base ((index * count + i) % 2 ^ 32) mask)
  else gatherPacket wide masked count tsize mem base index mask init

/-! ### Scatters -/

/-- A register that combines masks, `cuda_packet.cpp:379-383` -/
def boolReg (bs : List Bool) : Nat := (bs.zipIdx.foldl (fun (r : Nat) (x : Bool × Nat) => if x.1 then r ||| (1 <<< (8 * x.2)) else r) 0)

/-- Byte `k` of a number -/
def byteOf (n k : Nat) : Byte := BitVec.ofNat 8 (n >>> (8 * k))

/-- The value of a mask, as it is stored in memory (`selp.u16 %w0, 1, 0`, `cuda_scatter.cpp:47-48`) -/
def boolValue (b : Bool) : Nat → Byte := fun k => if k = 0 then (if b then 1 else 0) else 0

/-- What is scattered: masks or other values -/
inductive Values where
  | bools (v : Nat → Bool)
  | other (v : Nat → Nat → Byte)

/-- Bytes of the elements, as they are stored in memory -/
def Values.bytes : Values → Nat → Nat → Byte
  | .bools v => fun i => boolValue (v i)
  | .other v => v

/-- Packing of registers, `cuda_packet.cpp:376-402` -/
def pack (count tsize : Nat) : Values → Option (Nat → Nat → Byte)
  | .bools v =>
    let ratio := count / regCount count tsize
    some fun i k => byteOf (boolReg ((List.range ratio).map fun j => v (ratio * i + j))) k
  | .other v =>
    if count = regCount count tsize then some v
    else if count = regCount count tsize * 2 then some fun i k => v (2 * i + k / tsize) (k % tsize)
    else if count = regCount count tsize * 4 then some fun i k => v (4 * i + k / tsize) (k % tsize)
    else none

/-- A store of an access, as stores of bytes, `cuda_packet.cpp:405-440` -/
def store (addr nb : Nat) (r : Nat → Nat → Byte) (a : Access) : List (Nat × Byte) :=
  let first := a.off * 8 / (nb * 8)
  (List.range a.regs).flatMap fun j => (List.range nb).map fun k => (addr + a.off + j * nb + k, r (first + j) k)

/-- `jitc_cuda_render_scatter_packet` (without reductions), `cuda_packet.cpp:328-441`, executed by a lane -/
def scatterPacket (wide : Bool) (count tsize base index : Nat) (mask : Bool) (v : Values) : Option (List (Nat × Byte)) :=
  let addr := base + index * tsize
  match accesses wide count tsize, pack count tsize v with
  | some l, some r => some (if mask then l.flatMap (store addr (regBytes tsize (count * tsize)) r) else [])
  | _, _ => none

/-- A single scatter, `cuda_scatter.cpp:38-59` -/
def scatter1 (zero : Bool) (tsize base index : Nat) (mask : Bool) (v : Nat → Byte) : List (Nat × Byte) :=
  if mask then (List.range tsize).map fun k => (address zero tsize base index + k, v k) else []

/-- `jitc_var_scatter_packet` without a reduction, `op.cpp:3088-3318`, on CUDA devices, executed by a lane; `ops`: the flag `PacketOps` is set and the mode is one
of lines 3210-3213 -/
def scatterN (wide ops : Bool) (count tsize size base index : Nat) (mask : Bool) (v : Values) : Option (List (Nat × Byte)) :=
  if size % count ≠ 0 ∧ size ≠ 1 then none
  else if ops && decide (count > 1) && decide (count % 2 = 0) then scatterPacket wide count tsize base (index * count % 2 ^ 32) mask v
  else some ((List.range count).flatMap fun i => scatter1 false tsize base ((index * count + i) % 2 ^ 32) mask (v.bytes i))

/-- Stores in a given order -/
def applyStores (ws : List (Nat × Byte)) (m : Nat → Byte) : Nat → Byte := ws.foldl (fun m w => Function.update m w.1 w.2) m

/-- A lane of a scatter: index of its packet, mask, values -/
structure Lane where
  index : Nat
  mask : Bool
  vals : Values

/-- Executions of a scatter by all lanes: stores of bytes happen in any order. -/
def ScatterExec (wide ops : Bool) (count tsize size base : Nat) (lanes : List Lane) (m m' : Nat → Byte) : Prop :=
  ∃ sts ws, List.Forall₂ (fun (l : Lane) s => scatterN wide ops count tsize size base l.index l.mask l.vals = some s) lanes sts ∧
    ws.Perm sts.flatten ∧ m' = applyStores ws m

end Verif.CudaPacket
