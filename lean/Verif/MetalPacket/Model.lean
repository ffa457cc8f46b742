import Verif.CudaPacket.Model

/-!
# Gathers, scatters and packets of them on Metal devices

Sources: `src/metal_packet.cpp:18-91,112-170` (packets), `src/metal_eval.cpp:722-735` (gathers), `src/metal_scatter.cpp:194-213` (scatters),
`src/op.cpp:2258-2380,3088-3318` (choice between both).

What is modelled: the code that is generated for one lane, for every packet size and element size: address arithmetic, the division into words,
reinterpretation of words as vectors of elements, masks.  As in `Verif.CudaPacket`, memory consists of bytes, and a word or value is a function from the number of a byte
to this byte.  `none` stands for code that is not generated (internal failures) or invalid.

Simplifications: pointers are natural numbers (64-bit arithmetic does not wrap around).
-/
namespace Verif.MetalPacket
open Verif.CudaPacket (Byte Values Lane applyStores)

/-- The loop of `metal_packet_chunk_bytes`, `metal_packet.cpp:37-38` (every number is divisible by one) -/
def shrink (total b : Nat) : Nat := if h : 1 < b ∧ total % b ≠ 0 then shrink total (b / 2) else b
termination_by b
decreasing_by omega

/-- `metal_packet_chunk_bytes`, `metal_packet.cpp:35-40` -/
def chunkBytes (tsize total : Nat) : Nat := shrink total (if 4 * tsize > 16 then 16 else 4 * tsize)

/-- Words exist for these sizes only, `metal_packet.cpp:21-31`. -/
def wordType (bytes : Nat) : Bool := bytes == 16 || bytes == 8 || bytes == 4 || bytes == 2 || bytes == 1

/-- Address of word `c`: `$v_base[c]`, `metal_packet.cpp:60-61,67-71,141-142,162-165` -/
def wordAddr (start bytes c : Nat) : Nat := start + c * bytes

/-- `jitc_metal_render_gather_packet`, `metal_packet.cpp:42-91`, executed by a lane: the elements.  (The conversion of masks is that of
`CudaPacket.gatherBool`.) -/
def gatherPacket (masked : Bool) (count tsize : Nat) (mem : Nat → Byte) (base index : Nat) (mask : Bool) : Option (List (Nat → Byte)) :=
  let total := count * tsize
  let bytes := chunkBytes tsize total
  let lanes := bytes / tsize
  let start := base + index * total
  let word := fun c k => if masked && !mask then (0 : Byte) else mem (wordAddr start bytes c + k)
  if wordType bytes then
    some ((List.range count).map fun i => fun k =>
      if lanes = 1 then word (i / lanes) k else word (i / lanes) (i % lanes * tsize + k))
  else none

/-- A single gather, `metal_eval.cpp:722-735` -/
def gather1 (masked : Bool) (tsize : Nat) (mem : Nat → Byte) (base index : Nat) (mask : Bool) : Nat → Byte :=
  if masked then fun k => if mask then mem (base + index * tsize + k) else 0 else fun k => mem (base + index * tsize + k)

/-- `jitc_var_gather_packet`, `op.cpp:2258-2380`, on Metal devices, executed by a lane; `other` stands for the conditions of lines
2291-2299 that do not involve the packet size.  `size` is the size of the source. -/
def gatherN (masked other : Bool) (count tsize size : Nat) (mem : Nat → Byte) (base index : Nat) (mask : Bool) : Option (List (Nat → Byte)) :=
  if count = 1 then none
  else if size % count ≠ 0 ∧ size ≠ 1 then none
  else if other || decide (count % 2 ≠ 0) then
    some ((List.range count).map fun i => gather1 masked tsize mem base ((index * count + i) % 2 ^ 32) mask)
  else gatherPacket masked count tsize mem base index mask

/-- Are masks scattered? -/
def isBool : Values → Bool
  | .bools _ => true
  | .other _ => false

/-- The word `$v_pkt_c`, `metal_packet.cpp:145-160`.  (`as_type` cannot be applied to masks, but these are converted to `uchar` if a word has several elements.) -/
def packWord (lanes tsize : Nat) (v : Values) (c : Nat) : Nat → Byte :=
  if lanes = 1 then v.bytes c else fun k => v.bytes (c * lanes + k / tsize) (k % tsize)

/-- `jitc_metal_render_scatter_packet` (without reductions), `metal_packet.cpp:112-170`, executed by a lane, as stores of bytes -/
def scatterPacket (count tsize base index : Nat) (mask : Bool) (v : Values) : Option (List (Nat × Byte)) :=
  let total := count * tsize
  let bytes := chunkBytes tsize total
  let lanes := bytes / tsize
  let start := base + index * tsize
  if wordType bytes = false ∨ (lanes = 1 ∧ isBool v = true) then none
  else some (if mask then (List.range (total / bytes)).flatMap fun c => (List.range bytes).map fun k =>
    (wordAddr start bytes c + k, packWord lanes tsize v c k) else [])

/-- A single scatter, `metal_scatter.cpp:205-213` -/
def scatter1 (tsize base index : Nat) (mask : Bool) (v : Nat → Byte) : List (Nat × Byte) :=
  if mask then (List.range tsize).map fun k => (base + index * tsize + k, v k) else []

/-- `jitc_var_scatter_packet` without a reduction, `op.cpp:3088-3318`, on Metal devices, executed by a lane; `ops`: the flag `PacketOps` is set and the mode is one
of lines 3210-3213 -/
def scatterN (ops : Bool) (count tsize size base index : Nat) (mask : Bool) (v : Values) : Option (List (Nat × Byte)) :=
  if size % count ≠ 0 ∧ size ≠ 1 then none
  else if ops && decide (count > 1) && decide (count % 2 = 0) then scatterPacket count tsize base (index * count % 2 ^ 32) mask v
  else some ((List.range count).flatMap fun i => scatter1 tsize base ((index * count + i) % 2 ^ 32) mask (v.bytes i))

/-- Executions of a scatter by all lanes: stores of bytes happen in any order. -/
def ScatterExec (ops : Bool) (count tsize size base : Nat) (lanes : List Lane) (m m' : Nat → Byte) : Prop :=
  ∃ sts ws, List.Forall₂ (fun (l : Lane) s => scatterN ops count tsize size base l.index l.mask l.vals = some s) lanes sts ∧
    ws.Perm sts.flatten ∧ m' = applyStores ws m

end Verif.MetalPacket
