import Mathlib.Data.List.Basic
import Mathlib.Data.List.Perm.Subperm
import Mathlib.Tactic.Common

/-!
# C34: the layout of the values captured by a virtual function call

`/repo/src/call.cpp:65-117, 135-296, 430-480`, `/repo/src/call.h:52-90, 277-306`,
`/repo/src/llvm_packet.cpp:188-301`, `/repo/src/cuda_eval.cpp:325-375`.

All byte counts are natural numbers.  In the program they are 32 bit integers; every intermediate value of
the layout is at most the final size of the data block, so the two agree while that size is below `2^32`.
-/
namespace Verif.Call

/-- `JitBackend` (jit.h) -/
inductive Backend
  | llvm | cuda | metal
deriving DecidableEq, Repr

/-- `CallData::SizeBucket::size_from_id` (call.h:78-80): `8u >> (bucket_id & 3u)` -/
def bsize (b : Nat) : Nat := 8 >>> (b &&& 3)

/-- `size_class_from_size` (call.h:83-85) -/
def sizeClass (size : Nat) : Nat := if size = 8 then 0 else if size = 4 then 1 else if size = 2 then 2 else 3

/-- `CallData::SizeBucket::SizeBucket` (call.cpp:72-93): `pktOk` says if the value can be loaded as part of
a packet (always, except for some types on Metal) -/
def bucketOf (pktOk : Bool) (size : Nat) : Nat := (if pktOk then 0 else 4) + sizeClass size

/-- A captured value (`CallData::CaptureSlot`, call.h:90-99) before layout: variable and bucket -/
structure Cap where
  ref : Nat
  bucket : Nat
deriving DecidableEq, Repr

/-- `CallData::CaptureSlot` (call.h:90-99) -/
structure Slot where
  ref : Nat
  offset : Nat
  bucket : Nat
deriving DecidableEq, Repr

/-- `align_up` (common.h:113-115) -/
def alignUp (x a : Nat) : Nat := (x + a - 1) / a * a

/-- `jitc_call_pick_llvm_packet_count` (call.h:279-288); `cand` is the loop variable -/
def pickPacket (rem cand : Nat) : Nat :=
  if cand < 2 then 1
  else if min rem cand * 100 ≥ cand * 75 then cand
  else pickPacket rem (cand / 2)
termination_by cand

/-- `jitc_call_pick_word_chunk_size` (call.h:292-302) -/
def pickChunk (offset rem cand : Nat) : Nat :=
  if cand < 8 then 4
  else if offset % cand = 0 ∧ min rem cand * 100 ≥ cand * 75 then cand
  else pickChunk offset rem (cand / 2)
termination_by cand

/-- `llvm_call_data_packet_cap` (call.cpp:67-69) -/
def packetCap (width : Nat) : Nat := max 1 (min 8 width)

/-- `bucket_count` (call.cpp:182-193) -/
def count (caps : List Cap) (b : Nat) : Nat := caps.countP fun c => c.bucket = b

/-- `max_field_size` (call.cpp:183, 191) -/
def maxField (caps : List Cap) : Nat := caps.foldl (fun m c => max m (bsize c.bucket)) 1

/-- `coalesceable_bytes` (call.cpp:184, 192-193) -/
def coalBytes (caps : List Cap) : Nat := caps.foldl (fun m c => if c.bucket < 4 then m + bsize c.bucket else m) 0

/-- `bucket_align` (call.cpp:201-207) -/
def bucketAlign (be : Backend) (cap : Nat) (cnt : Nat → Nat) (c : Nat) : Nat :=
  (if be = .llvm then pickPacket (cnt c) cap else 1) * bsize c

/-- `block_align` (call.cpp:215-225) -/
def blockAlign (be : Backend) (alignment cap : Nat) (caps : List Cap) : Nat :=
  if be = .llvm then
    [0, 1, 2, 3].foldl (fun a c => if count caps c = 0 then a else max a (bucketAlign be cap (count caps) c)) (maxField caps)
  else max (maxField caps) (pickChunk 0 ((coalBytes caps + 3) / 4 * 4) alignment)

/-- One step of the insertion sort (call.cpp:238-245): the list is the part of `bucket_order` that is
sorted already, backwards -/
def insRev (a : Nat → Nat) (c : Nat) : List Nat → List Nat
  | [] => [c]
  | x :: xs => if a x < a c then x :: insRev a c xs else c :: x :: xs

/-- `bucket_order` (call.cpp:234-246) -/
def bucketOrder (be : Backend) (a : Nat → Nat) : List Nat :=
  if be = .llvm then ([1, 2, 3].foldl (fun l c => insRev a c l) [0]).reverse else [0, 1, 2, 3]

/-- The local variables of `jitc_call_layout_instance` used by `place_bucket` (call.cpp:248-251), and the
fields of `layout` it changes -/
structure Place where
  slot : Nat → Nat := fun _ => 0
  off : Nat → Nat := fun _ => 0
  nextSlot : Nat := 0
  nextOffset : Nat
  bstart : Nat → Nat := fun _ => 0
  bcount : Nat → Nat := fun _ => 0
  cend : Nat := 0
  ccount : Nat := 0

/-- `place_bucket` (call.cpp:256-277) -/
def place (lo base : Nat) (cnt : Nat → Nat) (s : Place) (b : Nat × Nat) : Place :=
  if cnt b.1 = 0 then s
  else
    let at_ := alignUp s.nextOffset b.2
    let bytes := cnt b.1 * bsize b.1
    { slot := fun k => if k = b.1 then s.nextSlot else s.slot k
      off := fun k => if k = b.1 then at_ else s.off k
      nextSlot := s.nextSlot + cnt b.1
      nextOffset := at_ + bytes
      bstart := fun k => if k = b.1 ∧ b.1 < 4 then lo + s.nextSlot else s.bstart k
      bcount := fun k => if k = b.1 ∧ b.1 < 4 then cnt b.1 else s.bcount k
      cend := if b.1 < 4 then max s.cend (at_ - base + bytes) else s.cend
      ccount := if b.1 < 4 then s.ccount + cnt b.1 else s.ccount }

/-- The order in which the buckets are placed, and their alignments (call.cpp:279-282) -/
def places (be : Backend) (cap : Nat) (cnt : Nat → Nat) : List (Nat × Nat) :=
  (bucketOrder be (bucketAlign be cap cnt)).map (fun b => (b, bucketAlign be cap cnt b)) ++ [0, 1, 2, 3].map (fun c => (4 + c, bsize c))

/-- The local variables of the loop that moves the slots (call.cpp:284-292): next index and byte offset of
every bucket, and `reordered` -/
structure Move where
  slot : Nat → Nat
  off : Nat → Nat
  out : Nat → Slot

/-- Body of the loop (call.cpp:287-291) -/
def move (s : Move) (c : Cap) : Move :=
  { slot := fun k => if k = c.bucket then s.slot k + 1 else s.slot k
    off := fun k => if k = c.bucket then s.off k + bsize c.bucket else s.off k
    out := fun k => if k = s.slot c.bucket then ⟨c.ref, s.off c.bucket, c.bucket⟩ else s.out k }

/-- `CallData::InstanceLayout` (call.h:113-141) -/
structure Layout where
  slotStart : Nat
  slotCount : Nat
  dataOffset : Nat
  cend : Nat
  ccount : Nat
  bstart : Nat → Nat
  bcount : Nat → Nat

/-- Parameters of the layout: backend, `alignment`, `llvm_pkt_cap` (call.cpp:175-179) -/
structure Params where
  be : Backend
  alignment : Nat
  cap : Nat

/-- The buckets of an instance after the placement (call.cpp:227-282) -/
def placed (p : Params) (lo dataSize : Nat) (caps : List Cap) : Place :=
  (places p.be p.cap (count caps)).foldl (place lo (alignUp dataSize (blockAlign p.be p.alignment p.cap caps)) (count caps))
    { nextOffset := alignUp dataSize (blockAlign p.be p.alignment p.cap caps) }

/-- `jitc_call_layout_instance` (call.cpp:175-296).  `lo` is the index of the first slot, `old` the contents
of the scratch buffer; the result is the new layout, the slots that replace `slots[lo..hi)` and the new value
of `data_size`. -/
def layoutInstance (p : Params) (old : Nat → Slot) (lo dataSize : Nat) (caps : List Cap) : Layout × List Slot × Nat :=
  let pl := placed p lo dataSize caps
  let mv := caps.foldl move ⟨pl.slot, pl.off, old⟩
  ({ slotStart := lo, slotCount := caps.length, dataOffset := alignUp dataSize (blockAlign p.be p.alignment p.cap caps),
     cend := pl.cend, ccount := pl.ccount, bstart := pl.bstart, bcount := pl.bcount },
   (List.range caps.length).map mv.out, pl.nextOffset)

/-- The loop over the instances (call.cpp:436-471): layouts, all slots, `data_size` -/
def layoutAll (p : Params) (old : Nat → Slot) : List (List Cap) → List Layout × List Slot × Nat → List Layout × List Slot × Nat
  | [], s => s
  | caps :: rest, (ls, slots, size) =>
    let r := layoutInstance p old slots.length size caps
    layoutAll p old rest (ls ++ [r.1], slots ++ r.2.1, r.2.2)

/-- Layout of a call (call.cpp:424-474): layouts of the instances, slots, size of the data block -/
def layoutCall (p : Params) (old : Nat → Slot) (insts : List (List Cap)) : List Layout × List Slot × Nat :=
  let r := layoutAll p old insts ([], [], 0)
  (r.1, r.2.1, alignUp r.2.2 p.alignment)

/-- The parameters used by `jitc_var_call` (call.cpp:431-434, call_data_align in call.cpp:97-117): vector
width for LLVM, support of 256 bit loads for CUDA -/
def params (be : Backend) (width : Nat) (wide : Bool) : Params :=
  match be with
  | .llvm => ⟨.llvm, packetCap width * 8, packetCap width⟩
  | .cuda => ⟨.cuda, if wide then 32 else 16, 1⟩
  | .metal => ⟨.metal, 16, 1⟩

/-! ### Loads emitted by the backends -/

/-- A packet load: offset relative to the data block, number of elements, index of the first slot, number of
slots that are read -/
structure Packet where
  off : Nat
  n : Nat
  slot : Nat
  valid : Nat
deriving DecidableEq, Repr

/-- Body of `while (pos < run_len)` (llvm_packet.cpp:248-299): packets, and the final value of `pos` -/
def packets (cap s rel0 k runLen : Nat) (pos : Nat) : List Packet × Nat :=
  if h : pos < runLen ∧ 2 ≤ pickPacket (runLen - pos) cap then
    let p := pickPacket (runLen - pos) cap
    let valid := min (runLen - pos) p
    let r := packets cap s rel0 k runLen (pos + valid)
    (⟨rel0 + pos * s, p, k + pos, valid⟩ :: r.1, r.2)
  else ([], pos)
termination_by runLen - pos
decreasing_by
  have := h.1
  have := h.2
  have : 0 < min (runLen - pos) (pickPacket (runLen - pos) cap) := by omega
  omega

/-- Length of the run without trailing holes (llvm_packet.cpp:229-241): one more than the position of the
last loadable slot among the `n` slots of the bucket starting with `k` -/
def runLen (loadable : Nat → Bool) (k : Nat) : Nat → Nat
  | 0 => 0
  | n + 1 => if loadable (k + n) then n + 1 else runLen loadable k n

/-- `jitc_llvm_render_call_data` (llvm_packet.cpp:188-301) for bucket `c`: the packets and
`packetized_until`.  `loadable k` says if the value in slot `k` exists and is scheduled. -/
def renderBucket (width : Nat) (slots : List Slot) (l : Layout) (loadable : Nat → Bool) (c : Nat) : List Packet × Nat :=
  let k := l.bstart c
  if l.bcount c = 0 then ([], k)
  else
    let rel0 := ((slots[k]?.map Slot.offset).getD 0) - l.dataOffset
    let n := runLen loadable k (l.bcount c)
    if n = 0 then ([], k)
    else
      let r := packets (min width 8) (bsize c) rel0 k n 0
      (r.1, k + r.2)

/-- Vector loads in the CUDA backend (cuda_eval.cpp:350-374): offsets and widths.  (Metal:
metal_eval.cpp:1368-1384 with `max_chunk = 16`.) -/
def chunks (maxChunk end_ : Nat) (p : Nat) : List (Nat × Nat) :=
  if p < end_ then
    (p, pickChunk p (end_ - p) maxChunk) :: chunks maxChunk end_ (p + max 1 (pickChunk p (end_ - p) maxChunk))
  else []
termination_by end_ - p

/-- The loads of an instance (cuda_eval.cpp:330-374) -/
def renderChunks (maxChunk : Nat) (l : Layout) : List (Nat × Nat) :=
  if 2 ≤ l.ccount then chunks maxChunk ((l.cend + 3) / 4 * 4) 0 else []

end Verif.Call
