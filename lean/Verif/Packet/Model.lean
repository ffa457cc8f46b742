import Verif.Packet.Spec
import Verif.Atomic.Model
import Verif.Par.Prog

/-!
# Packet gathers and scatters of the LLVM backend: model (C69, C70)

Memory consists of whole elements.  A vector of the generated code is a function of the lane.
-/
namespace Verif.Packet

open Verif.Par
open Verif.Atomic (Target gep)

variable {V : Type}

/-- The instruction `shufflevector` for two vectors with `w` elements -/
def shuffle (w : Nat) (a b : Nat → V) (pos : Nat → Nat) : Nat → V := fun i => if pos i < w then a (pos i) else b (pos i - w)

/-- llvm_packet.cpp:21-29 `perm4`.  (Bit operations on unsigned numbers are written with `/` and `%`.) -/
def perm4 (w : Nat) (a b : Nat → V) (pattern : Nat) : Nat → V :=
  shuffle w a b fun i =>
    let pat := pattern >>> ((i % 4) * 3)
    i / 4 * 4 + pat % 4 + pat / 4 % 2 * w

/-- llvm_packet.cpp:31-39 `perm8` -/
def perm8 (w : Nat) (a b : Nat → V) (pattern : Nat) : Nat → V :=
  shuffle w a b fun i =>
    let pat := pattern >>> ((i % 8) * 4)
    i / 8 * 8 + pat % 8 + pat / 8 % 2 * w

/-- llvm_packet.cpp:42 -/
def unpacklo : Nat := 0b101001100000
/-- llvm_packet.cpp:43 -/
def unpackhi : Nat := 0b111011110010
/-- llvm_packet.cpp:44 -/
def movelh : Nat := 0b101100001000
/-- llvm_packet.cpp:45 -/
def movehl : Nat := 0b011010111110

/-- llvm_packet.cpp:47-51: two vectors -/
def permute2 (w : Nat) (v : Nat → Nat → V) : List (Nat → V) :=
  let c0 := 0b110010100000
  let c1 := 0b111011101001
  [perm4 w (v 0) (v 1) c0, perm4 w (v 0) (v 1) c1]

/-- llvm_packet.cpp:52-60: four vectors -/
def permute4 (w : Nat) (v : Nat → Nat → V) : List (Nat → V) :=
  let t0 := perm4 w (v 0) (v 1) unpacklo
  let t1 := perm4 w (v 2) (v 3) unpacklo
  let t2 := perm4 w (v 0) (v 1) unpackhi
  let t3 := perm4 w (v 2) (v 3) unpackhi
  [perm4 w t0 t1 movelh, perm4 w t1 t0 movehl, perm4 w t2 t3 movelh, perm4 w t3 t2 movehl]

/-- llvm_packet.cpp:61-91: eight vectors -/
def permute8 (w : Nat) (v : Nat → Nat → V) : List (Nat → V) :=
  let c0 := 0b10111010100110000011001000010000
  let c1 := 0b11111110110111000111011001010100
  let t0 := perm4 w (v 0) (v 1) unpacklo
  let t1 := perm4 w (v 0) (v 1) unpackhi
  let t2 := perm4 w (v 2) (v 3) unpacklo
  let t3 := perm4 w (v 2) (v 3) unpackhi
  let t4 := perm4 w (v 4) (v 5) unpacklo
  let t5 := perm4 w (v 4) (v 5) unpackhi
  let t6 := perm4 w (v 6) (v 7) unpacklo
  let t7 := perm4 w (v 6) (v 7) unpackhi
  let t8 := perm4 w t0 t2 movelh
  let t9 := perm4 w t2 t0 movehl
  let ta := perm4 w t1 t3 movelh
  let tb := perm4 w t3 t1 movehl
  let tc := perm4 w t4 t6 movelh
  let td := perm4 w t6 t4 movehl
  let te := perm4 w t5 t7 movelh
  let tf := perm4 w t7 t5 movehl
  [perm8 w t8 tc c0, perm8 w t9 td c0, perm8 w ta te c0, perm8 w tb tf c0,
   perm8 w t8 tc c1, perm8 w t9 td c1, perm8 w ta te c1, perm8 w tb tf c1]

/-- llvm_packet.cpp:41-95 `jitc_llvm_permute_n`; `none` is an exception. -/
def permuteN (w n : Nat) (v : Nat → Nat → V) : Option (List (Nat → V)) :=
  if n = 2 then some (permute2 w v)
  else if n = 4 then some (permute4 w v)
  else if n = 8 then some (permute8 w v)
  else none

/-! ### Gathers -/

/-- llvm_packet.cpp:97-125 `gather_packet_recursive`: the vectors `%v<l>_<i>_<j>`, as a function of `j`.  `load k` is the
vector that lane `k` loads.  The first argument bounds the depth of the recursion (`none`: it does not end). -/
def gatherRec (w n : Nat) (load : Nat → Nat → V) : Nat → Nat → Nat → Option (Nat → Nat → V)
  | 0, _, _ => none
  | fuel + 1, l, i =>
    let s := w >>> l
    if s = n then some fun j => load (i * n + j)
    else
      match gatherRec w n load fuel (l + 1) (2 * i), gatherRec w n load fuel (l + 1) (2 * i + 1) with
      | some a, some b => some fun j => shuffle (s / 2) (a j) (b j) fun k => k
      | _, _ => none

/-- llvm_packet.cpp:131-161: the generated function `@gather_<n>x<H>` -/
def gatherFn (w n : Nat) (load : Nat → Nat → V) : Option (List (Nat → V)) :=
  match gatherRec w n load (w + 1) 0 0 with
  | some v => permuteN w n v
  | none => none

/-- Outcomes: an exception, undefined behaviour, a result -/
inductive Res (α : Type) where
  | raise
  | ub
  | ok (a : α)

/-- llvm_packet.cpp:163-197 `jitc_llvm_render_gather_packet` and the generated code.  Lanes that are switched off read
from `@zero_<m>_<n>`.  The loads of a lane must be aligned to the size of a packet and refer to valid memory.  (Booleans are
stored as bytes and converted one by one, lines 192-196; this is not modelled.) -/
def renderGather (w n : Nat) (t : Target) (zero : V) (mem : Nat → Option V) (index : Nat → Nat) (mask : Nat → Bool) :
    Res (List (Nat → V)) :=
  let ptr := fun l => gep t.base (n * 2 ^ t.shift) t.size (index l)
  if (List.range w).all fun l => !mask l || (decide (ptr l % (2 ^ t.shift * n) = 0) &&
      (List.range n).all fun e => (mem (ptr l + 2 ^ t.shift * e)).isSome) then
    match gatherFn w n fun l e => if mask l then (mem (ptr l + 2 ^ t.shift * e)).getD zero else zero with
    | some r => .ok r
    | none => .raise
  else .ub

/-- llvm_eval.cpp:1006-1020: a gather of single elements; the pointer of a lane must be valid. -/
def renderGather1 (w : Nat) (t : Target) (zero : V) (mem : Nat → Option V) (index : Nat → Nat) (mask : Nat → Bool) :
    Res (List (Nat → V)) :=
  let ptr := fun l => gep t.base (2 ^ t.shift) t.size (index l)
  if (List.range w).all fun l => !mask l || (mem (ptr l)).isSome then
    .ok [fun l => if mask l then (mem (ptr l)).getD zero else zero]
  else .ub

/-- op.cpp:2322-2326, llvm_packet.cpp:455-457: the largest power of two, at most `ps`, that divides `n`.  (`n & (ps - 1)` is
`n % ps`.)  The first argument bounds the number of iterations. -/
def packetSize (n : Nat) : Nat → Nat → Nat
  | 0, ps => ps
  | fuel + 1, ps => if n % ps ≠ 0 then packetSize n fuel (ps / 2) else ps

/-- Results of several operations one after another -/
def Res.append {α : Type} : Res (List α) → Res (List α) → Res (List α)
  | .ok a, .ok b => .ok (a ++ b)
  | .raise, _ => .raise
  | .ub, _ => .ub
  | .ok _, x => x

/-- Results of the operations `0 .. n - 1` -/
def collect {α : Type} (f : Nat → Res (List α)) : Nat → Res (List α)
  | 0 => .ok []
  | n + 1 => Res.append (collect f n) (f n)

/-- op.cpp:2258-2379 `jitc_var_gather_packet` on the LLVM backend for an array with more than one entry, and the execution of
its result by `w` lanes.  `other` stands for the conditions of lines 2290-2300 that do not involve the packet size and the
alignment.  `mask` is the mask after `jitc_var_mask_apply`.  Products and sums of indices are computed with 32 bits.  The first
argument bounds the depth of the recursion (line 2333). -/
def gatherPacket (w : Nat) (t : Target) (unaligned other : Bool) (zero : V) (mem : Nat → Option V) (mask : Nat → Bool) :
    Nat → Nat → (Nat → Nat) → Res (List (Nat → V))
  | 0, _, _ => .raise
  | fuel + 1, n, index =>
    if n = 1 then .raise
    else if t.size % n ≠ 0 ∧ t.size ≠ 1 then .raise
    else if other || decide (n % 2 ≠ 0) || unaligned then
      collect (fun i => renderGather1 w t zero mem (fun l => (index l * n + i) % 2 ^ 32) mask) n
    else
      let max_packet_size := min 8 w
      if n &&& (n - 1) ≠ 0 ∨ n > max_packet_size then
        if max_packet_size = 0 then .raise
        else
          let ps := packetSize n 4 max_packet_size
          collect (fun i => gatherPacket w t unaligned other zero mem mask fuel ps
            fun l => (index l * (n / ps) % 2 ^ 32 + i) % 2 ^ 32) (n / ps)
      else renderGather w n t zero mem index mask

/-! ### Scatters -/

/-- llvm_packet.cpp:351-368: lane `k` updates its packet at address `p` with the vector `row`: load, combination and store, or only a
store.  Accesses must be aligned to the size of a packet (an access to `none` is undefined behaviour); elements are accessed
one after another. -/
def storeRow (op : Option (V → V → V)) (tsize n p : Nat) (row : Nat → V) : Prog (Option Nat) V Unit :=
  let addr := fun e => if p % (tsize * n) = 0 then some (p + tsize * e) else none
  match op with
  | none => Prog.loop n () fun e _ => Prog.put (addr e) (row e)
  | some f =>
    Prog.bind (Prog.loop n row fun e acc => Prog.bind (Prog.get (addr e)) fun x => .pure fun e' => if e' = e then f x (row e) else acc e')
      fun row' => Prog.loop n () fun e _ => Prog.put (addr e) (row' e)

/-- llvm_packet.cpp:320-390 `scatter_packet_recursive` with the vectors `%v<l>_<i>_<j>` (a function of `j`).  (The second
operand of the shuffles is undefined and not used.)  The first argument bounds the depth of the recursion (an access to `none`: it does not end). -/
def scatterRec (op : Option (V → V → V)) (tsize w n : Nat) (ptr : Nat → Nat) (mask : Nat → Bool) :
    Nat → Nat → Nat → (Nat → Nat → V) → Prog (Option Nat) V Unit
  | 0, _, _, _ => .read none fun _ => .pure ()
  | fuel + 1, l, i, v =>
    let s := w >>> l
    if s = n then
      Prog.loop n () fun j _ => if mask (i * n + j) then storeRow op tsize n (ptr (i * n + j)) (v j) else .pure ()
    else
      let hs := s / 2
      Prog.bind (scatterRec op tsize w n ptr mask fuel (l + 1) (2 * i) fun j => shuffle s (v j) (v j) fun k => k + 0 * hs) fun _ =>
        scatterRec op tsize w n ptr mask fuel (l + 1) (2 * i + 1) fun j => shuffle s (v j) (v j) fun k => k + 1 * hs

/-- llvm_packet.cpp:392-428 `jitc_llvm_scatter_packet_render_function`: the generated function -/
def scatterFn (op : Option (V → V → V)) (tsize w n : Nat) (ptr : Nat → Nat) (mask : Nat → Bool) (v : Nat → Nat → V) : Prog (Option Nat) V Unit :=
  match permuteN w n v with
  | some r => scatterRec op tsize w n ptr mask (w + 1) 0 0 fun j => r[j]?.getD (v j)
  | none => .read none fun _ => .pure ()

/-- llvm_packet.cpp:430-485 `jitc_llvm_render_scatter_packet` and the execution of the generated code.  `index` is the index of the first element.
(Booleans are converted to bytes one by one, lines 468-479; this is not modelled.) -/
def renderScatter (op : Option (V → V → V)) (w n : Nat) (t : Target) (index : Nat → Nat) (val : Nat → Nat → V) (mask : Nat → Bool) :
    Prog (Option Nat) V Unit :=
  let ps := packetSize n 4 (min 8 w)
  Prog.loop (n / ps) () fun c _ =>
    let offset := c * ps
    scatterFn op (2 ^ t.shift) w ps (fun l => gep ((t.base + 2 ^ t.shift * offset) % 2 ^ 64) (2 ^ t.shift) t.size (index l)) mask fun i => val (offset + i)

/-- op.cpp:3088-3316 `jitc_var_scatter_packet` on the LLVM backend if packets are used (lines 3204-3240), executed by thread `a`: the index is multiplied by `n`
with 32 bits.  `slot` is the change of the index in the mode `Expand` (op.cpp:2860-2890; otherwise it returns its second argument).  In debug mode,
lanes are switched off if the index (after this change) exceeds the size of the target (lines 3289-3295). -/
def scatterPacket (op : Option (V → V → V)) (debug : Bool) (w n : Nat) (t : Target) (slot : Nat → Nat → Nat) (a : Nat) (o : Op V) : Prog (Option Nat) V Unit :=
  let index := fun l => slot a (o.index l * n % 2 ^ 32)
  renderScatter op w n t index o.val fun l => o.mask l && (!debug || decide (index l < t.size))

/-- The operations of a thread -/
def scatterThread (op : Option (V → V → V)) (debug : Bool) (w n : Nat) (t : Target) (slot : Nat → Nat → Nat) (a : Nat) : List (Op V) → Prog (Option Nat) V Unit
  | [] => .pure ()
  | o :: os => Prog.bind (scatterPacket op debug w n t slot a o) fun _ => scatterThread op debug w n t slot a os

/-- The threads of a kernel -/
def scatterKernel (op : Option (V → V → V)) (debug : Bool) (w n : Nat) (t : Target) (slot : Nat → Nat → Nat) (threads : List (List (Op V))) : Phase (Option Nat) V :=
  (threads.length, fun a => scatterThread op debug w n t slot a (threads[a]?.getD []))

end Verif.Packet
