import Verif.CudaScatter.Spec

/-!
# Scatter-reductions and other atomic operations on Metal devices

Sources: `src/metal_scatter.cpp` (MSL code of scatter operations), `src/metal_packet.cpp:93-110` (packets).

What is modelled: the helper function that determines lanes with the same address, the reduction of values within
a SIMD group (hardware reduction for coherent groups, butterfly otherwise), packets of values, aggregated and separate increments,
the emulation of floating point minima and maxima by integer atomics, exchange and compare-exchange with masks.

As for CUDA (`Verif.CudaScatter`), lanes that execute an instruction together form a *group*, and masks of lanes are predicates on lane numbers below 32.
Simplifications: SIMD groups have 32 lanes, and the lane number is that of the thread modulo 32 (`metal_scatter.cpp:66-69`); pointers are natural
numbers (64-bit arithmetic does not wrap around).  Hardware reductions (`simd_sum`, ...) combine the values of active lanes in an unspecified order and
bracketing.
-/
namespace Verif.MetalScatter
open Verif.CudaScatter (Group popc lowest Bracketed red runInc)

/-! ### Lanes with the same address -/

/-- `varying`, `metal_scatter.cpp:50`: bits in which the key of some active lane differs from that of the first active lane; keys: `metal_scatter.cpp:71` -/
def varying {V : Type} (g : Group V) (shift : Nat) : Nat → Bool := fun b => match lowest g.active with
  | none => false
  | some f => (List.range 32).any fun l => g.active l && (g.index shift l ^^^ g.index shift f).testBit b

/-- `b_mask`, `metal_scatter.cpp:55` -/
def bMask {V : Type} (g : Group V) (shift b : Nat) : Nat → Bool := fun j => g.active j && (g.index shift j).testBit b

/-- The loop of `drjit_peer_mask`, `metal_scatter.cpp:51-58`; `v` is `varying`, `p l` is `peers` of lane `l`. -/
inductive PeerLoop {V : Type} (g : Group V) (shift : Nat) : (Nat → Bool) → (Nat → Nat → Bool) → (Nat → Nat → Bool) → Prop
  | done {v : Nat → Bool} {p : Nat → Nat → Bool} : lowest v = none → PeerLoop g shift v p p
  | early {v : Nat → Bool} {p : Nat → Nat → Bool} {b : Nat} : lowest v = some b → (∀ l < 32, g.active l = true → popc (p l) ≤ 1) → PeerLoop g shift v p p
  | next {v : Nat → Bool} {p r : Nat → Nat → Bool} {b : Nat} : lowest v = some b → ¬ (∀ l < 32, g.active l = true → popc (p l) ≤ 1) →
      PeerLoop g shift (fun x => v x && x != b)
        (fun l j => p l j && (if (g.index shift l).testBit b then bMask g shift b j else !bMask g shift b j)) r →
      PeerLoop g shift v p r

/-- `drjit_peer_mask(key, active)`, `metal_scatter.cpp:49-59,70-72` -/
def PeerMask {V : Type} (g : Group V) (shift : Nat) (p : Nat → Nat → Bool) : Prop := PeerLoop g shift (varying g shift) (fun _ => g.active) p

/-! ### Reduction within a SIMD group -/

/-- `rank`, `metal_scatter.cpp:138,299` -/
def rankOf (p : Nat → Nat → Bool) (l : Nat) : Nat := popc fun j => p l j && decide (j < l)

/-- Variables of the butterfly: `wval*`, `remaining`, `rank` of each lane -/
structure Regs (V : Type) where
  w : Nat → Nat → V
  remaining : Nat → Nat → Bool
  rank : Nat → Nat

/-- The variables before the loop, `metal_scatter.cpp:121-122,138-139` -/
def start {V : Type} (g : Group V) (p : Nat → Nat → Bool) : Regs V := ⟨g.val, p, rankOf p⟩

/-- `in_group`, `metal_scatter.cpp:141` -/
def Regs.inGroup {V : Type} (s : Regs V) (l : Nat) : Bool := s.remaining l l
/-- `upper`, `metal_scatter.cpp:142` -/
def Regs.upper {V : Type} (s : Regs V) (l : Nat) : Nat → Bool := fun j => s.remaining l j && decide (l < j)
/-- `next_lane`, `metal_scatter.cpp:143` -/
def Regs.nextLane {V : Type} (s : Regs V) (l : Nat) : Nat := (lowest (s.upper l)).getD l
/-- `recv`, `metal_scatter.cpp:144` -/
def Regs.recv {V : Type} (s : Regs V) (l : Nat) : Bool := s.inGroup l && s.rank l % 2 == 0 && (lowest (s.upper l)).isSome
/-- `drop`, `metal_scatter.cpp:151` -/
def Regs.drop {V : Type} (g : Group V) (s : Regs V) : Nat → Bool := fun j => g.active j && (s.inGroup j && s.rank j % 2 != 0)

/-- One iteration, `metal_scatter.cpp:140-154` -/
def round {V : Type} (g : Group V) (op : V → V → V) (s : Regs V) : Regs V :=
  ⟨fun l i => if s.recv l then op (s.w l i) (s.w (s.nextLane l) i) else s.w l i,
   fun l j => s.remaining l j && !s.drop g j,
   fun l => if s.inGroup l then s.rank l / 2 else s.rank l⟩

/-- The loop, `metal_scatter.cpp:140-154` -/
inductive Loop {V : Type} (g : Group V) (op : V → V → V) : Regs V → Regs V → Prop
  | done {s : Regs V} : (∀ l < 32, g.active l = true → popc (s.remaining l) ≤ 1) → Loop g op s s
  | next {s s' : Regs V} : ¬ (∀ l < 32, g.active l = true → popc (s.remaining l) ≤ 1) → Loop g op (round g op s) s' → Loop g op s s'

/-- `peers == active`, `metal_scatter.cpp:133` -/
def coherent {V : Type} (g : Group V) (p : Nat → Nat → Bool) (l : Nat) : Bool := (List.range 32).all fun j => p l j == g.active j

/-- Hardware reductions, `metal_scatter.cpp:125-135`: each active lane obtains the combination of the values of all active lanes. -/
def SimdReduce {V : Type} (g : Group V) (op : V → V → V) (q : Nat → Nat → V) : Prop :=
  ∀ l i, ∃ ls : List Nat, ls.Perm ((List.range 32).filter fun j => g.active j) ∧ (ls = [] ∨ Bracketed op (ls.map fun j => g.val j i) (q l i))

/-- `lane == ctz(peers)`, `metal_scatter.cpp:156` -/
def leader (p : Nat → Nat → Bool) (l : Nat) : Bool := lowest (p l) == some l

/-- `jitc_metal_emit_reduce_block` with aggregation, `metal_scatter.cpp:81-192`: the atomic operations that a group executes.  All lanes take the
same branch, see `C92_uniform`. -/
def ReduceBlock {V : Type} (g : Group V) (op : V → V → V) (n shift : Nat) (ws : List (Nat × V)) : Prop :=
  ∃ p, PeerMask g shift p ∧
    if ((List.range 32).any fun l => g.active l && coherent g p l) = true then
      ∃ q, SimdReduce g op q ∧ ws = g.reds n (2 ^ shift) (leader p) q
    else ∃ s, Loop g op (start g p) s ∧ ws = g.reds n (2 ^ shift) (leader p) s.w

/-- Without aggregation: an atomic operation per lane and value, `metal_scatter.cpp:121-122,159-188` -/
def direct {V : Type} (g : Group V) (n shift : Nat) : List (Nat × V) := g.reds n (2 ^ shift) (fun _ => true) g.val

/-- Executions of a scatter-reduction (`metal_scatter.cpp:194-226`, `metal_packet.cpp:93-110`) by all groups of a launch; `aggregate` says whether the
code is generated with aggregation.  Atomic operations are interleaved arbitrarily. -/
def ReduceExec {V : Type} (op : V → V → V) (n shift : Nat) (aggregate : Bool) (gs : List (Group V)) (m m' : Nat → V) : Prop :=
  ∃ (ops : List (List (Nat × V))) (ws : List (Nat × V)),
    List.Forall₂ (fun g w => if aggregate then ReduceBlock g op n shift w else w = direct g n shift) gs ops ∧
    ws.Perm ops.flatten ∧ m' = ws.foldl (red op) m

/-! ### Increments -/

/-- Atomic additions of aggregated increments (number of the group, lane, address, operand), `metal_scatter.cpp:299-302`; `p k` are the masks of group `k`. -/
def incOps (gs : List (Group Unit)) (p : Nat → Nat → Nat → Bool) : List (Nat × Nat × Nat × Nat) :=
  (List.range gs.length).flatMap fun k => match gs[k]? with
    | none => []
    | some g => ((List.range 32).filter fun l => g.active l && rankOf (p k) l == 0).map fun l => (k, l, g.addr l, popc (p k l))

/-- Executions of `jitc_metal_render_scatter_inc` with aggregation, `metal_scatter.cpp:295-307`, by all groups -/
def IncExec (gs : List (Group Unit)) (m m' : Nat → BitVec 32) (out : Nat → Nat → BitVec 32) : Prop :=
  ∃ p ops, (∀ k g, gs[k]? = some g → PeerMask g 2 (p k)) ∧ ops.Perm (incOps gs p) ∧ m' = (runInc m ops).1 ∧
    ∀ k g l, gs[k]? = some g → l < 32 → g.active l = true → ∃ j, lowest (p k l) = some j ∧
      out k l = (runInc m ops).2 k j + BitVec.ofNat 32 (rankOf (p k) l)

/-- Atomic additions without aggregation, `metal_scatter.cpp:309` -/
def directOps (gs : List (Group Unit)) : List (Nat × Nat × Nat × Nat) :=
  (List.range gs.length).flatMap fun k => match gs[k]? with
    | none => []
    | some g => ((List.range 32).filter fun l => g.active l).map fun l => (k, l, g.addr l, 1)

/-- Executions without aggregation, `metal_scatter.cpp:308-311` -/
def DirectInc (gs : List (Group Unit)) (m m' : Nat → BitVec 32) (out : Nat → Nat → BitVec 32) : Prop :=
  ∃ ops, ops.Perm (directOps gs) ∧ m' = (runInc m ops).1 ∧
    ∀ k g l, gs[k]? = some g → l < 32 → g.active l = true → out k l = (runInc m ops).2 k l

/-! ### Other operations -/

/-- Integer atomics on the bits of `float` variables, `metal_scatter.cpp:164-187` -/
def fetchMinMax (isMin : Bool) (mem v : BitVec 32) : BitVec 32 :=
  if 0 ≤ v.toInt then
    if isMin then (if v.toInt < mem.toInt then v else mem) else (if mem.toInt < v.toInt then v else mem)
  else
    if isMin then (if mem.toNat < v.toNat then v else mem) else (if v.toNat < mem.toNat then v else mem)

/-- `jitc_metal_render_scatter_exch`, `metal_scatter.cpp:262-276`: memory and result of a lane -/
def exch (m : Nat → BitVec 32) (a : Nat) (mask : Bool) (v : BitVec 32) : (Nat → BitVec 32) × BitVec 32 :=
  if mask then (Function.update m a v, m a) else (m, 0)

/-- `jitc_metal_render_scatter_cas`, `metal_scatter.cpp:224-260`: memory, previous value, success.  A weak compare-exchange may fail although
the values are equal (`spurious`). -/
def cas (m : Nat → BitVec 32) (a : Nat) (mask : Bool) (compare v : BitVec 32) (spurious : Bool) : (Nat → BitVec 32) × BitVec 32 × Bool :=
  if mask then
    if m a = compare ∧ spurious = false then (Function.update m a v, compare, true) else (m, m a, false)
  else (m, 0, false)

end Verif.MetalScatter
