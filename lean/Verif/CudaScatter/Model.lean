import Mathlib.Data.List.Basic
import Mathlib.Logic.Function.Basic

/-!
# Scatter-reductions and other atomic operations on CUDA devices

Sources: `src/cuda_scatter.cpp` (PTX code of scatter operations), `src/cuda_packet.cpp:169-327` (packets).

What is modelled: the warp-level reduction in front of atomic operations (detection of lanes with the same
address, butterfly for coherent warps, segmented reduction otherwise), packets of values, warp-aggregated
increments, the emulation of floating point minima and maxima by integer atomics, atomics on pairs of half
precision numbers, exchange and compare-exchange with masks.

Lanes that execute an instruction together form a *group*: the lanes of a warp may diverge, and
`activemask` returns those that did not, so that the active lanes of a warp are divided into groups in
an arbitrary way.  All groups of all warps are executed in any order; atomic operations of different groups
and of different lanes of a group are interleaved arbitrarily.

Simplifications: a mask of lanes is a predicate on lane numbers below 32; `popc` counts, and `brev` followed by
`bfind.shiftamt` or `clz` returns the lowest lane of a mask; `shfl` of two halves of a 64-bit register is that
of the register.  Pointers are natural numbers (64-bit arithmetic does not wrap around).
-/
namespace Verif.CudaScatter

/-- A group of lanes that execute a scatter together: lanes whose mask is set (`cuda_scatter.cpp:253-254`), their
addresses `%rd3` (`cuda_scatter.cpp:25-35`, `cuda_packet.cpp:215,242,271,296`), and the values of each lane (several in the case of
packets) -/
structure Group (V : Type) where
  active : Nat → Bool
  addr : Nat → Nat
  val : Nat → Nat → V

/-- `%index`, `cuda_scatter.cpp:64-68`: the address without its low bits, truncated to 32 bits -/
def Group.index {V : Type} (g : Group V) (shift l : Nat) : Nat := g.addr l / 2 ^ shift % 2 ^ 32

/-- `%peers` of lane `l`, `cuda_scatter.cpp:69` -/
def Group.peers {V : Type} (g : Group V) (shift l : Nat) : Nat → Bool :=
  fun j => g.active j && g.index shift j == g.index shift l

/-- `popc` -/
def popc (m : Nat → Bool) : Nat := ((List.range 32).filter m).length
/-- The lowest lane of a mask, `none` if it is empty: `cuda_scatter.cpp:193-195,374-375` -/
def lowest (m : Nat → Bool) : Option Nat := (List.range 32).find? m

/-- `%rank` at the beginning of the segmented reduction, `cuda_scatter.cpp:183-186`, also `%lt_ct`, `:376-377,384` -/
def Group.rank {V : Type} (g : Group V) (shift l : Nat) : Nat := popc fun j => g.peers shift l j && decide (j < l)

/-! ### Warp-level reductions -/

/-- Lane `l` finds that the warp is fully coherent, i.e. `%peers` is -1; `cuda_scatter.cpp:158-159` -/
def Group.full {V : Type} (g : Group V) (shift l : Nat) : Bool := (List.range 32).all (g.peers shift l)

/-- One step of the butterfly, `cuda_scatter.cpp:164-178` -/
def bfly {V : Type} (op : V → V → V) (q : Nat → Nat → V) (delta : Nat) : Nat → Nat → V :=
  fun l i => op (q l i) (q (l ^^^ delta) i)

/-- The butterfly -/
def butterfly {V : Type} (op : V → V → V) (q : Nat → Nat → V) : Nat → Nat → V := [1, 2, 4, 8, 16].foldl (bfly op) q

/-- Registers of the segmented reduction: `%q0_*`, `%peers`, `%rank` of each lane -/
structure Regs (V : Type) where
  q : Nat → Nat → V
  peers : Nat → Nat → Bool
  rank : Nat → Nat

/-- The registers before the loop, `cuda_scatter.cpp:153-154,182-188` -/
def Group.start {V : Type} (g : Group V) (shift : Nat) : Regs V :=
  ⟨g.val, fun l j => g.peers shift l j && decide (l < j), g.rank shift⟩

/-- One iteration of the loop, `cuda_scatter.cpp:193-216`.  (Lanes whose mask is empty read an unspecified lane
and ignore the result.) -/
def Group.round {V : Type} (g : Group V) (op : V → V → V) (r : Regs V) : Regs V :=
  ⟨fun l i => match lowest (r.peers l) with
      | some j => op (r.q l i) (r.q j i)
      | none => r.q l i,
   fun l j => r.peers l j && (g.active j && r.rank j % 2 == 0),
   fun l => r.rank l / 2⟩

/-- The loop, `cuda_scatter.cpp:189-217`: it ends if the masks of all lanes of the group are empty. -/
inductive Group.Loop {V : Type} (g : Group V) (op : V → V → V) : Regs V → Regs V → Prop
  | done {r : Regs V} : (∀ l < 32, g.active l → ∀ j < 32, r.peers l j = false) → Loop g op r r
  | next {r r' : Regs V} : ¬ (∀ l < 32, g.active l → ∀ j < 32, r.peers l j = false) → Loop g op (g.round op r) r' → Loop g op r r'

/-- The atomic operations of leaders for `n` values, `cuda_scatter.cpp:219-242`.  (Atomic operations on vectors are atomic
for each entry.) -/
def Group.reds {V : Type} (g : Group V) (n tsize : Nat) (leader : Nat → Bool) (q : Nat → Nat → V) : List (Nat × V) :=
  ((List.range 32).filter fun l => g.active l && leader l).flatMap fun l => (List.range n).map fun i => (g.addr l + i * tsize, q l i)

/-- `jitc_cuda_render_warp_reduce`, `cuda_scatter.cpp:121-244`: the atomic operations that a group executes.  All lanes take the
same branch, see `C89_uniform`. -/
def Group.WarpReduce {V : Type} (g : Group V) (op : V → V → V) (n shift : Nat) (ws : List (Nat × V)) : Prop :=
  if ((List.range 32).any fun l => g.active l && g.full shift l) = true then
    ws = g.reds n (2 ^ shift) (fun l => l == 0) (butterfly op g.val)
  else ∃ r, g.Loop op (g.start shift) r ∧ ws = g.reds n (2 ^ shift) (fun l => g.rank shift l == 0) r.q

/-- Mode `Direct` (and packets without a reduction in the warp): an atomic operation per lane and value,
`cuda_scatter.cpp:347-350`, `cuda_packet.cpp:228-327` -/
def Group.direct {V : Type} (g : Group V) (n tsize : Nat) : List (Nat × V) := g.reds n tsize (fun _ => true) g.val

/-- An atomic operation -/
def red {V : Type} (op : V → V → V) (m : Nat → V) (w : Nat × V) : Nat → V := Function.update m w.1 (op (m w.1) w.2)

/-- Executions of a scatter-reduction by all groups of a launch -/
def ReduceExec {V : Type} (op : V → V → V) (n shift : Nat) (gs : List (Group V)) (m m' : Nat → V) : Prop :=
  ∃ (ops : List (List (Nat × V))) (ws : List (Nat × V)),
    List.Forall₂ (fun g w => g.WarpReduce op n shift w) gs ops ∧ ws.Perm ops.flatten ∧ m' = ws.foldl (red op) m

/-- The same for mode `Direct` -/
def DirectExec {V : Type} (op : V → V → V) (n tsize : Nat) (gs : List (Group V)) (m m' : Nat → V) : Prop :=
  ∃ ws : List (Nat × V), ws.Perm (gs.flatMap fun g => g.direct n tsize) ∧ m' = ws.foldl (red op) m

/-! ### Increments -/

/-- Atomic additions of leaders: number of the group, lane, address, number of peers; `cuda_scatter.cpp:374-381` -/
def incOps (gs : List (Group Unit)) : List (Nat × Nat × Nat × Nat) :=
  (List.range gs.length).flatMap fun k => match gs[k]? with
    | none => []
    | some g => ((List.range 32).filter fun l => g.active l && g.rank 2 l == 0).map fun l => (k, l, g.addr l, popc (g.peers 2 l))

/-- Atomic additions in a given order: final memory, and the previous value for each operation (`%prev`) -/
def runInc (m : Nat → BitVec 32) : List (Nat × Nat × Nat × Nat) → (Nat → BitVec 32) × (Nat → Nat → BitVec 32)
  | [] => (m, fun _ _ => 0)
  | (k, l, a, n) :: ops =>
    let r := runInc (Function.update m a (m a + BitVec.ofNat 32 n)) ops
    (r.1, fun k' l' => if k' = k ∧ l' = l then m a else r.2 k' l')

/-- Executions of `jitc_cuda_render_scatter_inc`, `cuda_scatter.cpp:356-393`, by all groups: `out k l` is the result of lane `l` of
group `k`.  (The result of lanes whose mask is not set is zero, `cuda_scatter.cpp:361-365`; they are in no group.) -/
def IncExec (gs : List (Group Unit)) (m m' : Nat → BitVec 32) (out : Nat → Nat → BitVec 32) : Prop :=
  ∃ ops, ops.Perm (incOps gs) ∧ m' = (runInc m ops).1 ∧
    ∀ k g l, gs[k]? = some g → l < 32 → g.active l → ∃ j, lowest (g.peers 2 l) = some j ∧
      out k l = BitVec.ofNat 32 (g.rank 2 l) + (runInc m ops).2 k j

/-! ### Emulated operations -/

/-- `red.min` or `red.max` on floating point numbers of `w` bits, `cuda_scatter.cpp:86-106`: signed or unsigned
integer atomics, depending on the sign of the value -/
def minmax {w : Nat} (isMin : Bool) (mem v : BitVec w) : BitVec w :=
  if v.msb = false then
    if isMin then (if v.slt mem then v else mem) else (if mem.slt v then v else mem)
  else
    if isMin then (if mem.ult v then v else mem) else (if v.ult mem then v else mem)

/-- Addition of a half precision number at address `a` (a multiple of 2), `cuda_scatter.cpp:283-306`: an atomic addition
to the pair at `a & ~2`; `zero` is the identity.  Memory consists of half precision numbers. -/
def halfAdd {V : Type} (add : V → V → V) (zero : V) (m : Nat → V) (a : Nat) (v : V) : Nat → V :=
  let even := a / 2 % 2 = 0
  let base := a - a % 4 + a % 2
  let lo := if even then v else zero
  let hi := if even then zero else v
  Function.update (Function.update m base (add (m base) lo)) (base + 2) (add (m (base + 2)) hi)

/-- `jitc_cuda_render_scatter_exch`, `cuda_scatter.cpp:395-413`: memory and result of a lane -/
def exch {w : Nat} (m : Nat → BitVec w) (a : Nat) (mask : Bool) (v : BitVec w) : (Nat → BitVec w) × BitVec w :=
  if mask then (Function.update m a v, m a) else (m, 0)

/-- `jitc_cuda_render_scatter_cas`, `cuda_scatter.cpp:415-445`: memory, previous value, success.  (The comparison that
determines the latter is not masked.) -/
def cas {w : Nat} (m : Nat → BitVec w) (a : Nat) (mask : Bool) (compare v : BitVec w) : (Nat → BitVec w) × BitVec w × Bool :=
  let out0 := if mask then m a else 0
  (if mask then (if m a = compare then Function.update m a v else m) else m, out0, out0 == compare)

end Verif.CudaScatter
