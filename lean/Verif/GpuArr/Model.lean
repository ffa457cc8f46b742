import Verif.CoopVec.MatVec
import Mathlib.Logic.Function.Basic

/-!
# Code for local arrays on CUDA and Metal devices

Sources: `src/cuda_array.cpp`, `src/metal_array.cpp`, and the loads and stores of evaluated arrays in `src/cuda_eval.cpp:188-222` and `src/metal_eval.cpp:331-354`.

`Verif.LocalArr` describes which buffer each array operation uses; here, the code generated for the operations is modelled.  A thread has numbered local buffers of
`len` elements (`arr_0`, `arr_1`, ...); accesses outside of a buffer or of allocated memory are represented by `none`.
Simplifications: elements are not divided into bytes (masks are stored as they are), addresses of global memory have 64 bits.
-/
namespace Verif.GpuArr
open Verif.CoopVec (forN)

/-- Local memory of a thread: buffer, element -/
abbrev Local (V : Type) := Nat → Nat → V

/-- `ld.local`, `arr_$u[i]` -/
def ld {V : Type} (len : Nat) (m : Local V) (b i : Nat) : Option V := if i < len then some (m b i) else none

/-- `st.local`, `arr_$u[i] = ..` -/
def st {V : Type} (len : Nat) (m : Local V) (b i : Nat) (v : V) : Option (Local V) :=
  if i < len then some (Function.update m b (Function.update (m b) i v)) else none

/-- The loops of PTX code: `body; add.u32 %r3, %r3, 1; setp.lt.u32 %p2, %r3, n; @%p2 bra ..`, e.g. `cuda_array.cpp:32-37`; `DoWhile n body r s s'` begins with
`%r3 = r`. -/
inductive DoWhile {S : Type} (n : Nat) (body : S → Nat → Option S) : Nat → S → S → Prop
  | exit {r : Nat} {s s' : S} : body s r = some s' → ¬ (r + 1) % 2 ^ 32 < n → DoWhile n body r s s'
  | again {r : Nat} {s s1 s' : S} : body s r = some s1 → (r + 1) % 2 ^ 32 < n → DoWhile n body ((r + 1) % 2 ^ 32) s1 s' → DoWhile n body r s s'

/-! ### Operations on local memory -/

/-- Body of the loop of `jitc_cuda_render_array_init`, `cuda_array.cpp:34`, and `jitc_metal_render_array_init`, `metal_array.cpp:31` -/
def initBody {V : Type} (len b : Nat) (v : V) (m : Local V) (i : Nat) : Option (Local V) := st len m b i v

/-- Body of the loops that copy a buffer, `cuda_array.cpp:88-89`, `metal_array.cpp:73` -/
def copyBody {V : Type} (len src dst : Nat) (m : Local V) (i : Nat) : Option (Local V) := (ld len m src i).bind fun v => st len m dst i v

/-- Body of the loop of `jitc_cuda_render_array_select`, `cuda_array.cpp:160-163`: both elements are loaded -/
def cudaSelectBody {V : Type} (len : Nat) (mask : Bool) (t f dst : Nat) (m : Local V) (i : Nat) : Option (Local V) :=
  (ld len m t i).bind fun vt => (ld len m f i).bind fun vf => st len m dst i (if mask then vt else vf)

/-- A loop on the two kinds of devices -/
def Loop {S : Type} (cuda : Bool) (n : Nat) (body : S → Nat → Option S) (s s' : S) : Prop :=
  if cuda then DoWhile n body 0 s s' else forN n s body = some s'

/-- `jitc_cuda_render_array_init`, `cuda_array.cpp:26-42`; `jitc_metal_render_array_init`, `metal_array.cpp:27-34` -/
def Init {V : Type} (cuda : Bool) (len b : Nat) (v : V) (m m' : Local V) : Prop := Loop cuda len (initBody len b v) m m'

/-- `jitc_cuda_render_array_read`, `cuda_array.cpp:44-72`; `jitc_metal_render_array_read`, `metal_array.cpp:36-57`.  `mask = none`: the mask is a literal (which is
then set, `array.cpp:117-129`). -/
def read {V : Type} (zero : V) (len : Nat) (m : Local V) (b : Nat) (mask : Option Bool) (offset : Nat) : Option V :=
  match mask with
  | none => ld len m b offset
  | some k => if k then ld len m b offset else some zero

/-- `jitc_cuda_render_array_write`, `cuda_array.cpp:74-115`; `jitc_metal_render_array_write`, `metal_array.cpp:58-93`.  `copy`: the target is conflicted; `buffer`: the
buffer of the write (`jitc_array_buffer`).  Result: local memory and the buffer that holds the array. -/
def Write {V : Type} (cuda : Bool) (len : Nat) (copy : Bool) (target buffer : Nat) (mask : Option Bool) (offset : Nat) (v : V) (m m' : Local V) (out : Nat) : Prop :=
  out = (if copy then buffer else target) ∧
    ∃ m1, (if copy then Loop cuda len (copyBody len target buffer) m m1 else m1 = m) ∧
      (if mask = some false then some m1 else st len m1 out offset v) = some m'

/-- `jitc_cuda_render_array_select`, `cuda_array.cpp:154-180`; `jitc_metal_render_array_select`, `metal_array.cpp:111-125` -/
def Select {V : Type} (cuda : Bool) (len : Nat) (mask : Bool) (t f dst : Nat) (m m' : Local V) : Prop :=
  if cuda then Loop true len (cudaSelectBody len mask t f dst) m m'
  else Loop false len (copyBody len (if mask then t else f) dst) m m'

/-! ### Evaluated arrays -/

/-- State of the PTX loops that load and store evaluated arrays: `%rd0` and local memory -/
structure Regs (V : Type) where
  rd0 : Nat
  m : Local V

/-- Body of the loop of `jitc_cuda_render_array_memcpy_in`, `cuda_array.cpp:121-124`; `size` is `%r2`, the size of the kernel -/
def cudaInBody {V : Type} (mem : Nat → Option V) (len b size tsize : Nat) (s : Regs V) (i : Nat) : Option (Regs V) :=
  (mem s.rd0).bind fun v => (st len s.m b i v).map fun m => ⟨(size * tsize + s.rd0) % 2 ^ 64, m⟩

/-- Body of the loop of `jitc_metal_render_array_memcpy_in`, `metal_array.cpp:98-101`; the subscript has 32 bits -/
def metalInBody {V : Type} (mem : Nat → Option V) (len b base size tsize tid : Nat) (m : Local V) (i : Nat) : Option (Local V) :=
  (mem (base + tsize * ((i * size % 2 ^ 32 + tid) % 2 ^ 32))).bind fun v => st len m b i v

/-- Loading an evaluated array: `cuda_eval.cpp:188-201`, `cuda_array.cpp:117-134`; `metal_eval.cpp:331-335`, `metal_array.cpp:95-102`.  `vsize` is the size of the
evaluated variable, `size` that of the kernel. -/
def CopyIn {V : Type} (cuda : Bool) (mem : Nat → Option V) (len b base vsize size tsize tid : Nat) (m m' : Local V) : Prop :=
  if cuda then ∃ rd, Loop true len (cudaInBody mem len b size tsize) ⟨if vsize > 1 then (tid * tsize + base) % 2 ^ 64 else base, m⟩ ⟨rd, m'⟩
  else Loop false len (metalInBody mem len b base size tsize tid) m m'

/-- Body of the loop of `jitc_cuda_render_array_memcpy_out`, `cuda_array.cpp:139-142`; the state is `%rd0` and the list of stores -/
def cudaOutBody {V : Type} (len b size tsize : Nat) (m : Local V) (s : Nat × List (Nat × V)) (i : Nat) : Option (Nat × List (Nat × V)) :=
  (ld len m b i).map fun v => ((size * tsize + s.1) % 2 ^ 64, s.2 ++ [(s.1, v)])

/-- Body of the loop of `jitc_metal_render_array_memcpy_out`, `metal_array.cpp:104-109` -/
def metalOutBody {V : Type} (len b base size tsize tid : Nat) (m : Local V) (s : List (Nat × V)) (i : Nat) : Option (List (Nat × V)) :=
  (ld len m b i).map fun v => s ++ [(base + tsize * ((i * size % 2 ^ 32 + tid) % 2 ^ 32), v)]

/-- The stores of a thread: `cuda_eval.cpp:211-220`, `cuda_array.cpp:136-152`; `metal_eval.cpp:351-353`, `metal_array.cpp:104-109` -/
def CopyOut {V : Type} (cuda : Bool) (len b base size tsize tid : Nat) (m : Local V) (ws : List (Nat × V)) : Prop :=
  if cuda then ∃ rd, Loop true len (cudaOutBody len b size tsize m) ((tid * tsize + base) % 2 ^ 64, []) (rd, ws)
  else Loop false len (metalOutBody len b base size tsize tid m) [] ws

/-- Execution of stores in the given order -/
def exec {V : Type} (mem : Nat → Option V) (ws : List (Nat × V)) : Nat → Option V := ws.foldl (fun (mem : Nat → Option V) w => Function.update mem w.1 (some w.2)) mem

/-- Stores of all threads of a kernel, executed in any order.  `arr t`: local memory of thread `t`; `b` the buffer. -/
def Launch {V : Type} (cuda : Bool) (len base size tsize b : Nat) (arr : Nat → Local V) (mem mem' : Nat → Option V) : Prop :=
  ∃ (wss : Nat → List (Nat × V)) (ws : List (Nat × V)), (∀ t < size, CopyOut cuda len b base size tsize t (arr t) (wss t)) ∧
    ws.Perm ((List.range size).flatMap wss) ∧ mem' = exec mem ws

end Verif.GpuArr
