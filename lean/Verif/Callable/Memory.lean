/-!
# Memory for compiled code

Models `jitc_llvm_memmgr_prepare` and `jitc_llvm_memmgr_allocate` (`/repo/src/llvm_memmgr.cpp:16-79`), through which LLVM obtains the memory of the
sections of a kernel, and the copy of the sections to their final place with the relocation of addresses (`/repo/src/llvm_core.cpp:514-540`).
-/
namespace Verif.Callable.Mem

/-- `jitc_llvm_memmgr_data` (an address; 0: `nullptr`), `jitc_llvm_memmgr_size` and `jitc_llvm_memmgr_offset` -/
structure Mgr where
  data : Nat
  size : Nat
  offset : Nat

/-- llvm_memmgr.cpp:59-79.  `fresh`: the result of `posix_memalign`, `none`: no memory.  The second component: the buffer that is freed; the third: an
exception is raised. -/
def prepare (fresh : Option Nat) (m : Mgr) (irSize : Nat) : Mgr × Option Nat × Bool :=
  let target := irSize * 10
  if m.size ≤ target then
    match fresh with
    | some p => (⟨p, target, 0⟩, some m.data, false)
    | none => (m, some m.data, true)
  else ({ m with offset := 0 }, none, false)

/-- An effect of `jitc_llvm_memmgr_allocate`: `memset(addr, 0, n)` -/
structure Zero where
  addr : Nat
  len : Nat

/-- The start of the section (llvm_memmgr.cpp:34).  Overflow of `size_t` is not modelled. -/
def offsetAlign (m : Mgr) (align : Nat) : Nat := (m.offset + (align - 1)) / align * align

/-- llvm_memmgr.cpp:16-45 -/
def allocate (m : Mgr) (size align : Nat) : Mgr × Zero × Option Nat :=
  let align := if align = 0 then 16 else align
  let o := offsetAlign m align
  let m' : Mgr := { m with offset := o + size }
  (m', ⟨m.data + m.offset, o - m.offset⟩, if m'.offset > m.size then none else some (m.data + o))

/-- The requests of LLVM for one kernel (size and alignment of each section) -/
def allocateAll (m : Mgr) : List (Nat × Nat) → Mgr × List Zero × List (Option Nat)
  | [] => (m, [], [])
  | r :: rs =>
    let a := allocate m r.1 r.2
    let b := allocateAll a.1 rs
    (b.1, a.2.1 :: b.2.1, a.2.2 :: b.2.2)

/-- `memcpy(ptr, jitc_llvm_memmgr_data, jitc_llvm_memmgr_offset)` (llvm_core.cpp:528) -/
def copy (mem : Nat → UInt8) (dst src n : Nat) (a : Nat) : UInt8 := if dst ≤ a ∧ a < dst + n then mem (src + (a - dst)) else mem a

/-- llvm_core.cpp:535-537 -/
def relocate (ptr : Nat) (m : Mgr) (sym : Nat) : Nat := ptr + (sym - m.data)

/-- The offsets in the file of a kernel (io.cpp:484-486), and the addresses after the kernel was loaded at another place (io.cpp:393-400) -/
def stored (kernelData reloc : Nat) : Nat := reloc - kernelData

@[inherit_doc stored]
def loaded (kernelData' offset : Nat) : Nat := kernelData' + offset

/-- The memory manager and the heap: the capacities of live buffers -/
structure World where
  m : Mgr
  live : Nat → Option Nat

/-- A call of the memory manager: `prepare` with the result of `posix_memalign`, a request of LLVM, or `jitc_llvm_memmgr_shutdown` -/
inductive Op
  | prepare (irSize : Nat) (fresh : Option Nat)
  | allocate (size align : Nat)
  | shutdown

/-- `free`: does nothing for `nullptr`; `none`: the pointer is not a live buffer (undefined behaviour) -/
def free (live : Nat → Option Nat) (p : Nat) : Option (Nat → Option Nat) :=
  if p = 0 then some live else if (live p).isSome then some fun q => if q = p then none else live q else none

/-- One call; `none`: undefined behaviour of `free` (llvm_memmgr.cpp:59-93) -/
def World.step (w : World) : Op → Option World
  | .prepare n fresh =>
    let r := Mem.prepare fresh w.m n
    match r.2.1 with
    | none => some { w with m := r.1 }
    | some p => (free w.live p).map fun live =>
      ⟨r.1, match fresh with | some q => fun a => if a = q then some (n * 10) else live a | none => live⟩
  | .allocate size align => some { w with m := (Mem.allocate w.m size align).1 }
  | .shutdown => (free w.live w.m.data).map fun live => ⟨⟨0, 0, 0⟩, live⟩

def World.run (w : World) : List Op → Option World
  | [] => some w
  | o :: os => (w.step o).bind fun w' => w'.run os

end Verif.Callable.Mem
