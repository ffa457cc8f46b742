import Verif.Alloc.Model
/-!
# Specification vocabulary for the allocator
-/
namespace Verif.Alloc

/-- All blocks the allocator holds: live, cached, parked, in flight, leaked. -/
def State.owned (s : State) : List Block :=
  s.used ++ (s.free ++ (s.later.map (·.2) ++ (s.next.map (·.2) ++
    ((s.inflight.map (·.2)).flatten ++ s.leaked))))

/-- Two address ranges `[p, p+n)` do not overlap. -/
def Disj (p n q m : Nat) : Prop := p + n ≤ q ∨ q + m ≤ p

instance (p n q m : Nat) : Decidable (Disj p n q m) := inferInstanceAs (Decidable (_ ∨ _))

def Block.disj (a b : Block) : Prop := Disj a.ptr a.info.size b.ptr b.info.size

/-- Assumption on the operating system / driver: a new block of `n` bytes at `p` is not null and
does not overlap memory that the allocator currently owns. -/
def Fresh (s : State) (p n : Nat) : Prop :=
  p ≠ 0 ∧ ∀ b ∈ s.owned, Disj p n b.ptr b.info.size

instance (s : State) (p n : Nat) : Decidable (Fresh s p n) := inferInstanceAs (Decidable (_ ∧ _))

/-- Assumptions on one `jitc_malloc` call: the request has at most `2^52` bytes, the OS answers
with fresh memory or fails, and — needed because of the unchecked `mmap` result —
the OS does not fail for host requests of at least 2 MiB. -/
structure MallocOk (cfg : Cfg) (s : State) (backend : Backend) (size : Nat)
    (os1 os2 : Option Nat) (env : Env) : Prop where
  size_le : size ≤ 2 ^ 52
  width_le : cfg.width ≤ 2 ^ 32
  fresh1 : ∀ p, os1 = some p → Fresh s p (roundSize cfg backend size)
  fresh2 : ∀ p s1, s.flush env.freezing = some s1 → os1 = none → os2 = some p →
    Fresh s1 p (roundSize cfg backend size)
  nofail : backend.isGpu = false → HUGEPAGE ≤ roundSize cfg backend size → os1 ≠ none

/-- The backend of the new block allocated by a migration. -/
def migBackend (src dst : Backend) : Backend :=
  if !src.isGpu && !dst.isGpu then (if src = .llvm then .llvm else dst)
  else if dst = .none then src else dst

/-- Assumptions on one operation. -/
def OpOk (cfg : Cfg) (s : State) : Op → Prop
  | .malloc b n _ _ o1 o2 fz => MallocOk cfg s b n o1 o2 fz
  | .migrate p dst _ _ dev os fz =>
      ∀ b ∈ s.used, b.ptr = p →
        MallocOk cfg s (migBackend b.info.backend dst) b.info.size os.a1 os.a2 fz ∧
        (b.info.backend = .none →
          MallocOk cfg (s.malloc cfg dst b.info.size false dev os.a1 os.a2 fz).2
            dst b.info.size os.b1 os.b2 fz)
  | _ => True

/-- The assumptions hold at every step of a history. -/
def OkRun (cfg : Cfg) (s : State) : List Op → Prop
  | [] => True
  | o :: os => OpOk cfg s o ∧ OkRun cfg (s.step cfg o).2 os

end Verif.Alloc
