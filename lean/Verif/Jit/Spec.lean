import Verif.Jit.Model
import Verif.Gather.GatherSpec
/-!
# Specification of evaluation
-/
namespace Verif.Jit
open Verif.Var Verif.Ops Verif.Gather

/-- `(i, c)` refers to a variable that has not been released, and that is not in memory. -/
def Wanted (s : Store) (i c : Nat) : Prop :=
  i ≠ 0 ∧ (s.vars i).counter = c ∧ (s.vars i).kind ≠ .evaluated

/-- The variables that a traversal visits: the operands up to the first empty one. -/
inductive Visits (s : Store) (roots : List Nat) : Nat → Prop
  | root {i : Nat} : i ∈ roots → Visits s roots i
  | dep {k d : Nat} : Visits s roots k → d ∈ (s.vars k).refs.takeWhile (· ≠ 0) → Visits s roots d

/-- The assumptions about library functions and the generation counter. -/
structure EnvOK (E : Env) : Prop where
  std : Eval.SortOk Eval.Bucket.key E.stdSort
  stable : Eval.StableSortOk Eval.SV.key E.stableSort
  task : Eval.StableSortOk Eval.Task.key E.taskSort
  idle : Eval.Idle ⟨E.gen, [], []⟩

/-- Variable `r` is an output of the scheduled kernels. -/
def IsOutput (s : Store) (out : List Eval.SV) (roots : List Nat) (r : Nat) : Prop :=
  r ∈ roots ∧ ∃ x ∈ out, x.index = r ∧ x.size = (s.vars r).size

/-- The scheduled kernels may write to the array at address `p`: they contain operations besides
arithmetic and memory reads, and writes to this array are pending. -/
def MayWrite (s : Store) (out : List Eval.SV) (p : BitVec 64) : Prop :=
  (∃ x ∈ out, ∃ c, (s.vars x.index).kind = .other c) ∧
    ∃ i, Live s i ∧ (s.vars i).isDirty = true ∧ (s.vars i).literal = p

/-- The array that variable `j` stands for or reads is not written. -/
def CalmAt (s : Store) (W : BitVec 64 → Prop) (j : Nat) : Prop :=
  ((s.vars j).kind = .evaluated → ¬ W (s.vars j).literal) ∧
    ((s.vars j).kind = .gather → (s.vars j).writePtr = false → (s.vars j).d0 ≠ 0 →
      ¬ W (s.vars (s.vars j).d0).literal)

/-- The arrays that computing `k` reads are not written. -/
def Calm (s : Store) (W : BitVec 64 → Prop) (k : Nat) : Prop := ∀ j, Reads s k j → CalmAt s W j

/-- The contract of kernel launches (code generation, compilation and execution): every output is stored
in newly allocated memory, every thread computes what the expression says, and other memory is
unchanged, except for arrays with pending writes. -/
def LaunchOK (launch : Store → List Eval.SV → List Nat → Launched) : Prop :=
  ∀ s U ext out roots data mem, Inv s U ext (fun _ => 0) [] → (∀ x ∈ out, Live s x.index) →
    launch s out roots = .ok data mem →
    (∀ r, IsOutput s out roots r → Calm s (MayWrite s out) r → ∀ l x, l < (s.vars r).size → Entry s r l x →
      norm (s.vars r).type (mem (data r) l) = x) ∧
    (∀ r, IsOutput s out roots r → ∀ j, Live s j →
      ((s.vars j).kind = .evaluated → data r ≠ (s.vars j).literal) ∧
      ((s.vars j).kind = .gather → (s.vars j).writePtr = false → (s.vars j).d0 ≠ 0 →
        data r ≠ (s.vars (s.vars j).d0).literal)) ∧
    (∀ p, (∀ r, IsOutput s out roots r → p ≠ data r) → ¬ MayWrite s out p → mem p = s.mem p)

/-- Writes to the array at address `p` are pending. -/
def Pending (s : Store) (p : BitVec 64) : Prop :=
  ∃ i, Live s i ∧ (s.vars i).isDirty = true ∧ (s.vars i).literal = p

/-- No operation of the launched kernels has an effect on memory, or `k` does not depend on arrays with
pending writes. -/
def Undisturbed (s : Store) (roots : List Nat) (k : Nat) : Prop :=
  (∀ i, Visits s roots i → ∀ c, (s.vars i).kind ≠ .other c) ∨ Calm s (Pending s) k

/-- Histories: calls and operations, which may evaluate the variables `q` that are scheduled at this point,
and explicit evaluations, which return or raise an exception. -/
inductive JReachable (E : Env) : Store → (Nat → Nat) → Prop
  | init (mem : BitVec 64 → Nat → BitVec 64) (vn ri cp fm ss : Bool) :
      JReachable E { mem := mem, valueNumbering := vn, reuseIndices := ri, constProp := cp,
                     fastMath := fm, symbolicScope := ss } (fun _ => 0)
  | call {s s' : Store} {u u' : Nat → Nat} (q : List (Nat × Nat)) : JReachable E s u →
      Step (evalJit E q) s u s' u' → JReachable E s' u'
  | op {s s' : Store} {u : Nat → Nat} {c : OpCall} {r : Nat} (q : List (Nat × Nat)) :
      JReachable E s u → WritesOK s → c.Valid s u → c.exec (evalJit E q) s = .ok r s' →
      JReachable E s' (fun k => u k + if k = r then 1 else 0)
  | eval {s s' : Store} {u : Nat → Nat} (q : List (Nat × Nat)) : JReachable E s u →
      evalJit E q s = .ok () s' → JReachable E s' u
  | evalFails {s s' : Store} {u : Nat → Nat} (q : List (Nat × Nat)) : JReachable E s u →
      evalJit E q s = .raise s' → JReachable E s' u

end Verif.Jit
