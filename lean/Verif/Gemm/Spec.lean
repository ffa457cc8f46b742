import Mathlib.Data.Nat.Notation
/-!
# Specification of batched matrix products

See the documentation of `GemmBatch` and `jit_batched_gemm()` (include/drjit-core/jit.h:2251-2325).
-/
namespace Verif.Gemm

/-- Arithmetic of an element type.  `fma acc a b` adds the product of `a` and `b` to `acc`, in
whichever way the compiler translates this.  If `wide`, sums are computed with more digits than
elements have, and there are conversions in both directions. -/
structure Elem (V : Type) where
  wide : Bool
  zero : V
  fma : V → V → V → V
  widen : V → V
  narrow : V → V

/-- Conversion of an element for the computation -/
def Elem.load {V : Type} (e : Elem V) (x : V) : V := if e.wide then e.widen x else x
/-- Conversion of a sum to an element -/
def Elem.store {V : Type} (e : Elem V) (x : V) : V := if e.wide then e.narrow x else x

/-- A batch dimension -/
structure Dim where
  extent : Nat
  aStride : Nat
  bStride : Nat
deriving DecidableEq

/-- The number of points of a grid -/
def points : List Dim → Nat
  | [] => 1
  | d :: l => d.extent * points l

/-- The offset that belongs to a linear index: dimension 0 varies fastest. -/
def offset (stride : Dim → Nat) : List Dim → Nat → Nat
  | [], _ => 0
  | d :: l, x => x % d.extent * stride d + offset stride l (x / d.extent)

/-- A batch description (`GemmBatch`, jit.h:2281-2287): grid dimensions come first, followed by reduction dimensions. -/
structure Batch where
  nb : Nat
  nr : Nat
  extent : Nat → Nat
  aStride : Nat → Nat
  bStride : Nat → Nat

/-- The dimensions of a batch -/
def Batch.dims (b : Batch) (lo n : Nat) : List Dim :=
  (List.range n).map fun d => ⟨b.extent (lo + d), b.aStride (lo + d), b.bStride (lo + d)⟩

/-- The dimensions of the grid and of the sum -/
def Batch.grid (b : Batch) : List Dim := b.dims 0 b.nb
@[inherit_doc Batch.grid]
def Batch.red (b : Batch) : List Dim := b.dims b.nb b.nr

/-- No batch dimensions -/
def Batch.none : Batch := ⟨0, 0, fun _ => 0, fun _ => 0, fun _ => 0⟩

/-- A batched product of `M × K` and `K × N` matrices: which operands are stored transposed, and the
dimensions of the grid and of the sum. -/
structure Problem where
  At : Bool
  Bt : Bool
  M : Nat
  N : Nat
  K : Nat
  grid : List Dim
  red : List Dim

/-- The product that a call of `jit_batched_gemm()` asks for; the batch description is optional. -/
def problem (At Bt : Bool) (M N K : Nat) (batch : Option Batch) : Problem :=
  ⟨At, Bt, M, N, K, (batch.getD .none).grid, (batch.getD .none).red⟩

/-- Where entry `(i, k)` of the first operand is stored for point `g` of the grid and term `q` of the
sum. -/
def Problem.addrA (p : Problem) (g q i k : Nat) : Nat :=
  offset Dim.aStride p.grid g + offset Dim.aStride p.red q + if p.At then k * p.M + i else i * p.K + k

/-- Where entry `(k, j)` of the second operand is stored. -/
def Problem.addrB (p : Problem) (g q k j : Nat) : Nat :=
  offset Dim.bStride p.grid g + offset Dim.bStride p.red q + if p.Bt then j * p.K + k else k * p.N + j

/-- Where entry `(i, j)` of the result is stored. -/
def Problem.addrC (p : Problem) (g i j : Nat) : Nat := g * (p.M * p.N) + i * p.N + j

/-- The terms of the sums, in the order of summation -/
def Problem.terms (p : Problem) : List (Nat × Nat) :=
  (List.range (points p.red)).flatMap (fun q => (List.range p.K).map (fun k => (q, k)))

/-- Entry `(i, j)` of the result for point `g` of the grid -/
def Problem.entry {V : Type} (p : Problem) (e : Elem V) (A B : Nat → V) (g i j : Nat) : V :=
  e.store (p.terms.foldl
    (fun acc t => e.fma acc (e.load (A (p.addrA g t.1 i t.2))) (e.load (B (p.addrB g t.1 t.2 j)))) e.zero)

/-- `C` is the product. -/
def Problem.IsProduct {V : Type} (p : Problem) (e : Elem V) (A B C : Nat → V) : Prop :=
  ∀ g i j, g < points p.grid → i < p.M → j < p.N → C (p.addrC g i j) = p.entry e A B g i j

/-- `x` is the position of an entry of the first operand. -/
def Problem.InA (p : Problem) (x : Nat) : Prop :=
  ∃ g q i k, g < points p.grid ∧ q < points p.red ∧ i < p.M ∧ k < p.K ∧ x = p.addrA g q i k

/-- `x` is the position of an entry of the second operand. -/
def Problem.InB (p : Problem) (x : Nat) : Prop :=
  ∃ g q k j, g < points p.grid ∧ q < points p.red ∧ k < p.K ∧ j < p.N ∧ x = p.addrB g q k j

/-- The number of entries of the result -/
def Problem.size (p : Problem) : Nat := points p.grid * (p.M * p.N)

end Verif.Gemm
