import Verif.Gemm.Spec

/-!
# Specification of batched matrix products on CUDA devices

`Problem` and `Problem.IsProduct` (`Verif.Gemm.Spec`) describe the product.  The kernels add terms
`0 * 0` until the number of terms is a multiple of 16; the following definition takes this into account.
-/
namespace Verif.CudaGemm
open Verif.Gemm

/-- Entry `(i, j)` of the result for point `g` of the grid, where the sum over the inner dimension is extended
by zeros to a multiple of 16 terms. -/
def paddedEntry {V : Type} (p : Problem) (e : Elem V) (A B : Nat → V) (g i j : Nat) : V :=
  e.store ((List.range (points p.red)).foldl (fun acc q =>
    (List.range ((p.K + 15) / 16 * 16)).foldl (fun acc k =>
      e.fma acc (e.load (if k < p.K then A (p.addrA g q i k) else e.zero))
        (e.load (if k < p.K then B (p.addrB g q k j) else e.zero))) acc) e.zero)

/-- Adding `0 * 0` does not change a sum.  (True of sums of floating point numbers other than the sum
`-0`, which becomes `+0`.) -/
def PadLaw {V : Type} (e : Elem V) : Prop := ∀ acc, e.fma acc (e.load e.zero) (e.load e.zero) = acc

/-- The vector accesses of `w` elements that a batch description permits: all strides are multiples of
`w`. -/
def Aligned (w : Nat) (p : Problem) : Prop := ∀ d, d ∈ p.grid ∨ d ∈ p.red → w ∣ d.aStride ∧ w ∣ d.bStride

end Verif.CudaGemm
