import Verif.CoopMat.Model

/-! # Matrices in memory -/
namespace Verif.CoopMat

/-- Where byte `b` of entry (`r`, `c`) is stored -/
def Descr.byte (d : Descr) (r c b : Nat) : Nat := (d.offset + r * d.stride + c) * d.tsize + b

/-- A row of a matrix, column, byte of the entry -/
def Descr.Entry (d : Descr) (r c b : Nat) : Prop := r < d.rows ∧ c < d.cols ∧ b < d.tsize

/-- The bytes of all entries -/
def Descr.Bytes (d : Descr) : Set Nat := {a | ∃ r c b : Nat, d.Entry r c b ∧ a = d.byte r c b}

/-- Conditions on descriptors: rows do not overlap, the size includes everything from the first to the last
entry, and the last byte of the matrix is within the range of 32 bit numbers -/
structure Descr.Ok (d : Descr) : Prop where
  tpos : 0 < d.tsize
  rpos : 0 < d.rows
  rows : d.rows < 2 ^ 32
  stride : d.cols ≤ d.stride
  size : d.size = (d.rows - 1) * d.stride + d.cols
  fits : (d.offset + d.size) * d.tsize < 2 ^ 32

/-- Two descriptors of matrices with the same shape -/
structure SameShape (i o : Descr) : Prop where
  tsize : o.tsize = i.tsize
  rows : o.rows = i.rows
  cols : o.cols = i.cols

/-- A call of `jit_coop_vec_pack_matrices` with valid descriptors, whose output matrices have no entries in
common -/
structure Valid (count : Nat) (i o : Nat → Descr) : Prop where
  inp : ∀ k, k < count → (i k).Ok
  out : ∀ k, k < count → (o k).Ok
  shape : ∀ k, k < count → SameShape (i k) (o k)
  disj : ∀ k l, k < count → l < count → k ≠ l → ∀ a, a ∈ (o k).Bytes → a ∉ (o l).Bytes

/-- The descriptors that result if the layouts of a list of matrices are computed one after the other,
each at the end of the preceding one -/
def layouts : List Descr → Nat → List Descr
  | [], _ => []
  | d :: ds, offset => computeLayout d offset :: layouts ds (offset + (computeLayout d offset).size)

end Verif.CoopMat
