import Verif.CudaPerm.Model

/-!
# Specification of sorting permutations
-/

namespace Verif.CudaPerm

/-- Indices of the elements of group `g`, in increasing order, for an array of `size` elements that is
partitioned into groups of `bs` elements -/
def groupIdx (size bs g : Nat) : List Nat := List.range' (g * bs) (min bs (size - g * bs))

/-- Within each group, `perm` lists the elements of bucket 0, then those of bucket 1, etc.; each element
appears once. -/
def Grouped (size bs bc : Nat) (v perm : Nat → Nat) : Prop :=
  ∀ g, g * bs < size → ∃ L : Nat → List Nat,
    (∀ b, b < bc → (L b).Perm ((groupIdx size bs g).filter fun i => v i = b)) ∧
    (groupIdx size bs g).map perm = (List.range bc).flatMap L

/-- The same, and the elements of a bucket are in increasing order. -/
def GroupedStable (size bs bc : Nat) (v perm : Nat → Nat) : Prop :=
  ∀ g, g * bs < size → (groupIdx size bs g).map perm = (List.range bc).flatMap fun b => (groupIdx size bs g).filter fun i => v i = b

/-- Number of elements in bucket `b` of an array -/
def countOf (size : Nat) (v : Nat → Nat) (b : Nat) : Nat := (List.range size).countP fun i => v i = b

/-- Nonempty buckets -/
def full (size bc : Nat) (v : Nat → Nat) : List Nat := (List.range bc).filter fun b => 0 < countOf size v b

/-- Entry for a bucket: number, number of elements in previous buckets, number of elements, zero -/
def entryOf (size : Nat) (v : Nat → Nat) (b : Nat) : Nat × Nat × Nat × Nat :=
  (b, (List.range size).countP (fun i => v i < b), countOf size v b, 0)

/-- Conditions on the arguments and on the device (which has `sm` multiprocessors): the array and the
group size are not excessively large, and neither are the number of groups and buckets; the size of all
histograms is below 4 GiB. -/
structure Ok (sm shmem size bs bc : Nat) : Prop where
  sm0 : 0 < sm
  sm1 : sm < 2 ^ 15
  spos : 0 < size
  bpos : 0 < bs
  cpos : 0 < bc
  fit : size + bs + 2 ^ 20 ≤ 2 ^ 32
  groups : (size + bs - 1) / bs ≤ 65535
  buckets : bc ≤ 1048560
  mem : 4 * bc * ((mkPlan sm shmem size bs bc).n * (mkPlan sm shmem size bs bc).R) < 2 ^ 32

end Verif.CudaPerm
