import Mathlib.Data.Multiset.Fold
import Mathlib.Data.Finset.Union
import Mathlib.Order.Interval.Finset.Nat
import Mathlib.Data.Nat.Bitwise
import Mathlib.Algebra.Ring.Parity

/-!
# Results of parallel reductions: any order and any bracketing
-/
namespace Verif.Cuda

variable {V : Type}

/-- `v` is obtained by combining the values `s` with `op`, in any order and with any bracketing; `init` may be inserted anywhere. -/
inductive Comb (op : V → V → V) (init : V) : Multiset V → V → Prop
  | nil : Comb op init 0 init
  | one (x : V) : Comb op init {x} x
  | node {s t : Multiset V} {a b : V} : Comb op init s a → Comb op init t b → Comb op init (s + t) (op a b)

/-- For associative and commutative operations with neutral element `init` there is only one result. -/
theorem Comb.eq_fold {op : V → V → V} [hc : Std.Commutative op] [ha : Std.Associative op] {init : V} (hi : ∀ x, op init x = x) {s : Multiset V} {v : V} (h : Comb op init s v) :
    v = s.fold op init := by
  induction h with
  | nil => simp
  | one x => rw [Multiset.fold_singleton, hc.comm, hi]
  | @node s t a b _ _ h1 h2 =>
    have := Multiset.fold_add op init init s t
    rw [hi] at this
    rw [h1, h2, this]

/-- The elements with indices in `S` of `f`, combined -/
def On (op : V → V → V) (init : V) (f : Nat → V) (S : Finset Nat) (v : V) : Prop := Comb op init (S.val.map f) v

section
variable {op : V → V → V} {init : V} {f : Nat → V}

theorem On.empty : On op init f ∅ init := Comb.nil

theorem On.single (i : Nat) : On op init f {i} (f i) := by
  have := Comb.one (op := op) (init := init) (f i)
  simpa [On] using this

theorem On.union {S T : Finset Nat} {a b : V} (hd : Disjoint S T) (h1 : On op init f S a) (h2 : On op init f T b) : On op init f (S ∪ T) (op a b) := by
  unfold On
  rw [← Finset.disjUnion_eq_union S T hd]
  simp only [Finset.disjUnion, Multiset.map_add]
  exact Comb.node h1 h2

/-- Sets of indices that belong to different owners do not overlap. -/
def Apart (E : Nat → Finset Nat) : Prop := ∀ i j, i ≠ j → Disjoint (E i) (E j)

theorem Apart.biUnion {E : Nat → Finset Nat} (h : Apart E) {S T : Finset Nat} (hd : Disjoint S T) : Disjoint (S.biUnion E) (T.biUnion E) := by
  rw [Finset.disjoint_biUnion_left]
  intro i hi
  rw [Finset.disjoint_biUnion_right]
  intro j hj
  refine h i j ?_
  rintro rfl
  exact (Finset.disjoint_left.1 hd hi hj)

theorem On.owners {E : Nat → Finset Nat} (h : Apart E) {S T : Finset Nat} {a b : V} (hd : Disjoint S T) (h1 : On op init f (S.biUnion E) a) (h2 : On op init f (T.biUnion E) b) :
    On op init f ((S ∪ T).biUnion E) (op a b) := by
  rw [Finset.union_biUnion]
  exact h1.union (h.biUnion hd) h2

/-- Warp-level reduction with `__shfl_xor_sync` (block_prefix_reduce.cuh:195-196): `n` rounds with distances 1, 2, 4, ... -/
def butterfly (op : V → V → V) : Nat → (Nat → V) → Nat → V
  | 0, f => f
  | n + 1, f => fun l => op (butterfly op n f l) (butterfly op n f (l ^^^ 2 ^ n))

/-- What a reduction across the lanes of a warp has to compute, for every lane -/
def WarpRed (op : V → V → V) (init : V) (combine : (Nat → V) → Nat → V) : Prop :=
  ∀ (f : Nat → V) (D : Nat → Finset Nat) (g : Nat → V), Apart D → (∀ l, l < 32 → On op init f (D l) (g l)) → ∀ l, l < 32 →
    On op init f ((Finset.range 32).biUnion D) (combine g l)

/-- Lanes that agree above bit `n` -/
def group (n l : Nat) : Finset Nat := Finset.Ico (l / 2 ^ n * 2 ^ n) (l / 2 ^ n * 2 ^ n + 2 ^ n)

theorem xor_group {n l : Nat} : (l ^^^ 2 ^ n) / 2 ^ n = (if l / 2 ^ n % 2 = 0 then l / 2 ^ n + 1 else l / 2 ^ n - 1) := by
  have h1 : (l ^^^ 2 ^ n) / 2 ^ n = l / 2 ^ n ^^^ 1 := by
    rw [← Nat.shiftRight_eq_div_pow, Nat.shiftRight_xor_distrib, Nat.shiftRight_eq_div_pow, Nat.shiftRight_eq_div_pow, Nat.div_self (Nat.two_pow_pos n)]
  rw [h1]
  generalize l / 2 ^ n = x
  split
  · next h => 
    have := Nat.even_iff.2 h
    rw [Nat.xor_one_of_even this]
  · next h => 
    have := Nat.not_even_iff_odd.1 (fun h' => h (Nat.even_iff.1 h'))
    rw [Nat.xor_one_of_odd this]

theorem group_succ (n l : Nat) : group (n + 1) l = group n l ∪ group n (l ^^^ 2 ^ n) ∧ Disjoint (group n l) (group n (l ^^^ 2 ^ n)) := by
  have hp : 0 < 2 ^ n := Nat.two_pow_pos n
  have e1 : l / 2 ^ (n + 1) = l / 2 ^ n / 2 := by rw [Nat.pow_succ, Nat.div_div_eq_div_mul]
  unfold group
  rw [e1, xor_group, Nat.pow_succ]
  generalize 2 ^ n = p at *
  generalize l / p = q
  by_cases hq : q % 2 = 0
  · rw [if_pos hq]
    have h2 : q / 2 * (p * 2) = q * p := by
      rw [Nat.mul_comm p 2, ← Nat.mul_assoc]; congr 1; omega
    have h3 : (q + 1) * p = q * p + p := Nat.succ_mul q p
    rw [h2, h3]
    constructor
    · ext x; simp only [Finset.mem_union, Finset.mem_Ico]; omega
    · rw [Finset.disjoint_left]; intro x; simp only [Finset.mem_Ico]; omega
  · rw [if_neg hq]
    obtain ⟨r, rfl⟩ : ∃ r, q = r + 1 := ⟨q - 1, by omega⟩
    have h2 : (r + 1) / 2 * (p * 2) = r * p := by
      rw [Nat.mul_comm p 2, ← Nat.mul_assoc]; congr 1; omega
    have h3 : (r + 1) * p = r * p + p := Nat.succ_mul r p
    rw [h2, h3, Nat.add_sub_cancel]
    constructor
    · ext x; simp only [Finset.mem_union, Finset.mem_Ico]; omega
    · rw [Finset.disjoint_left]; intro x; simp only [Finset.mem_Ico]; omega

theorem butterfly_on {D : Nat → Finset Nat} {g : Nat → V} (hD : Apart D) (hg : ∀ l, l < 32 → On op init f (D l) (g l)) (n : Nat) :
    n ≤ 5 → ∀ l, l < 32 → On op init f ((group n l).biUnion D) (butterfly op n g l) := by
  induction n with
  | zero =>
    intro _ l hl
    have : group 0 l = {l} := by unfold group; ext x; simp only [Finset.mem_Ico, Finset.mem_singleton]; simp; omega
    rw [this, Finset.singleton_biUnion]
    exact hg l hl
  | succ n ih =>
    intro hn l hl
    have hx : l ^^^ 2 ^ n < 32 := by
      have : (2 : Nat) ^ n < 2 ^ 5 := Nat.pow_lt_pow_right (by omega) (by omega)
      exact Nat.xor_lt_two_pow (n := 5) hl this
    rw [(group_succ n l).1]
    exact On.owners hD (group_succ n l).2 (ih (by omega) l hl) (ih (by omega) _ hx)

theorem butterfly_warp : WarpRed op init (butterfly op 5) := by
  intro f D g hD hg l hl
  have := butterfly_on hD hg 5 (Nat.le_refl _) l hl
  have e : group 5 l = Finset.range 32 := by
    unfold group; rw [Nat.div_eq_of_lt (show l < 2 ^ 5 from hl)]; ext x; simp
  rwa [e] at this

end

end Verif.Cuda
