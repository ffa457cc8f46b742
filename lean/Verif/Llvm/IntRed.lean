import Verif.Llvm.Red

/-!
# Reductions of integers (`/repo/src/llvm_red.h:10-79`)

Arithmetic wraps around.  (For `int32_t` and `int64_t`, an overflowing addition or multiplication is
undefined behaviour in C++; the model takes the two's complement result that compilers produce.)
-/
namespace Verif.Llvm

/-- `ReduceOp` without `Identity` (include/drjit-core/jit.h) -/
inductive ROp where | add | mul | min | max | or | and
  deriving DecidableEq, Repr

variable {w : Nat}

/-- `a < b` for signed or unsigned numbers -/
def ltS (signed : Bool) (a b : BitVec w) : Bool := if signed then a.slt b else a.ult b

/-- `std::numeric_limits<T>::max()` -/
def maxS (signed : Bool) (w : Nat) : BitVec w := if signed then BitVec.intMax w else BitVec.allOnes w
/-- `std::numeric_limits<T>::min()` -/
def minS (signed : Bool) (w : Nat) : BitVec w := if signed then BitVec.intMin w else 0

/-- `Red::init()` (llvm_red.h:13, 21, 29-34, 41-46, 55, 71) -/
def initVal (signed : Bool) (w : Nat) : ROp → BitVec w
  | .add => 0
  | .mul => 1
  | .min => maxS signed w
  | .max => minS signed w
  | .or => 0
  | .and => BitVec.allOnes w

/-- `Red::reduce()` (llvm_red.h:15, 23, 35, 48, 57-64, 73-80); `std::min(a, b)` is `b < a ? b : a`
and `std::max(a, b)` is `a < b ? b : a` -/
def reduceVal (signed : Bool) : ROp → BitVec w → BitVec w → BitVec w
  | .add, a, b => a + b
  | .mul, a, b => a * b
  | .min, a, b => if ltS signed b a then b else a
  | .max, a, b => if ltS signed a b then b else a
  | .or, a, b => a ||| b
  | .and, a, b => a &&& b

/-- Reduction of integers; the accumulator has the element type -/
def intRed (signed : Bool) (w : Nat) (op : ROp) : Red (BitVec w) (BitVec w) :=
  ⟨id, id, reduceVal signed op, initVal signed w op⟩

/-- The number a bit pattern stands for -/
def num (signed : Bool) (a : BitVec w) : Int := if signed then a.toInt else a.toNat

theorem num_inj {s : Bool} {a b : BitVec w} (h : num s a = num s b) : a = b := by
  cases s
  · simp only [num] at h; exact BitVec.eq_of_toNat_eq (by simpa using h)
  · simp only [num] at h; exact BitVec.eq_of_toInt_eq (by simpa using h)

theorem ltS_iff {s : Bool} {a b : BitVec w} : ltS s a b = true ↔ num s a < num s b := by
  cases s
  · simp [ltS, num, BitVec.ult]
  · simp [ltS, num, BitVec.slt]

theorem num_max (s : Bool) (hw : 0 < w) (a : BitVec w) : num s a ≤ num s (maxS s w) := by
  cases s
  · simp only [num, maxS, Bool.false_eq_true, if_false, BitVec.toNat_allOnes]
    have := a.isLt
    omega
  · simp only [num, maxS, if_true]
    rw [BitVec.toInt_intMax]
    have := BitVec.toInt_lt (x := a)
    omega

theorem num_min (s : Bool) (a : BitVec w) : num s (minS s w) ≤ num s a := by
  cases s
  · simp [num, minS]
  · simp only [num, minS, if_true]
    rcases Nat.eq_zero_or_pos w with rfl | hw
    · rw [BitVec.eq_nil a, BitVec.eq_nil (BitVec.intMin 0)]
    · rw [BitVec.toInt_intMin_of_pos hw]
      exact BitVec.le_toInt a

/-- Reductions of integers are exact. -/
theorem intRed_exact (signed : Bool) (hw : 0 < w) (op : ROp) : (intRed signed w op).Exact := by
  refine ⟨fun a b c => ?_, fun a => ?_, fun a => ?_, fun _ => rfl, fun _ => rfl⟩
  · cases op <;> simp only [intRed, reduceVal]
    · exact BitVec.add_assoc a b c
    · exact BitVec.mul_assoc a b c
    · apply num_inj (s := signed)
      simp only [ltS_iff]
      split_ifs <;> omega
    · apply num_inj (s := signed)
      simp only [ltS_iff]
      split_ifs <;> omega
    · exact BitVec.or_assoc a b c
    · exact BitVec.and_assoc a b c
  · cases op <;> simp only [intRed, reduceVal, initVal]
    · simp
    · simp
    · apply num_inj (s := signed)
      have := num_max signed hw a
      simp only [ltS_iff]
      split_ifs <;> omega
    · apply num_inj (s := signed)
      have := num_min signed a
      simp only [ltS_iff]
      split_ifs <;> omega
    · simp
    · simp
  · cases op <;> simp only [intRed, reduceVal, initVal]
    · simp
    · simp
    · apply num_inj (s := signed)
      have := num_max signed hw a
      simp only [ltS_iff]
      split_ifs <;> omega
    · apply num_inj (s := signed)
      have := num_min signed a
      simp only [ltS_iff]
      split_ifs <;> omega
    · simp
    · simp

/-- ... and do not depend on the order. -/
theorem intRed_comm (signed : Bool) (op : ROp) (a b : BitVec w) : (intRed signed w op).op a b = (intRed signed w op).op b a := by
  cases op <;> simp only [intRed, reduceVal]
  · exact BitVec.add_comm a b
  · exact BitVec.mul_comm a b
  · apply num_inj (s := signed)
    simp only [ltS_iff]
    split_ifs <;> omega
  · apply num_inj (s := signed)
    simp only [ltS_iff]
    split_ifs <;> omega
  · exact BitVec.or_comm a b
  · exact BitVec.and_comm a b

/-! ### What the reductions compute -/

/-- Reading of a reduction that does not mention the implementation -/
def IsReduction (signed : Bool) (op : ROp) (l : List (BitVec w)) (t : BitVec w) : Prop :=
  match op with
  | .add => t.toNat = (l.map BitVec.toNat).sum % 2 ^ w
  | .mul => t.toNat = (l.map BitVec.toNat).prod % 2 ^ w
  | .min => (∀ x, x ∈ l → num signed t ≤ num signed x) ∧ if l = [] then t = maxS signed w else t ∈ l
  | .max => (∀ x, x ∈ l → num signed x ≤ num signed t) ∧ if l = [] then t = minS signed w else t ∈ l
  | .or => ∀ i, i < w → (t.getLsbD i = true ↔ ∃ x, x ∈ l ∧ x.getLsbD i = true)
  | .and => ∀ i, i < w → (t.getLsbD i = true ↔ ∀ x, x ∈ l → x.getLsbD i = true)

theorem intFold_spec (signed : Bool) (hw : 0 < w) (op : ROp) (l : List (BitVec w)) :
    IsReduction signed op l ((intRed signed w op).fold l) := by
  induction l using List.reverseRecOn with
  | nil =>
    cases op
    · simp [IsReduction, Red.fold, intRed, initVal]
    · simp [IsReduction, Red.fold, intRed, initVal]
    · simp [IsReduction, Red.fold, intRed, initVal]
    · simp [IsReduction, Red.fold, intRed, initVal]
    · simp [IsReduction, Red.fold, intRed, initVal]
    · simp [IsReduction, Red.fold, intRed, initVal]
  | append_singleton l x ih =>
    have e : (intRed signed w op).fold (l ++ [x]) = reduceVal signed op ((intRed signed w op).fold l) x := by
      simp [Red.fold, intRed]
    rw [e]
    generalize (intRed signed w op).fold l = t at ih ⊢
    cases op <;> simp only [IsReduction, reduceVal] at ih ⊢
    · simp [ih]
    · simp [ih]
    · refine ⟨fun y hy => ?_, ?_⟩
      · rw [List.mem_append, List.mem_singleton] at hy
        simp only [ltS_iff]
        rcases hy with hy | rfl
        · have := ih.1 y hy
          split_ifs <;> omega
        · split_ifs <;> omega
      · rw [if_neg (by simp)]
        have h2 := ih.2
        by_cases hl : l = []
        · subst hl
          simp only [if_true] at h2
          subst h2
          have := num_max signed hw x
          simp only [List.nil_append, List.mem_singleton, ltS_iff]
          split_ifs with hc
          · rfl
          · exact num_inj (s := signed) (by omega)
        · rw [if_neg hl] at h2
          split_ifs <;> simp [h2]
    · refine ⟨fun y hy => ?_, ?_⟩
      · rw [List.mem_append, List.mem_singleton] at hy
        simp only [ltS_iff]
        rcases hy with hy | rfl
        · have := ih.1 y hy
          split_ifs <;> omega
        · split_ifs <;> omega
      · rw [if_neg (by simp)]
        have h2 := ih.2
        by_cases hl : l = []
        · subst hl
          simp only [if_true] at h2
          subst h2
          have := num_min signed x
          simp only [List.nil_append, List.mem_singleton, ltS_iff]
          split_ifs with hc
          · rfl
          · exact num_inj (s := signed) (by omega)
        · rw [if_neg hl] at h2
          split_ifs <;> simp [h2]
    · intro i hi
      rw [BitVec.getLsbD_or, Bool.or_eq_true, ih i hi]
      constructor
      · rintro (⟨y, h1, h2⟩ | h)
        · exact ⟨y, by simp [h1], h2⟩
        · exact ⟨x, by simp, h⟩
      · rintro ⟨y, h1, h2⟩
        rw [List.mem_append, List.mem_singleton] at h1
        rcases h1 with h1 | rfl
        · exact Or.inl ⟨y, h1, h2⟩
        · exact Or.inr h2
    · intro i hi
      rw [BitVec.getLsbD_and, Bool.and_eq_true, ih i hi]
      constructor
      · rintro ⟨h1, h2⟩ y hy
        rw [List.mem_append, List.mem_singleton] at hy
        rcases hy with hy | rfl
        · exact h1 y hy
        · exact h2
      · intro h
        exact ⟨fun y hy => h y (by simp [hy]), h x (by simp)⟩

theorem Result.isReduction (signed : Bool) (hw : 0 < w) (op : ROp) {l : List (BitVec w)} {t : BitVec w}
    (h : Result (intRed signed w op) l t) : IsReduction signed op l t := by
  rw [h.exact (intRed_exact signed hw op)]
  exact intFold_spec signed hw op l

end Verif.Llvm
