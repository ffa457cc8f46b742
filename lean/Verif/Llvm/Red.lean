import Verif.Par.Items
import Verif.Llvm.U32
import Mathlib.Data.List.Basic
import Mathlib.Data.List.Range

/-!
# Reductions: values, specification, geometry

Common part of `LLVMThreadState::block_reduce` and `LLVMThreadState::block_prefix_reduce`
(`/repo/src/llvm_ts.cpp`).
-/
namespace Verif.Llvm

open Verif.Par

/-- A reduction (llvm_red.h:10-79): elements of type `T` (in memory), accumulators of type `A`
(`Red::Value`, which is `float` for half precision numbers and `T` otherwise), conversions, the
operation and its initial value. -/
structure Red (T A : Type) where
  toV : T → A
  ofV : A → T
  op : A → A → A
  e : A

/-- Locations: number of a buffer and index of an element -/
abbrev Loc := Nat × Nat

/-- Elements `lo .. hi-1` of a sequence -/
def slice {T : Type} (f : Nat → T) (lo hi : Nat) : List T := (List.range (hi - lo)).map (fun k => f (lo + k))

/-! ### Specification -/

/-- `a` is a reduction of the list `l`, in this order: the operation is applied with an arbitrary
bracketing, the initial value may be inserted anywhere, and intermediate results may be converted to
the element type and back.  If the operation is associative, this determines `a`, see
`Combines.exact`; rounding errors of floating point additions depend on the bracketing. -/
inductive Combines {T A : Type} (r : Red T A) : List T → A → Prop
  | nil : Combines r [] r.e
  | one (x : T) : Combines r [x] (r.toV x)
  | app {l l' : List T} {a b : A} : Combines r l a → Combines r l' b → Combines r (l ++ l') (r.op a b)
  | store {l : List T} {a : A} : Combines r l a → Combines r l (r.toV (r.ofV a))

/-- `t` is a reduction of `l`, converted to the element type (if there is only one element, it is
simply copied) -/
inductive Result {T A : Type} (r : Red T A) : List T → T → Prop
  | copy (x : T) : Result r [x] x
  | red {l : List T} {a : A} : Combines r l a → Result r l (r.ofV a)

/-- Algebraic laws: true for all integer types and operations -/
structure Red.Exact {T A : Type} (r : Red T A) : Prop where
  assoc : ∀ a b c, r.op (r.op a b) c = r.op a (r.op b c)
  left : ∀ a, r.op r.e a = a
  right : ∀ a, r.op a r.e = a
  conv : ∀ a, r.toV (r.ofV a) = a
  conv' : ∀ x, r.ofV (r.toV x) = x

/-- The value of the reduction, from left to right -/
def Red.fold {T A : Type} (r : Red T A) (l : List T) : A := l.foldl (fun a x => r.op a (r.toV x)) r.e

variable {T A : Type} {r : Red T A}

theorem fold_from (h : r.Exact) (l : List T) (a : A) : l.foldl (fun a x => r.op a (r.toV x)) a = r.op a (r.fold l) := by
  unfold Red.fold
  induction l generalizing a with
  | nil => simp [h.right]
  | cons x l ih =>
    simp only [List.foldl_cons]
    rw [ih, ih (r.op r.e (r.toV x)), h.left, h.assoc]

/-- With exact arithmetic, the specification determines the value. -/
theorem Combines.exact (h : r.Exact) {l : List T} {a : A} (hc : Combines r l a) : a = r.fold l := by
  induction hc with
  | nil => rfl
  | one x => simp [Red.fold, h.left]
  | app _ _ h1 h2 =>
    rw [h1, h2]
    conv_rhs => unfold Red.fold
    rw [List.foldl_append, fold_from h]
    rfl
  | store _ h1 => rw [h.conv]; exact h1

theorem Result.exact (h : r.Exact) {l : List T} {t : T} (hc : Result r l t) : t = r.ofV (r.fold l) := by
  cases hc with
  | copy => simp [Red.fold, h.left, h.conv']
  | red h1 => rw [h1.exact h]

theorem combines_fold {l l' : List T} {a : A} (h : Combines r l a) : Combines r (l ++ l') (l'.foldl (fun a x => r.op a (r.toV x)) a) := by
  induction l' generalizing l a with
  | nil => simpa using h
  | cons x l' ih =>
    simp only [List.foldl_cons]
    have := ih (.app h (.one x))
    rw [List.append_assoc] at this
    exact this

/-- The values a location may hold as a partial result -/
theorem Result.combines {l : List T} {t : T} (h : Result r l t) : Combines r l (r.toV t) := by
  cases h with
  | copy => exact .one _
  | red h1 => exact .store h1

/-- Reduction of partial results -/
theorem combines_subst {l : List T} {a : A} (h : Combines r l a) :
    ∀ cs : List (List T), List.Forall₂ (fun c t => Combines r c (r.toV t)) cs l → Combines r cs.flatten a := by
  induction h with
  | nil => intro cs h; cases h; exact .nil
  | one x =>
    intro cs h
    rcases cs with _ | ⟨c, cs⟩
    · cases h
    · rw [List.forall₂_cons] at h
      obtain ⟨h1, h2⟩ := h
      cases h2
      simpa using h1
  | app _ _ h1 h2 =>
    intro cs h
    rename_i l l' a b _ _
    have hl := h.length_eq
    rw [List.length_append] at hl
    have e : cs = cs.take l.length ++ cs.drop l.length := (List.take_append_drop _ _).symm
    rw [e, List.flatten_append]
    have ht := List.forall₂_take l.length h
    have hd := List.forall₂_drop l.length h
    rw [List.take_left] at ht
    rw [List.drop_left] at hd
    exact .app (h1 _ ht) (h2 _ hd)
  | store _ h1 => intro cs h; exact .store (h1 cs h)

theorem Result.subst {l : List T} {t : T} (h : Result r l t) {cs : List (List T)}
    (hc : List.Forall₂ (fun c t => Result r c t) cs l) : Result r cs.flatten t := by
  cases h with
  | copy =>
    rcases cs with _ | ⟨c, cs⟩
    · cases hc
    · rw [List.forall₂_cons] at hc
      obtain ⟨h1, h2⟩ := hc
      cases h2
      simpa using h1
  | red h1 => exact .red (combines_subst h1 cs (hc.imp fun _ _ => Result.combines))

/-! ### Slices -/

@[simp] theorem slice_self (f : Nat → T) {lo hi : Nat} (h : hi ≤ lo) : slice f lo hi = [] := by
  unfold slice; rw [Nat.sub_eq_zero_of_le h]; rfl

theorem slice_length (f : Nat → T) (lo hi : Nat) : (slice f lo hi).length = hi - lo := by simp [slice]

theorem slice_append (f : Nat → T) {lo mid hi : Nat} (h1 : lo ≤ mid) (h2 : mid ≤ hi) :
    slice f lo mid ++ slice f mid hi = slice f lo hi := by
  unfold slice
  rw [show hi - lo = (mid - lo) + (hi - mid) by omega, List.range_add, List.map_append, List.map_map]
  congr 1
  apply List.map_congr_left
  intro k _
  simp only [Function.comp]
  congr 1; omega

theorem slice_congr {f g : Nat → T} {lo hi : Nat} (h : ∀ j, lo ≤ j → j < hi → f j = g j) : slice f lo hi = slice g lo hi := by
  unfold slice
  apply List.map_congr_left
  intro k hk
  rw [List.mem_range] at hk
  exact h _ (by omega) (by omega)

theorem slice_succ (f : Nat → T) {lo hi : Nat} (h : lo ≤ hi) : slice f lo (hi + 1) = slice f lo hi ++ [f hi] := by
  rw [← slice_append f h (Nat.le_succ hi)]
  congr 1
  simp [slice]

/-! ### Geometry -/

/-- How the work is split (llvm_ts.cpp:279-309 and, identically, 372-402) -/
structure Geo where
  chunk_size : Nat
  chunks_per_block : Nat
  chunk_count : Nat
  work_unit_size : Nat
  work_units : Nat

/-- Splitting the work (llvm_ts.cpp:279-309, 372-402): `workers` is the size of the thread pool,
`ideal` is `jitc_llvm_block_size`.  `none` stands for a division by zero. -/
def geometry (workers ideal size block_size : Nat) : Option Geo :=
  let block_count := ceilDiv32 size block_size
  let chunk_size := if block_size > mul32 2 ideal ∧ block_count < mul32 2 workers then ideal else block_size
  let chunks_per_block := ceilDiv32 block_size chunk_size
  let chunk_count := mul32 block_count chunks_per_block
  if workers > 1 then
    let work_unit_size := min (ceilDiv32 ideal chunk_size) chunk_count
    if work_unit_size = 0 then none
    else some ⟨chunk_size, chunks_per_block, chunk_count, work_unit_size, ceilDiv32 chunk_count work_unit_size⟩
  else some ⟨chunk_size, chunks_per_block, chunk_count, chunk_count, 1⟩

/-- The elements of chunk `i` (llvm_red.h:97-107 and 134-144) -/
def chunkRange (g : Geo) (size block_size i : Nat) : Nat × Nat :=
  let block_id := i / g.chunks_per_block
  let chunk_within_block := i % g.chunks_per_block
  let block_rel_start := mul32 chunk_within_block g.chunk_size
  let block_rel_end := min (add32 block_rel_start g.chunk_size) block_size
  let block_offset := mul32 block_id block_size
  (add32 block_rel_start block_offset, min (add32 block_rel_end block_offset) size)

/-- The chunks of task `index` (llvm_red.h:94-95, 131-132) -/
def unitRange (g : Geo) (index : Nat) : Nat × Nat :=
  let chunk_start := mul32 index g.work_unit_size
  (chunk_start, min (add32 chunk_start g.work_unit_size) g.chunk_count)

/-- What is known about the geometry -/
structure Geo.Ok (g : Geo) (size block_size : Nat) : Prop where
  cs : 0 < g.chunk_size
  cs_le : g.chunk_size ≤ block_size
  cpb : 0 < g.chunks_per_block
  cover : block_size ≤ g.chunks_per_block * g.chunk_size
  tight : g.chunks_per_block * g.chunk_size < block_size + g.chunk_size
  cc : g.chunk_count = cdiv size block_size * g.chunks_per_block
  wus : 0 < g.work_unit_size
  units : g.chunk_count ≤ g.work_units * g.work_unit_size
  last : ∀ i, i < g.work_units → i * g.work_unit_size < g.chunk_count
  nowrap : ∀ i, i < g.work_units → i * g.work_unit_size + g.work_unit_size < 2 ^ 32

/-- Sizes for which 32-bit arithmetic does not wrap around -/
structure SizesOk (ideal size block_size : Nat) : Prop where
  bs : 2 ≤ block_size
  le : block_size ≤ size
  sum : size + block_size ≤ 2 ^ 32
  id_ge : 2 ≤ ideal
  id_lt : ideal < 2 ^ 31

theorem geometry_ok {workers ideal size block_size : Nat} (h : SizesOk ideal size block_size) :
    ∃ g, geometry workers ideal size block_size = some g ∧ g.Ok size block_size ∧
      (g.chunks_per_block = 1 ∨ (g.chunk_size = ideal ∧ 2 * g.chunks_per_block ≤ block_size + 1 ∧ 2 ≤ g.chunks_per_block ∧ 5 ≤ block_size)) := by
  obtain ⟨hb, hle, hsum, hi, hi31⟩ := h
  unfold geometry
  dsimp only
  have ebc : ceilDiv32 size block_size = cdiv size block_size := ceilDiv32_eq (by omega) hsum
  rw [ebc]
  have hbc := cdiv_pos (a := size) (b := block_size) (by omega) (by omega)
  have hbclt := cdiv_mul_lt (a := size) (b := block_size) (by omega)
  have hb2 : cdiv size block_size * 2 ≤ cdiv size block_size * block_size := Nat.mul_le_mul_left _ hb
  have hmi : mul32 2 ideal = 2 * ideal := mul32_eq (by omega)
  rw [hmi]
  generalize hcs : (if block_size > 2 * ideal ∧ cdiv size block_size < mul32 2 workers then ideal else block_size) = cs
  have hcs' : (cs = ideal ∧ 2 * ideal < block_size) ∨ cs = block_size := by
    subst hcs; split
    · rename_i h; exact Or.inl ⟨rfl, h.1⟩
    · exact Or.inr rfl
  have hcs0 : 0 < cs := by rcases hcs' with h | h <;> omega
  have hcsle : cs ≤ block_size := by rcases hcs' with h | h <;> omega
  have ecpb : ceilDiv32 block_size cs = cdiv block_size cs := ceilDiv32_eq hcs0 (by omega)
  rw [ecpb]
  have hcpb := cdiv_pos (a := block_size) (b := cs) (by omega) hcs0
  have hcge := cdiv_mul_ge (a := block_size) hcs0
  have hclt := cdiv_mul_lt (a := block_size) hcs0
  have hcle := cdiv_le_self (a := block_size) hcs0
  have hcase : cdiv block_size cs = 1 ∨ (cs = ideal ∧ 2 * cdiv block_size cs ≤ block_size + 1 ∧ 2 ≤ cdiv block_size cs ∧ 5 ≤ block_size) := by
    rcases hcs' with ⟨h1, h2⟩ | h
    · right
      refine ⟨h1, ?_, ?_, by omega⟩
      · have : (cdiv block_size cs - 1) * 2 ≤ (cdiv block_size cs - 1) * cs := Nat.mul_le_mul_left _ (by omega)
        have h3 : (cdiv block_size cs - 1) * cs = cdiv block_size cs * cs - cs := by rw [Nat.sub_mul, Nat.one_mul]
        omega
      · by_contra hc
        have : cdiv block_size cs = 1 := by omega
        rw [this] at hcge
        omega
    · left
      subst h
      apply Nat.le_antisymm
      · exact cdiv_le hcs0 (by omega)
      · exact hcpb
  generalize hc : cdiv block_size cs = cpb at *
  generalize hbcg : cdiv size block_size = bc at *
  have hcc : bc * cpb < 2 ^ 32 ∧ (cpb = 1 → 2 * (bc * cpb) ≤ 2 ^ 32) ∧ (cpb ≠ 1 → cs = ideal) := by
    rcases hcase with h | ⟨hci, h, _, h5⟩
    · rw [h]; omega
    · have h6 : bc * (2 * cpb) ≤ bc * (block_size + 1) := Nat.mul_le_mul_left _ h
      have h7 : bc * (2 * cpb) = 2 * (bc * cpb) := by ring
      have h8 : bc * (block_size + 1) = bc * block_size + bc := by ring
      have h9 : bc * 5 ≤ bc * block_size := Nat.mul_le_mul_left _ h5
      exact ⟨by omega, by omega, fun _ => hci⟩
  have ecc : mul32 bc cpb = bc * cpb := mul32_eq (by omega)
  rw [ecc]
  have hccpos : 0 < bc * cpb := Nat.mul_pos hbc hcpb
  by_cases hw : workers > 1
  · rw [if_pos hw]
    have ew : ceilDiv32 ideal cs = cdiv ideal cs := ceilDiv32_eq hcs0 (by omega)
    have hw0 := cdiv_pos (a := ideal) (b := cs) (by omega) hcs0
    rw [ew]
    have hid : cs = ideal → cdiv ideal cs = 1 := by
      rintro rfl
      apply Nat.le_antisymm
      · exact cdiv_le hcs0 (by omega)
      · exact hw0
    generalize hwu : min (cdiv ideal cs) (bc * cpb) = wus
    have hwus : 0 < wus := by omega
    have hnw : bc * cpb + wus ≤ 2 ^ 32 := by
      by_cases h1 : cpb = 1
      · have := hcc.2.1 h1; omega
      · have := hid (hcc.2.2 h1); omega
    rw [if_neg (by omega)]
    have eu : ceilDiv32 (bc * cpb) wus = cdiv (bc * cpb) wus := ceilDiv32_eq hwus (by omega)
    refine ⟨_, rfl, ⟨hcs0, hcsle, hcpb, hcge, hclt, by rw [hbcg], hwus, ?_, ?_, ?_⟩, hcase⟩
    · simp only [eu]; exact cdiv_mul_ge hwus
    · simp only [eu]; intro i hi; exact (lt_cdiv hwus).1 hi
    · simp only [eu]; intro i hi
      have := (lt_cdiv hwus).1 hi
      omega
  · rw [if_neg hw]
    refine ⟨_, rfl, ⟨hcs0, hcsle, hcpb, hcge, hclt, by rw [hbcg], hccpos, ?_, ?_, ?_⟩, hcase⟩
    · simp
    · intro i hi
      have : i = 0 := by simp only at hi; omega
      subst this; simpa using hccpos
    · intro i hi
      have : i = 0 := by simp only at hi; omega
      subst this
      simp only [Nat.zero_mul, Nat.zero_add]
      exact hcc.1

end Verif.Llvm
