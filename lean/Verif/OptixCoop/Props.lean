import Verif.OptixCoop.Model

/-!
# C97: Cooperative vectors on CUDA devices (OptiX)
-/
namespace Verif.OptixCoop

/-- Specification: the vector has the given components. -/
def Holds (regs : Regs) (v : Vec) (xs : List Nat) : Prop := xs.length = v.len ∧ ∀ i < v.len, (regs v.id i).map (fun w => w % 2 ^ (8 * v.tsize)) = xs[i]?

theorem mapM_range {f : Nat → Option Nat} : ∀ (n : Nat) (xs : List Nat), xs.length = n → (∀ i < n, f i = xs[i]?) → (List.range n).mapM f = some xs := by
  intro n
  induction n with
  | zero => intro xs h _; rw [List.length_eq_zero_iff.1 h]; rfl
  | succ n ih =>
    intro xs hl h
    have hne : xs ≠ [] := by intro e; rw [e] at hl; cases hl
    obtain ⟨ys, y, rfl⟩ : ∃ ys y, xs = ys ++ [y] := ⟨xs.dropLast, xs.getLast hne, (List.dropLast_append_getLast hne).symm⟩
    have hy : ys.length = n := by simpa using hl
    rw [List.range_succ, List.mapM_append, ih ys hy fun i hi => by rw [h i (by omega), List.getElem?_append_left (by omega)]]
    have := h n (by omega)
    rw [List.getElem?_append_right (by omega), hy, Nat.sub_self] at this
    simp [this]

theorem mapM_forall2 {g : Vec → Option (List Nat)} {srcs : List Vec} {xss : List (List Nat)} (h : List.Forall₂ (fun s xs => g s = some xs) srcs xss) : srcs.mapM g = some xss := by
  induction h with
  | nil => rfl
  | cons h _ ih => rw [List.mapM_cons, h, ih]; rfl

theorem fold_update (id : Nat) (f : Nat → Option Nat) (n : Nat) (regs : Regs) (v i : Nat) :
    (List.range n).foldl (fun (regs : Regs) i => Function.update regs id (Function.update (regs id) i (f i))) regs v i = if v = id ∧ i < n then f i else regs v i := by
  induction n with
  | zero => rw [if_neg (fun h => by omega)]; rfl
  | succ n ih =>
    rw [List.range_succ, List.foldl_append, List.foldl_cons, List.foldl_nil]
    generalize hr : (List.range n).foldl (fun (regs : Regs) i => Function.update regs id (Function.update (regs id) i (f i))) regs = r at ih
    by_cases hv : v = id
    · subst hv
      rw [Function.update_self]
      by_cases hi : i = n
      · subst hi
        rw [Function.update_self, if_pos ⟨rfl, by omega⟩]
      · rw [Function.update_of_ne hi, ih]
        by_cases h : i < n
        · rw [if_pos ⟨rfl, h⟩, if_pos ⟨rfl, by omega⟩]
        · rw [if_neg (fun h' => h h'.2), if_neg (fun h' => by omega)]
    · rw [Function.update_of_ne hv, ih, if_neg (fun h => hv h.1), if_neg (fun h => hv h.1)]

theorem buffer_eq (regs : Regs) (v : Vec) (hz : 0 < v.tsize) {i : Nat} (hi : i < v.len) : copyToBuffer regs v (v.tsize * i) = (regs v.id i).map (bits v) := by
  have key : ∀ n, ∀ i < n, (List.range n).foldl (fun (b : Nat → Option Nat) i => Function.update b (v.tsize * i) ((regs v.id i).map (bits v))) (fun _ => none) (v.tsize * i) =
      (regs v.id i).map (bits v) := by
    intro n
    induction n with
    | zero => intro i hi; omega
    | succ n ih =>
      intro i hi
      rw [List.range_succ, List.foldl_append, List.foldl_cons, List.foldl_nil]
      by_cases h : i = n
      · subst h; rw [Function.update_self]
      · rw [Function.update_of_ne (fun e => h (Nat.eq_of_mul_eq_mul_left hz e)), ih i (by omega)]
  exact key v.len i hi

theorem regCount_le {l : Nat} (h : regCount l ≠ 0) : l ≤ regCount l := by
  unfold regCount at h ⊢
  by_cases h1 : l ≤ 16
  · rw [if_pos h1]; exact h1
  · rw [if_neg h1] at h ⊢
    by_cases h2 : l ≤ 64
    · rw [if_pos h2]; exact h2
    · rw [if_neg h2] at h; exact absurd rfl h

/-- **C97 (operands).**  Whatever the lengths of vectors, the functions of OptiX receive all of their components. -/
theorem C97_inputs {regs : Regs} {srcs : List Vec} {xss : List (List Nat)} {opLength : Nat} (h : List.Forall₂ (Holds regs) srcs xss) (hl : ∀ s ∈ srcs, s.len ≤ opLength)
    (hz : ∀ s ∈ srcs, 0 < s.tsize) : inputs regs srcs (regCount opLength) = some xss := by
  unfold inputs
  apply mapM_forall2
  induction h with
  | nil => exact .nil
  | cons h _ ih =>
    rename_i s xs srcs xss _
    refine .cons ?_ (ih (fun s' hs' => hl s' (List.mem_cons_of_mem _ hs')) (fun s' hs' => hz s' (List.mem_cons_of_mem _ hs')))
    apply mapM_range _ _ h.1
    intro i hi
    rw [← h.2 i hi]
    by_cases hn : regCount opLength ≠ 0
    · rw [if_pos hn]
      have hlt : i < regCount opLength := Nat.lt_of_lt_of_le hi (Nat.le_trans (hl s List.mem_cons_self) (regCount_le hn))
      unfold operand putElems
      rw [List.getElem?_map, List.getElem?_range hlt, Option.map_some, if_pos hi]
      rfl
    · rw [if_neg hn, buffer_eq regs s (hz s List.mem_cons_self) hi]
      rfl

/-- **C97 (operations).**  The result of an operation has the components that the function of OptiX yields for the components of the operands, for all lengths: whether they are passed in 16
or 64 registers or through local memory.  Other vectors are unchanged. -/
theorem C97_render {F : List (List Nat) → Nat → Nat} {dst : Vec} {srcs : List Vec} {opLength : Nat} {regs regs' : Regs} {xss : List (List Nat)}
    (h : Render F dst srcs opLength regs regs') (hx : List.Forall₂ (Holds regs) srcs xss) (hl : ∀ s ∈ srcs, s.len ≤ opLength) (hd : dst.len ≤ opLength)
    (hz : ∀ s ∈ srcs, 0 < s.tsize) (hzd : 0 < dst.tsize) :
    Holds regs' dst ((List.range dst.len).map fun i => F xss i % 2 ^ (8 * dst.tsize)) ∧ ∀ v i, v ≠ dst.id → regs' v i = regs v i := by
  obtain ⟨outs, ho, rfl⟩ := h
  have ho := ho xss (C97_inputs hx hl hz)
  unfold bits at ho
  by_cases hn : regCount opLength ≠ 0
  · rw [if_pos hn]
    refine ⟨⟨by simp, fun i hi => ?_⟩, fun v i hv => if_neg (fun h => hv h.1)⟩
    dsimp only
    rw [if_pos ⟨rfl, Nat.lt_of_lt_of_le hi (Nat.le_trans hd (regCount_le hn))⟩, List.getElem?_map, List.getElem?_range hi, Option.map_some, Option.map_some, ho i hi]
  · rw [if_neg hn]
    unfold copyFromBuffer
    refine ⟨⟨by simp, fun i hi => ?_⟩, fun v i hv => by rw [fold_update dst.id (fun i => _), if_neg (fun h => hv h.1)]⟩
    rw [fold_update dst.id (fun i => _), if_pos ⟨rfl, hi⟩]
    dsimp only
    rw [Nat.mul_mod_right, Nat.mul_div_cancel_left _ hzd, if_pos ⟨rfl, hi⟩, List.getElem?_map, List.getElem?_range hi, Option.map_some,
      Option.map_some]
    unfold bits
    rw [Nat.mod_mod, ho i hi]

/-- Executions of operations exist. -/
theorem C97_render_exists (F : List (List Nat) → Nat → Nat) (dst : Vec) (srcs : List Vec) (opLength : Nat) (regs : Regs) : ∃ regs', Render F dst srcs opLength regs regs' := by
  cases h : inputs regs srcs (regCount opLength) with
  | none => exact ⟨_, fun _ => 0, ⟨fun ins hi => (by rw [h] at hi; cases hi), rfl⟩⟩
  | some ins => exact ⟨_, F ins, ⟨fun ins' hi i _ => (by rw [h] at hi; rw [Option.some.inj hi]), rfl⟩⟩

/-- Registers that operations define have been declared. -/
theorem C97_declared {F : List (List Nat) → Nat → Nat} {dst : Vec} {srcs : List Vec} {opLength : Nat} {regs regs' : Regs} (h : Render F dst srcs opLength regs regs') (v i : Nat)
    (hne : regs' v i ≠ regs v i) : v = dst.id ∧ i < declared opLength dst := by
  obtain ⟨outs, _, rfl⟩ := h
  unfold declared
  by_cases hn : regCount opLength ≠ 0
  · rw [if_pos hn] at hne
    by_cases hc : v = dst.id ∧ i < regCount opLength
    · exact ⟨hc.1, Nat.lt_of_lt_of_le hc.2 (Nat.le_max_left _ _)⟩
    · exact absurd (if_neg hc) hne
  · rw [if_neg hn] at hne
    unfold copyFromBuffer at hne
    rw [fold_update dst.id (fun i => _)] at hne
    by_cases hc : v = dst.id ∧ i < dst.len
    · exact ⟨hc.1, Nat.lt_of_lt_of_le hc.2 (Nat.le_max_right _ _)⟩
    · exact absurd (if_neg hc) hne

/-- **C97 (products).**  The length that selects the function for products with matrices covers input and output. -/
theorem C97_matvec {F : List (List Nat) → Nat → Nat} {dst a1 : Vec} {regs regs' : Regs} {xs : List Nat} (h : Render F dst [a1] (opLengthMatVec dst a1) regs regs')
    (hx : Holds regs a1 xs) (hz : 0 < a1.tsize) (hzd : 0 < dst.tsize) :
    Holds regs' dst ((List.range dst.len).map fun i => F [xs] i % 2 ^ (8 * dst.tsize)) :=
  (C97_render h (.cons hx .nil) (fun s hs => by rw [List.mem_singleton.1 hs]; exact Nat.le_max_right _ _) (Nat.le_max_left _ _)
    (fun s hs => by rw [List.mem_singleton.1 hs]; exact hz) hzd).1

/-- **C97 (packing).**  Packing values and literals defines all components; unpacking returns them. -/
theorem C97_pack (dst : Vec) (vals : Nat → Nat) (regs : Regs) : Holds (renderPack dst vals regs) dst ((List.range dst.len).map fun i => vals i % 2 ^ (8 * dst.tsize)) := by
  unfold renderPack
  refine ⟨by simp, fun i hi => ?_⟩
  rw [fold_update dst.id (fun i => some (bits dst (vals i))), if_pos ⟨rfl, hi⟩, List.getElem?_map, List.getElem?_range hi, Option.map_some, Option.map_some]
  unfold bits
  rw [Nat.mod_mod]

theorem C97_literal (dst : Vec) (value : Nat) (regs : Regs) : Holds (renderLiteral dst value regs) dst ((List.range dst.len).map fun _ => value % 2 ^ (8 * dst.tsize)) :=
  C97_pack dst (fun _ => value) regs

theorem C97_unpack {regs : Regs} {v : Vec} {xs : List Nat} (h : Holds regs v xs) {i : Nat} (hi : i < v.len) : unpack regs v i = xs[i]? := h.2 i hi

/-- **C97 (accumulation).**  If the mask is set, all components are passed to the function that adds them to memory, with the offset in bytes; otherwise nothing happens. -/
theorem C97_accum {regs : Regs} {srcs : List Vec} {xss : List (List Nat)} {opLength : Nat} (h : List.Forall₂ (Holds regs) srcs xss) (hl : ∀ s ∈ srcs, s.len ≤ opLength)
    (hz : ∀ s ∈ srcs, 0 < s.tsize) (offset tsize : Nat) (ho : offset * tsize < 2 ^ 32) (mask : Bool) :
    accum regs srcs opLength offset tsize mask = if mask then some (some (offset * tsize, xss)) else none := by
  unfold accum
  cases mask with
  | false => rfl
  | true => rw [if_pos rfl, if_pos rfl, C97_inputs h hl hz, Nat.mod_eq_of_lt ho]; rfl

/-- **C97 (resizing).**  A vector with at most 64 components that is resized to the number of threads of a kernel has the same components. -/
theorem C97_copy_partial {regs : Regs} {dst src : Vec} {xs : List Nat} (hne : dst.id ≠ src.id) (hl : dst.len = src.len) (hts : dst.tsize = src.tsize) (h64 : dst.len ≤ 64)
    (h : Holds regs src xs) : Holds (renderCopy dst src regs) dst xs := by
  have key : ∀ n v i, (List.range n).foldl (fun (regs : Regs) i => Function.update regs dst.id (Function.update (regs dst.id) i (regs src.id i))) regs v i =
      if v = dst.id ∧ i < n then regs src.id i else regs v i := by
    intro n
    induction n with
    | zero => intro v i; rw [if_neg (fun h => by omega)]; rfl
    | succ n ih =>
      intro v i
      rw [List.range_succ, List.foldl_append, List.foldl_cons, List.foldl_nil]
      generalize hr : (List.range n).foldl (fun (regs : Regs) i => Function.update regs dst.id (Function.update (regs dst.id) i (regs src.id i))) regs = r at ih
      by_cases hv : v = dst.id
      · subst hv
        rw [Function.update_self]
        by_cases hi : i = n
        · subst hi
          rw [Function.update_self, ih, if_neg (fun h => hne h.1.symm), if_pos ⟨rfl, by omega⟩]
        · rw [Function.update_of_ne hi, ih]
          by_cases h : i < n
          · rw [if_pos ⟨rfl, h⟩, if_pos ⟨rfl, by omega⟩]
          · rw [if_neg (fun h' => h h'.2), if_neg (fun h' => by omega)]
      · rw [Function.update_of_ne hv, ih, if_neg (fun h => hv h.1), if_neg (fun h => hv h.1)]
  have hrc : regCount dst.len ≠ 0 := by
    unfold regCount
    by_cases h1 : dst.len ≤ 16
    · rw [if_pos h1]; decide
    · rw [if_neg h1, if_pos h64]; decide
  unfold renderCopy
  refine ⟨by rw [h.1, hl], fun i hi => ?_⟩
  rw [key, if_pos ⟨rfl, Nat.lt_of_lt_of_le hi (regCount_le hrc)⟩, hts, h.2 i (by omega)]

/-- **C97 fails** when a vector with more than 64 components is resized: no register is copied, and the components of the result are not initialised. -/
theorem C97_copy_counterexample {regs : Regs} {dst src : Vec} (h64 : 64 < dst.len) (hnew : ∀ i, regs dst.id i = none) (i : Nat) :
    unpack (renderCopy dst src regs) dst i = none := by
  unfold renderCopy regCount
  rw [if_neg (by omega), if_neg (by omega)]
  unfold unpack
  simp [hnew]

/-! ### Examples -/

/-- A vector with 100 components is packed and resized: the copy has no components at all. -/
example : ∃ regs : Regs, (∃ xs, Holds regs ⟨0, 100, 4⟩ xs) ∧ ∀ xs, ¬ Holds (renderCopy ⟨1, 100, 4⟩ ⟨0, 100, 4⟩ regs) ⟨1, 100, 4⟩ xs := by
  refine ⟨renderPack ⟨0, 100, 4⟩ (fun i => i) (fun _ _ => none), ⟨_, C97_pack _ _ _⟩, fun xs h => ?_⟩
  have h0 := C97_unpack h (i := 0) (by decide)
  rw [C97_copy_counterexample (by decide) (fun i => ?_)] at h0
  · have hl : xs.length = 100 := h.1
    rw [List.getElem?_eq_getElem (by omega)] at h0
    cases h0
  · unfold renderPack
    rw [fold_update 0 (fun i => _), if_neg (fun h => absurd h.1 (by decide))]

/-- A half precision vector with 100 components is packed, and its components are passed through local memory. -/
example : ∃ regs : Regs, Holds regs ⟨0, 100, 2⟩ ((List.range 100).map fun i => i % 2 ^ 16) ∧ regCount 100 = 0 ∧ regCount 17 = 64 :=
  ⟨_, C97_pack ⟨0, 100, 2⟩ (fun i => i) (fun _ _ => none), rfl, rfl⟩

/-- The sum of two vectors of length 20 -/
example : ∃ regs regs' : Regs, Render (fun ins i => ((ins.map fun l => l.getD i 0).sum)) ⟨2, 20, 4⟩ [⟨0, 20, 4⟩, ⟨1, 20, 4⟩] 20 regs regs' ∧
    ∃ xss, List.Forall₂ (Holds regs) [⟨0, 20, 4⟩, ⟨1, 20, 4⟩] xss := by
  obtain ⟨regs', h⟩ := C97_render_exists (fun ins i => ((ins.map fun l => l.getD i 0).sum)) ⟨2, 20, 4⟩ [⟨0, 20, 4⟩, ⟨1, 20, 4⟩] 20 (fun _ _ => some 7)
  refine ⟨_, regs', h, [List.replicate 20 7, List.replicate 20 7], ?_⟩
  have : ∀ id, Holds (fun _ _ => some 7) ⟨id, 20, 4⟩ (List.replicate 20 7) := fun id => ⟨by simp, fun i hi => by rw [List.getElem?_replicate, if_pos hi]; rfl⟩
  exact .cons (this 0) (.cons (this 1) .nil)

end Verif.OptixCoop
