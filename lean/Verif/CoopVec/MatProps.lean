import Verif.CoopVec.MatSpec
import Mathlib.Tactic.Common
import Mathlib.Tactic.Ring
import Mathlib.Algebra.BigOperators.Ring.Finset

/-!
# C74: Matrix-vector products
-/
namespace Verif.CoopVec
open Verif.CoopMat (Descr)

theorem forN_inv {β : Type} (P : Nat → β → Prop) {n : Nat} {s : β} {f : β → Nat → Option β} (h0 : P 0 s)
    (hs : ∀ k s, k < n → P k s → ∃ s', f s k = some s' ∧ P (k + 1) s') : ∃ s', forN n s f = some s' ∧ P n s' := by
  unfold forN
  induction n with
  | zero => exact ⟨s, rfl, h0⟩
  | succ n ih =>
    obtain ⟨s1, h1, h2⟩ := ih fun k s hk => hs k s (by omega)
    obtain ⟨s2, h3, h4⟩ := hs n s1 (by omega) h2
    refine ⟨s2, ?_, h4⟩
    rw [List.range_succ, List.foldlM_append, h1]
    show (List.foldlM f s1 [n]) = _
    simp [h3]

theorem store_spec {β : Type} {buf : List β} {i : Nat} {v : β} (h : i < buf.length) :
    ∃ b, store buf i v = some b ∧ b.length = buf.length ∧ b[i]? = some v ∧ ∀ j, j ≠ i → b[j]? = buf[j]? := by
  refine ⟨buf.set i v, by unfold store; rw [if_pos h], List.length_set, ?_, fun j hj => ?_⟩
  · rw [List.getElem?_set_self h]
  · rw [List.getElem?_set_ne (fun e => hj e.symm)]

theorem sext32_small {x : Nat} (h : x < 2 ^ 31) : sext32 x = (x : Int) := by
  unfold sext32
  rw [Nat.mod_eq_of_lt (by omega), if_pos h]

/-- A lane whose result is specified: all lanes outside of callables, active ones in callables -/
def Ctx.Live (c : Ctx) (l : Nat) : Prop := l < c.w ∧ (c.callable = true → c.mask l = true)

/-- Outside of callables all lanes have the same pointer. -/
def Ctx.Uniform (c : Ctx) (p : Lanes Int) : Prop := c.callable = false → ∀ l, p l = p 0

theorem loadElem_spec {α : Type} {zero : α} {c : Ctx} {mem : Int → Option α} {p : Lanes Int} {off : Int} (hu : c.Uniform p) (hw : 0 < c.w)
    {v : Lanes α} (hv : ∀ l, c.Live l → mem (p l + off) = some (v l)) :
    ∃ r, loadElem zero c mem p off = some r ∧ ∀ l, c.Live l → r l = v l := by
  unfold loadElem
  cases hc : c.callable with
  | true =>
    rw [if_pos rfl, if_pos (fun l hl hm => by rw [hv l ⟨hl, fun _ => hm⟩]; rfl)]
    refine ⟨_, rfl, fun l hl => ?_⟩
    rw [if_pos (hl.2 hc), hv l hl]; rfl
  | false =>
    rw [if_neg (by simp)]
    have h0 := hv 0 ⟨hw, fun h => by rw [hc] at h; cases h⟩
    rw [h0]
    refine ⟨fun _ => v 0, rfl, fun l hl => ?_⟩
    have := hv l hl
    rw [hu hc l, h0] at this
    exact Option.some.inj this

theorem mapM_some {β γ : Type} {l : List β} {f : β → Option γ} (g : β → γ) (h : ∀ x ∈ l, f x = some (g x)) : l.mapM f = some (l.map g) := by
  induction l with
  | nil => rfl
  | cons x l ih =>
    rw [List.mapM_cons, h x List.mem_cons_self, ih fun y hy => h y (List.mem_cons_of_mem _ hy)]
    rfl

theorem dotFma_succ {α : Type} (o : Ops α) (A : Nat → Nat → α) (x b : Nat → α) (n i : Nat) :
    dotFma o A x b (n + 1) i = o.fma (A i n) (x n) (dotFma o A x b n i) := by
  unfold dotFma
  rw [List.range_succ, List.foldl_append]; rfl

/-- What the bias operand contributes -/
def BiasOk {α : Type} (o : Ops α) (c : Ctx) (mem : Int → Option α) (m : Nat) : Option (Lanes Int × Descr) → (Nat → Lanes α) → Prop
  | none, b => ∀ i l, b i l = o.zero
  | some (pb, d), b => c.Uniform pb ∧ d.rows = m ∧ d.cols = 1 ∧ d.stride = 1 ∧ d.offset < 2 ^ 31
      ∧ ∀ l, c.Live l → Stored mem (pb l) d fun r _ => b r l

/-- **C74 (partial).**  The generated code computes `A x + b` (or the product with the transpose), component by component and lane by
lane, by a chain of fused multiply-adds from the first to the last column: for all shapes, contents of the scratch memory, and in callables
for each active lane with its own pointers.  It reads only entries of the matrix and the bias, and stays within the scratch memory.  Missing:
matrices with a row stride other than the number of columns (false, see `C74_stride_counterexample`), and offsets of 2^31 or more
(false, see `C74_offset_counterexample`). -/
theorem C74_matvec_partial {α : Type} (o : Ops α) (c : Ctx) (hw : 0 < c.w) (mem : Int → Option α) (pa : Lanes Int) (d : Descr) (transpose : Bool)
    (x : Nat → Lanes α) (bias : Option (Lanes Int × Descr)) (buf : List (Lanes α)) (A : Nat → Nat → Lanes α) (b : Nat → Lanes α) (n m : Nat)
    (hn : n = if transpose then d.rows else d.cols) (hm : m = if transpose then d.cols else d.rows)
    (hbuf : n + m ≤ buf.length) (hu : c.Uniform pa) (hstride : d.stride = d.cols) (hoff : d.offset < 2 ^ 31)
    (hA : ∀ l, c.Live l → Stored mem (pa l) d fun r k => A r k l) (hb : BiasOk o c mem m bias b) :
    ∃ r, matvec o c mem pa d transpose x bias buf = some r ∧ r.length = m
      ∧ ∀ i, i < m → ∃ y, r[i]? = some y ∧ ∀ l, c.Live l →
          y l = dotFma o (orient transpose fun r k => A r k l) (fun j => x j l) (fun i => b i l) n i := by
  unfold matvec
  dsimp only
  rw [← hn, ← hm]
  -- input
  obtain ⟨b1, e1, l1, i1⟩ := forN_inv (n := n) (s := buf) (f := fun buf i => store buf i (x i))
    (fun k b => b.length = buf.length ∧ ∀ i, i < k → b[i]? = some (x i)) ⟨rfl, fun i hi => by omega⟩ (by
      rintro k s hk ⟨h1, h2⟩
      obtain ⟨s', g1, g2, g3, g4⟩ := store_spec (buf := s) (i := k) (v := x k) (by omega)
      refine ⟨s', g1, by omega, fun i hi => ?_⟩
      by_cases e : i = k
      · subst e; exact g3
      · rw [g4 i e]; exact h2 i (by omega))
  rw [e1, Option.bind_some]
  -- output
  obtain ⟨b2, e2, l2, i2, j2⟩ := forN_inv (n := m) (s := b1) (f := prepareOutput o c mem bias n)
    (fun k s => s.length = buf.length ∧ (∀ i, i < n → s[i]? = some (x i))
      ∧ ∀ i, i < k → ∃ y, s[n + i]? = some y ∧ ∀ l, c.Live l → y l = b i l) ⟨l1, i1, fun i hi => by omega⟩ (by
      rintro k s hk ⟨h1, h2, h3⟩
      have key : ∀ v : Lanes α, (∀ l, c.Live l → v l = b k l) → ∃ s', store s (n + k) v = some s' ∧ s'.length = buf.length
          ∧ (∀ i, i < n → s'[i]? = some (x i)) ∧ ∀ i, i < k + 1 → ∃ y, s'[n + i]? = some y ∧ ∀ l, c.Live l → y l = b i l := by
        intro v hv
        obtain ⟨s', g1, g2, g3, g4⟩ := store_spec (buf := s) (i := n + k) (v := v) (by omega)
        refine ⟨s', g1, by omega, fun i hi => by rw [g4 i (by omega)]; exact h2 i hi, fun i hi => ?_⟩
        by_cases e : i = k
        · subst e; exact ⟨v, g3, hv⟩
        · rw [g4 _ (by omega)]; exact h3 i (by omega)
      cases bias with
      | none => exact key _ fun l _ => (hb k l).symm
      | some q =>
        obtain ⟨pb, db⟩ := q
        obtain ⟨q1, q2, q3, q4, q5, q6⟩ := hb
        obtain ⟨v, f1, f2⟩ := loadElem_spec (zero := o.zero) (off := sext32 db.offset + k) q1 hw (v := b k) (by
          intro l hl
          have := q6 l hl k 0 (by omega) (by omega)
          rw [q4, Nat.mul_one, Nat.add_zero] at this
          rw [sext32_small q5, ← this]
          congr 1)
        unfold prepareOutput
        dsimp only
        rw [f1, Option.bind_some]
        exact key v f2)
  rw [e2, Option.bind_some]
  -- product
  have hAl : ∀ i j, i < m → j < n → ∀ l, c.Live l →
      mem (pa l + (sext32 d.offset + (if transpose then (j * (if transpose then m else n) + i : Nat) else (i * (if transpose then m else n) + j : Nat) : Int)))
        = some (orient transpose (fun r k => A r k l) i j) := by
    intro i j hi hj l hl
    rw [sext32_small hoff]
    cases transpose with
    | true =>
      simp only [if_true] at hn hm ⊢
      have := hA l hl j i (by omega) (by omega)
      rw [hstride, ← hm] at this
      show _ = some (A j i l)
      rw [← this]
      congr 1; push_cast; ring
    | false =>
      simp only [Bool.false_eq_true, if_false] at hn hm ⊢
      have := hA l hl i j (by omega) (by omega)
      rw [hstride, ← hn] at this
      show _ = some (A i j l)
      rw [← this]
      congr 1; push_cast; ring
  obtain ⟨b3, e3, l3, i3, j3⟩ := forN_inv (n := n) (s := b2) (f := fun buf j =>
      (buf[j]?).bind fun x =>
      forN m buf fun buf i =>
        (loadElem o.zero c mem pa (sext32 d.offset + (if transpose then (j * (if transpose then m else n) + i : Nat) else (i * (if transpose then m else n) + j : Nat) : Int))).bind fun a =>
        (buf[n + i]?).bind fun y =>
        store buf (n + i) fun l => o.fma (a l) (x l) (y l))
    (fun j s => s.length = buf.length ∧ (∀ i, i < n → s[i]? = some (x i))
      ∧ ∀ i, i < m → ∃ y, s[n + i]? = some y ∧ ∀ l, c.Live l →
          y l = dotFma o (orient transpose fun r k => A r k l) (fun j => x j l) (fun i => b i l) j i) ⟨l2, i2, j2⟩ (by
      rintro j s hj ⟨h1, h2, h3⟩
      rw [h2 j hj, Option.bind_some]
      obtain ⟨s', g1, g2, g3, g4⟩ := forN_inv (n := m) (s := s) (f := fun buf i =>
          (loadElem o.zero c mem pa (sext32 d.offset + (if transpose then (j * (if transpose then m else n) + i : Nat) else (i * (if transpose then m else n) + j : Nat) : Int))).bind fun a =>
          (buf[n + i]?).bind fun y =>
          store buf (n + i) fun l => o.fma (a l) (x j l) (y l))
        (fun k s => s.length = buf.length ∧ (∀ i, i < n → s[i]? = some (x i))
          ∧ ∀ i, i < m → ∃ y, s[n + i]? = some y ∧ ∀ l, c.Live l →
              y l = dotFma o (orient transpose fun r k => A r k l) (fun j => x j l) (fun i => b i l) (if i < k then j + 1 else j) i)
        ⟨h1, h2, fun i hi => by rw [if_neg (by omega)]; exact h3 i hi⟩ (by
          rintro k t hk ⟨f1, f2, f3⟩
          obtain ⟨a, a1, a2⟩ := loadElem_spec (zero := o.zero) hu hw (hAl k j hk hj)
          obtain ⟨y, y1, y2⟩ := f3 k hk
          rw [if_neg (by omega)] at y2
          rw [a1, Option.bind_some, y1, Option.bind_some]
          obtain ⟨t', t1, t2, t3, t4⟩ := store_spec (buf := t) (i := n + k) (v := fun l => o.fma (a l) (x j l) (y l)) (by omega)
          refine ⟨t', t1, by omega, fun i hi => by rw [t4 i (by omega)]; exact f2 i hi, fun i hi => ?_⟩
          by_cases e : i = k
          · subst e
            refine ⟨_, t3, fun l hl => ?_⟩
            rw [if_pos (by omega), dotFma_succ, a2 l hl, y2 l hl]
          · obtain ⟨z, z1, z2⟩ := f3 i hi
            refine ⟨z, by rw [t4 _ (by omega)]; exact z1, fun l hl => ?_⟩
            rw [z2 l hl]
            congr 1
            by_cases e2 : i < k
            · rw [if_pos e2, if_pos (by omega)]
            · rw [if_neg e2, if_neg (by omega)])
      refine ⟨s', g1, g2, g3, fun i hi => ?_⟩
      obtain ⟨y, y1, y2⟩ := g4 i hi
      rw [if_pos hi] at y2
      exact ⟨y, y1, y2⟩)
  rw [e3, Option.bind_some]
  refine ⟨(List.range m).map fun i => (b3[n + i]?).getD fun _ => o.zero, ?_, by simp, fun i hi => ?_⟩
  · apply mapM_some
    intro i hi
    obtain ⟨y, y1, _⟩ := j3 i (List.mem_range.1 hi)
    rw [y1]; rfl
  · obtain ⟨y, y1, y2⟩ := j3 i hi
    refine ⟨y, ?_, y2⟩
    rw [List.getElem?_map, List.getElem?_range hi, Option.map_some, y1]; rfl

/-- **C74 (partial).**  In exact arithmetic the components are those of `A x + b`. -/
theorem C74_sum_partial {α : Type} [CommSemiring α] (c : Ctx) (hw : 0 < c.w) (mem : Int → Option α) (pa : Lanes Int) (d : Descr) (transpose : Bool)
    (x : Nat → Lanes α) (bias : Option (Lanes Int × Descr)) (buf : List (Lanes α)) (A : Nat → Nat → Lanes α) (b : Nat → Lanes α) (n m : Nat)
    (hn : n = if transpose then d.rows else d.cols) (hm : m = if transpose then d.cols else d.rows)
    (hbuf : n + m ≤ buf.length) (hu : c.Uniform pa) (hstride : d.stride = d.cols) (hoff : d.offset < 2 ^ 31)
    (hA : ∀ l, c.Live l → Stored mem (pa l) d fun r k => A r k l) (hb : BiasOk ⟨0, fun a x y => a * x + y⟩ c mem m bias b) :
    ∃ r, matvec ⟨0, fun a x y => a * x + y⟩ c mem pa d transpose x bias buf = some r ∧ r.length = m
      ∧ ∀ i, i < m → ∃ y, r[i]? = some y ∧ ∀ l, c.Live l →
          y l = (∑ j ∈ Finset.range n, (if transpose then A j i l else A i j l) * x j l) + b i l := by
  obtain ⟨r, h1, h2, h3⟩ := C74_matvec_partial ⟨0, fun a x y => a * x + y⟩ c hw mem pa d transpose x bias buf A b n m hn hm hbuf hu hstride hoff hA hb
  refine ⟨r, h1, h2, fun i hi => ?_⟩
  obtain ⟨y, y1, y2⟩ := h3 i hi
  refine ⟨y, y1, fun l hl => ?_⟩
  rw [y2 l hl]
  clear h1 h2 h3 y1 y2 hA hb hbuf hn
  induction n with
  | zero => simp [dotFma]
  | succ n ih =>
    rw [dotFma_succ, ih, Finset.sum_range_succ]
    unfold orient
    ring

/-- **C74 (partial).**  The result has as many components as the product has, and the checks admit only vectors of the
right length and a bias of the right shape.  Missing: products with more than 65535 components (false, see
`C74_length_counterexample`). -/
theorem C74_length_partial (A : Descr) (transpose : Bool) (xlen len : Nat) (b : Option Descr)
    (h : matvecLength A transpose xlen b = some len) (hs : (if transpose then A.cols else A.rows) < 2 ^ 16) :
    len = (if transpose then A.cols else A.rows) ∧ xlen = (if transpose then A.rows else A.cols)
      ∧ ∀ d, b = some d → d.rows = (if transpose then A.cols else A.rows) ∧ d.cols = 1 ∧ d.stride = 1 := by
  unfold matvecLength at h
  dsimp only at h
  by_cases h1 : xlen ≠ if transpose then A.rows else A.cols
  · rw [if_pos h1] at h; cases h
  rw [if_neg h1] at h
  by_cases h2 : (b.any fun b => decide (b.rows ≠ (if transpose then A.cols else A.rows) ∨ b.cols ≠ 1 ∨ b.stride ≠ 1)) = true
  · rw [if_pos h2] at h; cases h
  rw [if_neg h2] at h
  refine ⟨?_, not_not.1 h1, ?_⟩
  · rw [← Option.some.inj h]
    exact Nat.mod_eq_of_lt hs
  · rintro d rfl
    rw [Option.any_some, decide_eq_true_iff] at h2
    push Not at h2
    exact h2

/-! ### Examples -/

/-- exact arithmetic -/
def ring : Ops Int := ⟨0, fun a x y => a * x + y⟩

/-- Memory where the element at address `a >= 0` is `a` -/
def ramp (a : Int) : Option Int := if 0 ≤ a then some a else none

/-- Four lanes in a callable, two of them active, which access different objects -/
def lanes4 : Ctx := ⟨4, true, fun l => l % 2 == 0⟩
def ptrs (l : Nat) : Int := 100 * l

theorem ramp_stored (d : Descr) (l : Nat) : Stored ramp (ptrs l) d fun r c => 100 * l + (d.offset + r * d.stride + c : Nat) := by
  intro r c _ _
  unfold ramp ptrs
  rw [if_pos (by omega)]

/-- A 2 x 3 matrix `[[4, 5, 6], [7, 8, 9]]` (in lane 0) and the bias `[20, 21]` -/
example : ∃ r, matvec ring lanes4 ramp ptrs ⟨4, 2, 3, 4, 3, 6⟩ false (fun j _ => j + 1) (some (ptrs, ⟨4, 2, 1, 20, 1, 2⟩))
      (List.replicate 5 fun _ => -1) = some r ∧ r.length = 2 ∧ ∀ i, i < 2 → ∃ y, r[i]? = some y ∧ ∀ l, lanes4.Live l →
        y l = (∑ j ∈ Finset.range 3, (100 * l + ((4 + i * 3 + j : Nat) : Int)) * (j + 1)) + (100 * l + ((20 + i : Nat) : Int)) := by
  have hb : BiasOk ring lanes4 ramp 2 (some (ptrs, ⟨4, 2, 1, 20, 1, 2⟩)) fun r l => 100 * l + ((20 + r : Nat) : Int) := by
    refine ⟨fun h => (by cases h), rfl, rfl, rfl, by decide, fun l _ r c hr hc => ?_⟩
    have := ramp_stored ⟨4, 2, 1, 20, 1, 2⟩ l r c hr hc
    have hc : c = 0 := by simp only at hc; omega
    subst hc
    simp only [Nat.mul_one, Nat.add_zero] at this ⊢
    exact this
  have h := C74_sum_partial lanes4 (by decide) ramp ptrs ⟨4, 2, 3, 4, 3, 6⟩ false (fun j _ => j + 1) (some (ptrs, ⟨4, 2, 1, 20, 1, 2⟩))
    (List.replicate 5 fun _ => -1) (fun r c l => 100 * l + ((4 + r * 3 + c : Nat) : Int)) (fun r l => 100 * l + ((20 + r : Nat) : Int)) 3 2 rfl rfl
    (by decide) (fun h => by cases h) rfl (by decide) (fun l _ => ramp_stored _ l) hb
  exact h

example : (matvec ring lanes4 ramp ptrs ⟨4, 2, 3, 4, 3, 6⟩ false (fun j _ => j + 1) (some (ptrs, ⟨4, 2, 1, 20, 1, 2⟩))
    (List.replicate 5 fun _ => -1)).map (fun r => r.map fun y => (List.range 4).map y) = some [[52, 0, 1452, 0], [71, 0, 1471, 0]] := by
  decide +kernel
/-- the transpose -/
example : (matvec ring ⟨2, false, fun _ => true⟩ ramp (fun _ => 0) ⟨4, 2, 3, 4, 3, 6⟩ true (fun j _ => j + 1) none
    (List.replicate 5 fun _ => -1)).map (fun r => r.map fun y => (List.range 2).map y) = some [[18, 18], [21, 21], [24, 24]] := by
  decide +kernel

/-- **C74 fails** for matrices with padding between the rows: the generated code ignores the stride of the descriptor.  Here
`A = [[0], [2]]`, but the product with `[1]` is `[0, 1]`. -/
theorem C74_stride_counterexample :
    let d : Descr := ⟨4, 2, 1, 0, 2, 3⟩
    Stored ramp 0 d (fun r _ => 2 * (r : Int))
      ∧ (matvec ring ⟨1, false, fun _ => true⟩ ramp (fun _ => 0) d false (fun _ _ => 1) none (List.replicate 3 fun _ => 0)).map
          (fun r => r.map fun y => y 0) = some [0, 1]
      ∧ (List.range 2).map (fun i => dotFma ring (fun r _ => 2 * (r : Int)) (fun _ => 1) (fun _ => 0) 1 i) = [0, 2] := by
  refine ⟨?_, by decide +kernel, by decide +kernel⟩
  · intro r c hr hc
    have hc : c = 0 := by simp only at hc; omega
    subst hc
    unfold ramp
    simp only [Nat.add_zero, Nat.zero_add, Int.zero_add]
    rw [if_pos (by omega)]
    push_cast
    congr 1; omega

/-- **C74 fails** for offsets of 2^31 or more (buffers can have up to 2^32 - 1 elements): the offset is emitted as a signed constant, and
the code accesses memory before the start of the buffer. -/
theorem C74_offset_counterexample :
    let d : Descr := ⟨4, 1, 1, 2 ^ 31, 1, 1⟩
    Stored ramp 0 d (fun _ _ => 2 ^ 31)
      ∧ matvec ring ⟨1, false, fun _ => true⟩ ramp (fun _ => 0) d false (fun _ _ => 1) none (List.replicate 2 fun _ => 0) = none := by
  refine ⟨?_, ?_⟩
  · intro r c hr hc
    have hr : r = 0 := by simp only at hr; omega
    have hc : c = 0 := by simp only at hc; omega
    subst hr hc
    decide +kernel
  · have h : ∀ o : Option (List (Lanes Int)), o.isNone = true → o = none := fun o h => by cases o <;> simp_all
    apply h
    decide +kernel

/-- **C74 fails** for products with more than 65535 components: their number is stored in 16 bits. -/
theorem C74_length_counterexample : matvecLength ⟨4, 65536, 1, 0, 1, 65536⟩ false 1 none = some 0 := by decide

end Verif.CoopVec
