import Verif.CudaGemm.Lemmas
import Verif.CudaGemm.Spec
import Verif.Gemm.Fold

/-!
# Thread blocks
-/
namespace Verif.CudaGemm
open Verif.Gemm (Elem Dim Problem points offset)
open Verif.Llvm (add32 mul32 add32_eq mul32_eq)

variable {V : Type}

/-- The kernels that exist -/
structure Tile.OK (t : Tile) : Prop where
  w : 0 < t.W
  tm : 0 < t.TM
  bm : t.BM = 8 * t.TM
  div : t.W ∣ t.TM
  d16 : t.W ∣ 16
  le : t.BM ≤ 64

theorem Tile.OK.w16 {t : Tile} (h : t.OK) : t.W ≤ 16 := Nat.le_of_dvd (by decide) h.d16

theorem Tile.OK.divBM {t : Tile} (h : t.OK) : t.W ∣ t.BM := by rw [h.bm]; exact Dvd.dvd.mul_left h.div _

theorem Tile.OK.ntn {t : Tile} (h : t.OK) : t.BM / t.TM = 8 := by rw [h.bm]; exact Nat.mul_div_cancel _ h.tm

theorem Tile.OK.shape {t : Tile} (h : t.OK) : 64 ∣ t.BM * (16 / t.W) ∧ 64 ∣ 16 * (t.BM / t.W) := by
  obtain ⟨a, ha⟩ := h.div
  obtain ⟨b, hb⟩ := h.d16
  have hw := h.w
  constructor
  · rw [h.bm, hb, Nat.mul_div_cancel_left _ hw, ha]
    refine ⟨2 * a, ?_⟩
    calc 8 * (t.W * a) * b = 8 * (t.W * b) * a := by ring
      _ = 64 * (2 * a) := by rw [← hb]; ring
  · rw [h.bm, ha, show 8 * (t.W * a) = t.W * (8 * a) by ring, Nat.mul_div_cancel_left _ hw]
    exact ⟨2 * a, by ring⟩

/-- Positions of both operands: entry `(r, c)` of the tile in shared memory -/
theorem mk_load {br bc stride w : Nat} {cr cc tr : Bool} {src r0 c0 R C : Nat}
    (h : (mkSlab br bc stride w cr cc tr src r0 c0 R C).Shape) (hf : (mkSlab br bc stride w cr cc tr src r0 c0 R C).Fits)
    (hs : bc ≤ stride) {zero : V} {x : Nat → V} {ws : List (Nat × V)}
    (hw : ws.Perm ((mkSlab br bc stride w cr cc tr src r0 c0 R C).stores zero x)) {m : Nat → V} {r c : Nat} (hr : r < br) (hc : c < bc) :
    apply ws m (r * stride + c) = if r0 + r < R ∧ c0 + c < C then
      x (src + if tr then (c0 + c) * R + (r0 + r) else (r0 + r) * C + (c0 + c)) else zero := by
  cases tr with
  | false =>
    have := Slab.load_spec h hf (by simpa [mkSlab] using hs) hw (m := m) (r := r) (c := c) hr hc
    simpa [mkSlab, Slab.cell, Slab.entry] using this
  | true =>
    have := Slab.load_spec h hf (by simpa [mkSlab] using hs) hw (m := m) (r := c) (c := r) hc hr
    simp only [mkSlab, Slab.cell, Slab.entry, if_true] at this
    rw [this]
    simp only [if_true]
    by_cases h1 : r0 + r < R ∧ c0 + c < C
    · rw [if_pos h1, if_pos ⟨h1.2, h1.1⟩]
    · rw [if_neg h1, if_neg (fun h => h1 ⟨h.2, h.1⟩)]

/-- Sizes for which 32-bit arithmetic does not wrap around -/
structure Launch.Limits (p : Launch) : Prop where
  k : p.K + 16 < 2 ^ 32
  m : p.M + 64 < 2 ^ 32
  n : p.N + 64 < 2 ^ 32
  amk : p.M * p.K ≤ 2 ^ 32
  bkn : p.K * p.N ≤ 2 ^ 32
  cmn : p.M * p.N ≤ 2 ^ 32

/-- Steps that occur -/
structure Launch.StepOK (p : Launch) (s : Step) : Prop where
  lt : s.k0 < p.K
  bulk : s.tail = false → s.k0 + 16 ≤ p.K
  dvd : 16 ∣ s.k0

section
variable {p : Launch} (ht : p.tile.OK) (hl : p.Limits) {m0 n0 : Nat} {st : Step} (hs : p.StepOK st)
include ht hl hs

theorem slabA_ok (hm : m0 < p.M) : (p.slabA m0 st).Shape ∧ (p.slabA m0 st).Fits := by
  have h1 := ht.shape
  have h2 := ht.divBM
  have h3 := ht.tm
  have h4 := ht.bm
  have h5 := hl.k
  have h6 := hl.m
  have h7 := hs.lt
  have h8 := ht.le
  have h9 := hl.amk
  unfold Launch.slabA mkSlab
  split
  · refine ⟨⟨ht.w, h2, h1.2, by dsimp only; omega⟩, ⟨fun h => hs.bulk h, fun h => (by simp at h), by dsimp only; omega, by dsimp only; omega, ?_⟩⟩
    dsimp only; rw [Nat.mul_comm]; exact h9
  · exact ⟨⟨ht.w, ht.d16, h1.1, by dsimp only; omega⟩, ⟨fun h => (by simp at h), fun h => hs.bulk h, by dsimp only; omega, by dsimp only; omega, h9⟩⟩

theorem slabB_ok (hn : n0 < p.N) : (p.slabB n0 st).Shape ∧ (p.slabB n0 st).Fits := by
  have h1 := ht.shape
  have h2 := ht.divBM
  have h3 := ht.tm
  have h4 := ht.bm
  have h5 := hl.k
  have h6 := hl.n
  have h7 := hs.lt
  have h8 := ht.le
  have h9 := hl.bkn
  unfold Launch.slabB mkSlab
  split
  · refine ⟨⟨ht.w, ht.d16, h1.1, by dsimp only; omega⟩, ⟨fun h => (by simp at h), fun h => hs.bulk h, by dsimp only; omega, by dsimp only; omega, ?_⟩⟩
    dsimp only; rw [Nat.mul_comm]; exact h9
  · exact ⟨⟨ht.w, h2, h1.2, by dsimp only; omega⟩, ⟨fun h => hs.bulk h, fun h => (by simp at h), by dsimp only; omega, by dsimp only; omega, h9⟩⟩

end

/-- Entry of the first operand, or zero outside the matrix -/
def Launch.aVal (p : Launch) (zero : V) (A : Nat → V) (a i k : Nat) : V :=
  if i < p.M ∧ k < p.K then A (a + if p.At then k * p.M + i else i * p.K + k) else zero
/-- Entry of the second operand, or zero outside the matrix -/
def Launch.bVal (p : Launch) (zero : V) (B : Nat → V) (b k j : Nat) : V :=
  if k < p.K ∧ j < p.N then B (b + if p.Bt then j * p.K + k else k * p.N + j) else zero

theorem Tile.OK.col_lt {t : Tile} (h : t.OK) {tx j : Nat} (hx : tx < 8) (hj : j < t.TM) : t.col tx j < t.BM := by
  unfold Tile.col
  rw [h.ntn]
  obtain ⟨a, ha⟩ := h.div
  have hw := h.w
  have h1 : j / t.W < a := by rw [Nat.div_lt_iff_lt_mul hw, Nat.mul_comm, ← ha]; exact hj
  have h2 : tx * t.W + j % t.W < 8 * t.W := mul_add_lt hx (Nat.mod_lt _ hw)
  have h3 := mul_add_lt h1 h2
  have h4 : a * (8 * t.W) = t.BM := by rw [h.bm, ha]; ring
  omega

theorem Tile.OK.sb {t : Tile} (_ : t.OK) : t.BM ≤ t.SB := by unfold Tile.SB; split <;> omega

/-- Accumulation of 16 products -/
def acc16 (e : Elem V) (f g : Nat → V) (x : V) : V :=
  (List.range 16).foldl (fun x kk => e.fma x (e.load (f kk)) (e.load (g kk))) x

theorem foldl_congr_range {α : Type} {n : Nat} {f g : α → Nat → α} (h : ∀ x k, k < n → f x k = g x k) (x : α) :
    (List.range n).foldl f x = (List.range n).foldl g x := by
  induction n generalizing x with
  | zero => rfl
  | succ n ih => rw [List.range_succ, List.foldl_append, List.foldl_append, ih (fun x k hk => h x k (by omega))]; simp [h]

/-- Every execution of a thread block leaves the same sums in registers, whatever the order of the stores
to shared memory and its initial contents. -/
theorem runs_spec {e : Elem V} {p : Launch} (ht : p.tile.OK) (hl : p.Limits) {A B : Nat → V} {m0 n0 : Nat} (hm : m0 < p.M) (hn : n0 < p.N) :
    ∀ (l : List Step) (s s' : State V), (∀ st ∈ l, p.StepOK st) → Runs e p A B m0 n0 l s s' →
    ∀ tid i j, tid < 64 → i < p.tile.TM → j < p.tile.TM →
      s'.acc tid i j = l.foldl (fun x st => acc16 e (fun kk => p.aVal e.zero A st.a (m0 + (p.tile.ty tid * p.tile.TM + i)) (st.k0 + kk))
        (fun kk => p.bVal e.zero B st.b (st.k0 + kk) (n0 + p.tile.col (p.tile.tx tid) j)) x) (s.acc tid i j)
  | [], s, s', _, h, tid, i, j, _, _, _ => by rw [show s' = s from h]; rfl
  | st :: l, s, s', hst, ⟨wa, wb, h1, h2, h3⟩, tid, i, j, htid, hi, hj => by
    have hs := hst st List.mem_cons_self
    rw [runs_spec ht hl hm hn l _ _ (fun st' h => hst st' (List.mem_cons_of_mem _ h)) h3 tid i j htid hi hj, List.foldl_cons]
    congr 1
    obtain ⟨a1, a2⟩ := slabA_ok ht hl hs hm
    obtain ⟨b1, b2⟩ := slabB_ok ht hl hs hn
    have hty : p.tile.ty tid < 8 := by unfold Tile.ty; rw [ht.ntn]; omega
    have htx : p.tile.tx tid < 8 := by unfold Tile.tx; rw [ht.ntn]; omega
    have hrow : p.tile.ty tid * p.tile.TM + i < p.tile.BM := by rw [ht.bm]; exact mul_add_lt hty hi
    have hcol := ht.col_lt htx hj
    unfold compute acc16
    refine foldl_congr_range ?_ _
    intro x kk hkk
    have eA := mk_load (m := s.sA) a1 a2 (by unfold Tile.SA; omega) h1 hrow hkk
    have eB := mk_load (m := s.sB) b1 b2 ht.sb h2 hkk hcol
    dsimp only
    rw [eA, eB]
    unfold Launch.aVal Launch.bVal
    rfl

end Verif.CudaGemm
