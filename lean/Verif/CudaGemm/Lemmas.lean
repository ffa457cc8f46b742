import Verif.CudaGemm.Model
import Mathlib.Tactic.Common
import Mathlib.Tactic.Ring
import Mathlib.Tactic.Linarith

/-!
# Copies to shared memory
-/
namespace Verif.CudaGemm
open Verif.Gemm (Elem Dim)
open Verif.Llvm (add32 mul32 add32_eq mul32_eq)

variable {V : Type}

theorem apply_not (ws : List (Nat × V)) (m : Nat → V) (a : Nat) (h : ∀ w ∈ ws, w.1 ≠ a) : apply ws m a = m a := by
  unfold apply
  induction ws generalizing m with
  | nil => rfl
  | cons w ws ih =>
    rw [List.foldl_cons, ih _ (fun x hx => h x (List.mem_cons_of_mem _ hx)),
      Function.update_of_ne (Ne.symm (h w List.mem_cons_self))]

theorem apply_mem (ws : List (Nat × V)) (m : Nat → V) (a : Nat) (x : V)
    (h1 : ∃ w ∈ ws, w.1 = a) (h2 : ∀ w ∈ ws, w.1 = a → w.2 = x) : apply ws m a = x := by
  induction ws generalizing m with
  | nil => simp at h1
  | cons w ws ih =>
    have e : apply (w :: ws) m = apply ws (Function.update m w.1 w.2) := rfl
    rw [e]
    by_cases hm : ∃ w ∈ ws, w.1 = a
    · exact ih _ hm (fun y hy => h2 y (List.mem_cons_of_mem _ hy))
    · push Not at hm
      obtain ⟨w', hw', ha⟩ := h1
      have hw : w' = w := by
        rcases List.mem_cons.1 hw' with h | h
        · exact h
        · exact absurd ha (hm _ h)
      subst hw
      rw [apply_not ws _ a hm, ← ha, Function.update_self]
      exact h2 _ List.mem_cons_self ha

theorem mul_add_inj {w k r k' r' : Nat} (hr : r < w) (hr' : r' < w) (h : k * w + r = k' * w + r') : k = k' ∧ r = r' := by
  have h1 : (k * w + r) / w = k := by rw [Nat.mul_comm, Nat.mul_add_div (by omega), Nat.div_eq_of_lt hr]; omega
  have h2 : (k' * w + r') / w = k' := by rw [Nat.mul_comm, Nat.mul_add_div (by omega), Nat.div_eq_of_lt hr']; omega
  rw [h] at h1
  have h3 : k = k' := by omega
  subst h3
  exact ⟨rfl, by omega⟩

theorem mul_add_lt {a b n m : Nat} (ha : a < n) (hb : b < m) : a * m + b < n * m := by
  have : (a + 1) * m ≤ n * m := Nat.mul_le_mul_right _ ha
  rw [Nat.add_mul] at this
  omega

/-! ### Slabs -/

/-- Shapes of slabs -/
structure Slab.Shape (s : Slab) : Prop where
  w : 0 < s.W
  div : s.W ∣ s.cols
  it : 64 ∣ s.rows * (s.cols / s.W)
  cols : 0 < s.cols

/-- Sizes for which nothing wraps around -/
structure Slab.Fits (s : Slab) : Prop where
  rows : s.checkRow = false → s.r0 + s.rows ≤ s.R
  cols : s.checkCol = false → s.c0 + s.cols ≤ s.C
  nr : s.r0 + s.rows ≤ 2 ^ 32
  nc : s.c0 + s.cols < 2 ^ 32
  size : s.R * s.C ≤ 2 ^ 32

namespace Slab
variable {s : Slab}

theorem Shape.bcv (h : s.Shape) : 0 < s.cols / s.W := Nat.div_pos (Nat.le_of_dvd h.cols h.div) h.w

theorem Shape.iters (h : s.Shape) : s.iterations * 64 = s.rows * (s.cols / s.W) := Nat.div_mul_cancel h.it

theorem rLoc_lt (h : s.Shape) {tid l : Nat} (ht : tid < 64) (hl : l < s.iterations) : s.rLoc tid l < s.rows := by
  unfold rLoc
  rw [Nat.div_lt_iff_lt_mul h.bcv, ← h.iters]
  have := mul_add_lt hl ht
  omega

theorem cLoc_le (h : s.Shape) {tid l : Nat} : s.cLoc tid l + s.W ≤ s.cols := by
  unfold cLoc
  have := Nat.mod_lt (tid + l * 64) h.bcv
  have h2 : ((tid + l * 64) % (s.cols / s.W) + 1) * s.W ≤ s.cols / s.W * s.W := Nat.mul_le_mul_right _ this
  rw [Nat.div_mul_cancel h.div, Nat.add_mul] at h2
  omega

/-- Every entry is copied by a thread. -/
theorem cover (h : s.Shape) {r c : Nat} (hr : r < s.rows) (hc : c < s.cols) :
    ∃ tid l v, tid < 64 ∧ l < s.iterations ∧ v < s.W ∧ s.rLoc tid l = r ∧ s.cLoc tid l + v = c := by
  have hc' : c / s.W < s.cols / s.W := by
    rw [Nat.div_lt_iff_lt_mul h.w, Nat.div_mul_cancel h.div]; exact hc
  have hb := h.bcv
  generalize hB : s.cols / s.W = B at *
  have hf : r * B + c / s.W < s.iterations * 64 := by
    rw [h.iters, hB]; exact mul_add_lt hr hc'
  refine ⟨(r * B + c / s.W) % 64, (r * B + c / s.W) / 64, c % s.W, Nat.mod_lt _ (by decide), ?_, Nat.mod_lt _ h.w, ?_, ?_⟩
  · rw [Nat.div_lt_iff_lt_mul (by decide)]; exact hf
  · unfold rLoc
    rw [hB, show (r * B + c / s.W) % 64 + (r * B + c / s.W) / 64 * 64 = r * B + c / s.W by omega]
    rw [Nat.mul_comm, Nat.mul_add_div hb, Nat.div_eq_of_lt hc', Nat.add_zero]
  · unfold cLoc
    rw [hB, show (r * B + c / s.W) % 64 + (r * B + c / s.W) / 64 * 64 = r * B + c / s.W by omega]
    rw [Nat.mul_comm r B, Nat.mul_add_mod, Nat.mod_eq_of_lt hc', Nat.mul_comm]
    exact Nat.div_add_mod _ _

/-- The entries that shared memory is supposed to contain -/
def entry (s : Slab) (zero : V) (x : Nat → V) (r c : Nat) : V :=
  if s.r0 + r < s.R ∧ s.c0 + c < s.C then x (s.src + ((s.r0 + r) * s.C + (s.c0 + c))) else zero

theorem rowOk_eq (h : s.Shape) (hf : s.Fits) {tid l : Nat} (ht : tid < 64) (hl : l < s.iterations) :
    s.rG tid l = s.r0 + s.rLoc tid l ∧ (s.rowOk tid l = true ↔ s.r0 + s.rLoc tid l < s.R) := by
  have h1 := rLoc_lt h ht hl
  have h2 := hf.nr
  have e : s.rG tid l = s.r0 + s.rLoc tid l := add32_eq (by omega)
  refine ⟨e, ?_⟩
  unfold rowOk
  rw [e]
  have h3 := hf.rows
  cases hh : s.checkRow with
  | false => have := h3 hh; simp; omega
  | true => simp

theorem cG_eq (h : s.Shape) (hf : s.Fits) {tid l : Nat} : s.cG tid l = s.c0 + s.cLoc tid l := by
  have := cLoc_le h (tid := tid) (l := l)
  have := hf.nc
  have := h.w
  exact add32_eq (by omega)

theorem ok_eq (h : s.Shape) (hf : s.Fits) {tid l : Nat} (ht : tid < 64) (hl : l < s.iterations) :
    s.ok tid l = true ↔ s.r0 + s.rLoc tid l < s.R ∧ s.c0 + s.cLoc tid l + s.W ≤ s.C := by
  have h1 := cLoc_le h (tid := tid) (l := l)
  have h2 := hf.nc
  have h3 := hf.cols
  unfold ok
  rw [cG_eq h hf, add32_eq (by omega), Bool.and_eq_true, (rowOk_eq h hf ht hl).2]
  cases hh : s.checkCol with
  | false => have := h3 hh; simp; omega
  | true => simp

theorem inside_eq (h : s.Shape) (hf : s.Fits) {tid l v : Nat} (ht : tid < 64) (hl : l < s.iterations) (hv : v < s.W) :
    s.inside tid l v = true ↔ s.r0 + s.rLoc tid l < s.R ∧ s.c0 + (s.cLoc tid l + v) < s.C := by
  have h1 := cLoc_le h (tid := tid) (l := l)
  have h2 := hf.nc
  have h3 := hf.cols
  unfold inside
  rw [cG_eq h hf, add32_eq (by omega), Bool.and_eq_true, (rowOk_eq h hf ht hl).2]
  cases hh : s.checkCol with
  | false => have := h3 hh; simp; omega
  | true => simp; omega

theorem vecAddr_eq (h : s.Shape) (hf : s.Fits) {tid l : Nat} (ht : tid < 64) (hl : l < s.iterations) (hok : s.ok tid l = true) :
    s.vecAddr tid l = s.src + ((s.r0 + s.rLoc tid l) * s.C + (s.c0 + s.cLoc tid l)) := by
  rw [ok_eq h hf ht hl] at hok
  have hw := h.w
  have := mul_add_lt hok.1 (show s.c0 + s.cLoc tid l < s.C by omega)
  have hs := hf.size
  unfold vecAddr
  rw [(rowOk_eq h hf ht hl).1, cG_eq h hf, mul32_eq (by omega), Nat.add_assoc]

theorem addr_eq (h : s.Shape) (hf : s.Fits) {tid l v : Nat} (ht : tid < 64) (hl : l < s.iterations) (hv : v < s.W)
    (hok : s.inside tid l v = true) :
    s.addr tid l v = s.src + ((s.r0 + s.rLoc tid l) * s.C + (s.c0 + (s.cLoc tid l + v))) := by
  rw [inside_eq h hf ht hl hv] at hok
  have := mul_add_lt hok.1 hok.2
  have hs := hf.size
  unfold addr
  rw [(rowOk_eq h hf ht hl).1, cG_eq h hf, mul32_eq (by omega),
    add32_eq (a := (s.r0 + s.rLoc tid l) * s.C) (b := s.c0 + s.cLoc tid l) (by omega), add32_eq (by omega)]
  omega

theorem value_eq (h : s.Shape) (hf : s.Fits) {zero : V} {x : Nat → V} {tid l v : Nat} (ht : tid < 64) (hl : l < s.iterations)
    (hv : v < s.W) : s.value zero x tid l v = s.entry zero x (s.rLoc tid l) (s.cLoc tid l + v) := by
  unfold value entry
  by_cases hok : s.ok tid l = true
  · rw [if_pos hok, vecAddr_eq h hf ht hl hok]
    rw [ok_eq h hf ht hl] at hok
    rw [if_pos ⟨hok.1, by omega⟩]
    congr 1; omega
  · rw [if_neg hok]
    by_cases hi : s.inside tid l v = true
    · rw [if_pos hi, addr_eq h hf ht hl hv hi]
      rw [inside_eq h hf ht hl hv] at hi
      rw [if_pos hi]
    · rw [if_neg hi]
      rw [inside_eq h hf ht hl hv] at hi
      rw [if_neg hi]

/-- Index in shared memory -/
def cell (s : Slab) (r c : Nat) : Nat := if s.transpose then c * s.stride + r else r * s.stride + c

theorem pos_eq {tid l v : Nat} : s.pos tid l v = s.cell (s.rLoc tid l) (s.cLoc tid l + v) := by
  unfold pos cell
  split <;> omega

theorem mem_stores {zero : V} {x : Nat → V} {w : Nat × V} :
    w ∈ s.stores zero x ↔ ∃ tid l v, tid < 64 ∧ l < s.iterations ∧ v < s.W ∧ w = (s.pos tid l v, s.value zero x tid l v) := by
  unfold stores
  simp only [List.mem_flatMap, List.mem_map, List.mem_range]
  constructor
  · rintro ⟨tid, h1, l, h2, v, h3, rfl⟩; exact ⟨tid, l, v, h1, h2, h3, rfl⟩
  · rintro ⟨tid, l, v, h1, h2, h3, rfl⟩; exact ⟨tid, h1, l, h2, v, h3, rfl⟩

theorem cell_inj (hs : (if s.transpose then s.rows else s.cols) ≤ s.stride) {r c r' c' : Nat} (hr : r < s.rows) (hc : c < s.cols)
    (hr' : r' < s.rows) (hc' : c' < s.cols) (h : s.cell r c = s.cell r' c') : r = r' ∧ c = c' := by
  unfold cell at h
  split at h
  · rename_i ht
    rw [if_pos ht] at hs
    have := mul_add_inj (by omega) (by omega) h
    exact ⟨this.2, this.1⟩
  · rename_i ht
    rw [if_neg ht] at hs
    exact mul_add_inj (by omega) (by omega) h

/-- After the copies, in whichever order they are executed, shared memory contains the slab. -/
theorem load_spec (h : s.Shape) (hf : s.Fits) (hs : (if s.transpose then s.rows else s.cols) ≤ s.stride) {zero : V} {x : Nat → V}
    {ws : List (Nat × V)} (hw : ws.Perm (s.stores zero x)) {m : Nat → V} {r c : Nat} (hr : r < s.rows) (hc : c < s.cols) :
    apply ws m (s.cell r c) = s.entry zero x r c := by
  apply apply_mem
  · obtain ⟨tid, l, v, h1, h2, h3, h4, h5⟩ := cover h hr hc
    refine ⟨(s.pos tid l v, s.value zero x tid l v), hw.mem_iff.2 (mem_stores.2 ⟨tid, l, v, h1, h2, h3, rfl⟩), ?_⟩
    rw [pos_eq, h4, h5]
  · intro w hw' ha
    obtain ⟨tid, l, v, h1, h2, h3, rfl⟩ := mem_stores.1 (hw.mem_iff.1 hw')
    dsimp only at ha ⊢
    rw [pos_eq] at ha
    have := cLoc_le h (tid := tid) (l := l)
    obtain ⟨rfl, rfl⟩ := cell_inj hs (rLoc_lt h h1 h2) (by omega) hr hc ha
    exact value_eq h hf h1 h2 h3

/-- No two stores go to the same place: a thread, an iteration and a lane are determined by the index. -/
theorem pos_inj (h : s.Shape) (hs : (if s.transpose then s.rows else s.cols) ≤ s.stride) {tid l v tid' l' v' : Nat}
    (ht : tid < 64) (hl : l < s.iterations) (hv : v < s.W) (ht' : tid' < 64) (hl' : l' < s.iterations) (hv' : v' < s.W)
    (he : s.pos tid l v = s.pos tid' l' v') : tid = tid' ∧ l = l' ∧ v = v' := by
  rw [pos_eq, pos_eq] at he
  have c1 := cLoc_le h (tid := tid) (l := l)
  have c2 := cLoc_le h (tid := tid') (l := l')
  obtain ⟨e1, e2⟩ := cell_inj hs (rLoc_lt h ht hl) (by omega) (rLoc_lt h ht' hl') (by omega) he
  unfold rLoc at e1
  unfold cLoc at e2
  obtain ⟨e3, e4⟩ := mul_add_inj hv hv' e2
  have d1 := Nat.div_add_mod (tid + l * 64) (s.cols / s.W)
  have d2 := Nat.div_add_mod (tid' + l' * 64) (s.cols / s.W)
  rw [e1, e3] at d1
  have : tid + l * 64 = tid' + l' * 64 := by omega
  refine ⟨by omega, by omega, e4⟩

theorem mem_reads {q : Nat × Nat} : q ∈ s.reads ↔ ∃ tid l, tid < 64 ∧ l < s.iterations ∧
    ((s.ok tid l = true ∧ q = (s.vecAddr tid l, s.W)) ∨
      (s.ok tid l = false ∧ ∃ v, v < s.W ∧ s.inside tid l v = true ∧ q = (s.addr tid l v, 1))) := by
  unfold reads
  simp only [List.mem_flatMap, List.mem_range]
  constructor
  · rintro ⟨tid, h1, l, h2, h3⟩
    refine ⟨tid, l, h1, h2, ?_⟩
    split at h3
    · rename_i h; exact .inl ⟨h, by simpa using h3⟩
    · rename_i h
      simp only [List.mem_map, List.mem_filter, List.mem_range] at h3
      obtain ⟨v, ⟨h4, h5⟩, rfl⟩ := h3
      exact .inr ⟨by simpa using h, v, h4, h5, rfl⟩
  · rintro ⟨tid, l, h1, h2, h3⟩
    refine ⟨tid, h1, l, h2, ?_⟩
    rcases h3 with ⟨h, rfl⟩ | ⟨h, v, h4, h5, rfl⟩
    · rw [if_pos h]; simp
    · rw [if_neg (by simp [h])]
      simp only [List.mem_map, List.mem_filter, List.mem_range]
      exact ⟨v, ⟨h4, h5⟩, rfl⟩

/-- All elements that are read are entries of the operand; vector accesses are aligned if the operand is. -/
theorem reads_spec (h : s.Shape) (hf : s.Fits) {q : Nat × Nat} (hq : q ∈ s.reads) :
    (∀ x, q.1 ≤ x → x < q.1 + q.2 → ∃ r c, s.r0 + r < s.R ∧ s.c0 + c < s.C ∧ r < s.rows ∧ c < s.cols ∧
      x = s.src + ((s.r0 + r) * s.C + (s.c0 + c))) ∧
    (s.W ∣ s.src → s.W ∣ s.C → s.W ∣ s.c0 → q.2 ≠ 1 → s.W ∣ q.1) := by
  obtain ⟨tid, l, h1, h2, h3⟩ := mem_reads.1 hq
  have hc := cLoc_le h (tid := tid) (l := l)
  have hr := rLoc_lt h h1 h2
  rcases h3 with ⟨h3, rfl⟩ | ⟨h3, v, h4, h5, rfl⟩
  · rw [vecAddr_eq h hf h1 h2 h3]
    rw [ok_eq h hf h1 h2] at h3
    refine ⟨?_, ?_⟩
    · intro x hx1 hx2
      dsimp only at hx1 hx2
      refine ⟨s.rLoc tid l, x - (s.src + ((s.r0 + s.rLoc tid l) * s.C + s.c0)), h3.1, by omega, hr, by omega, by omega⟩
    · intro d1 d2 d3 _
      exact Nat.dvd_add d1 (Nat.dvd_add (Dvd.dvd.mul_left d2 _) (Nat.dvd_add d3 (Dvd.intro_left _ rfl)))
  · rw [addr_eq h hf h1 h2 h4 h5]
    rw [inside_eq h hf h1 h2 h4] at h5
    refine ⟨?_, fun _ _ _ hn => absurd rfl hn⟩
    intro x hx1 hx2
    dsimp only at hx1 hx2
    exact ⟨s.rLoc tid l, s.cLoc tid l + v, h5.1, h5.2, hr, by omega, by omega⟩

end Slab
end Verif.CudaGemm
