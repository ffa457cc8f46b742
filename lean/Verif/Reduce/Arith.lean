import Verif.Reduce.Spec
import Verif.Reduce.Model
import Verif.Ops.Steps2
/-!
# Reductions of copies of a number
-/
namespace Verif.Reduce
open Verif.Var Verif.Ops
open Verif.Llvm (ROp IsReduction slice scanList num)

variable {w n : Nat} {sg : Bool} {op : ROp} {v y : BitVec w} {s : Store} {t : VType}

/-- The reduction of `n` copies of `v`. -/
def rep (op : ROp) (n : Nat) (v : BitVec w) : BitVec w :=
  match op with
  | .add => BitVec.ofNat w (n * v.toNat)
  | .mul => BitVec.ofNat w (v.toNat ^ n)
  | _ => v

theorem mem_rep {x : BitVec w} (hn : 0 < n) : x ∈ List.replicate n v ↔ x = v := by
  rw [List.mem_replicate]; constructor
  · exact fun h => h.2
  · exact fun h => ⟨by omega, h⟩

theorem rep_ne (hn : 0 < n) : List.replicate n v ≠ [] := by
  intro e
  have := congrArg List.length e
  simp at this
  omega

theorem eq_of_bits (h : ∀ i, i < w → (y.getLsbD i = true ↔ v.getLsbD i = true)) : y = v := by
  apply BitVec.eq_of_getLsbD_eq
  intro i hi
  have := h i hi
  cases h1 : y.getLsbD i <;> cases h2 : v.getLsbD i <;> simp_all

theorem rep_iff (hn : 0 < n ∨ op = .add ∨ op = .mul) :
    IsReduction sg op (List.replicate n v) y ↔ y = rep op n v := by
  cases op
  case add =>
    simp only [IsReduction, rep, List.map_replicate, List.sum_replicate_nat]
    constructor
    · intro h; apply BitVec.eq_of_toNat_eq; rw [h, BitVec.toNat_ofNat]
    · rintro rfl; rw [BitVec.toNat_ofNat]
  case mul =>
    simp only [IsReduction, rep, List.map_replicate, List.prod_replicate]
    constructor
    · intro h; apply BitVec.eq_of_toNat_eq; rw [h, BitVec.toNat_ofNat]
    · rintro rfl; rw [BitVec.toNat_ofNat]
  all_goals
    replace hn : 0 < n := by simpa using hn
  case min =>
    simp only [IsReduction, rep, mem_rep hn, if_neg (rep_ne hn)]
    exact ⟨fun h => h.2, fun h => ⟨fun x hx => by rw [hx, h], h⟩⟩
  case max =>
    simp only [IsReduction, rep, mem_rep hn, if_neg (rep_ne hn)]
    exact ⟨fun h => h.2, fun h => ⟨fun x hx => by rw [hx, h], h⟩⟩
  case or =>
    simp only [IsReduction, rep, mem_rep hn, exists_eq_left]
    exact ⟨eq_of_bits, fun h => by rw [h]; simp⟩
  case and =>
    simp only [IsReduction, rep, mem_rep hn, forall_eq]
    exact ⟨eq_of_bits, fun h => by rw [h]; simp⟩

theorem slice_rep {f : Nat → BitVec w} {lo hi N : Nat} (h : hi ≤ N) (hf : ∀ j < N, f j = v) :
    slice f lo hi = List.replicate (hi - lo) v := by
  unfold slice
  rw [List.eq_replicate_iff]
  refine ⟨by simp, fun b hb => ?_⟩
  simp only [List.mem_map, List.mem_range] at hb
  obtain ⟨k, hk, rfl⟩ := hb
  exact hf _ (by omega)

/-! ## Compile-time arithmetic -/

theorem wlp_scalarResult {f : FoldRes} {P : BitVec 64 → Store → Prop} (h : ∀ x, f = .val x → P x s) :
    wlp (scalarResult f) s P := by
  cases f
  · exact wlp_pure (h _ rfl)
  · exact wlp_stop
  · exact wlp_abort
  · exact wlp_stop

theorem cInt_num (x : BitVec 64) : cInt t x = num t.isSint (x.setWidth t.bits) := rfl

theorem ofInt_num : BitVec.ofInt w (num sg v) = v := by
  unfold num
  split
  · exact BitVec.ofInt_toInt
  · apply BitVec.eq_of_toNat_eq; simp

theorem ofInt_pow (a : Int) (n : Nat) : BitVec.ofInt w (a ^ n) = BitVec.ofInt w a ^ n := by
  induction n with
  | zero => apply BitVec.eq_of_toNat_eq; simp
  | succ n ih => rw [pow_succ, BitVec.ofInt_mul, ih, BitVec.pow_succ]

theorem ofNat_pow (v : BitVec w) (n : Nat) : BitVec.ofNat w (v.toNat ^ n) = v ^ n := by
  apply BitVec.eq_of_toNat_eq
  rw [BitVec.toNat_ofNat]
  induction n with
  | zero => simp
  | succ n ih => rw [pow_succ, BitVec.pow_succ, BitVec.toNat_mul, ← ih]; simp [Nat.mul_mod]

theorem cInt_ofNat {n : Nat} (ht : t.isInt = true) (h : n < 2 ^ (if t.isSint then t.bits - 1 else t.bits)) :
    cInt t (BitVec.ofNat 64 n) = n := by
  revert h ht
  cases t <;> intro ht h
  all_goals first
    | (exfalso; revert ht; decide)
    | (simp only [VType.isSint, VType.bits] at h
       simp [cInt, VType.isSint, VType.bits, BitVec.toInt_eq_toNat_cond] at h ⊢
       omega)

theorem scalarAdd_post {x : BitVec 64} (ht : t.isInt = true) :
    wlp (scalarAdd t n x) s (fun y s' => s' = s ∧ norm t y = (rep .add n (x.setWidth t.bits)).setWidth 64) := by
  unfold scalarAdd
  rw [if_pos ht]
  refine wlp_scalarResult fun y hy => ⟨rfl, ?_⟩
  have := fold_mul ht hy (z := (x.setWidth t.bits * (BitVec.ofNat 64 n).setWidth t.bits).setWidth 64)
    (by simp [sem2, ht])
  rw [this]
  congr 1
  unfold rep
  dsimp only
  apply BitVec.eq_of_toNat_eq
  have hb : t.bits ≤ 64 := by cases t <;> decide
  have hd : 2 ^ t.bits ∣ 2 ^ 64 := Nat.pow_dvd_pow 2 hb
  have e : ((BitVec.ofNat 64 n).setWidth t.bits).toNat = n % 2 ^ t.bits := by
    rw [BitVec.toNat_setWidth, BitVec.toNat_ofNat, Nat.mod_mod_of_dvd _ hd]
  rw [BitVec.toNat_mul, e, BitVec.toNat_ofNat, Nat.mul_mod_mod, Nat.mul_comm]

theorem scalarMul_post {pow : Pow} (hp : PowOK pow) {x : BitVec 64} (ht : t.isInt = true)
    (hf : ProductFits t x n) :
    wlp (scalarMul pow t n x) s (fun y s' => s' = s ∧ norm t y = (rep .mul n (x.setWidth t.bits)).setWidth 64) := by
  unfold scalarMul
  rw [if_pos ht, cInt_ofNat ht hf.2, cInt_num, hp _ _ hf.1]
  refine wlp_scalarResult fun y hy => ⟨rfl, ?_⟩
  have e : y = BitVec.ofInt 64 (num t.isSint (x.setWidth t.bits) ^ n) := by
    unfold fromDouble at hy
    dsimp only at hy
    split at hy
    · split at hy
      · cases hy; rfl
      · cases hy
    · split at hy
      · cases hy; rfl
      · cases hy
  rw [e, norm_ofInt]
  congr 1
  rw [ofInt_pow, ofInt_num]
  exact (ofNat_pow _ _).symm

theorem scalarReduce_post {pow : Pow} (hp : PowOK pow) {x : BitVec 64} (ht : t.isInt = true)
    (hf : op = .mul → ProductFits t x n) :
    wlp (scalarReduce pow op t n x) s (fun y s' => s' = s ∧ norm t y = (rep op n (x.setWidth t.bits)).setWidth 64) := by
  cases op
  · exact scalarAdd_post ht
  · exact scalarMul_post hp ht (hf rfl)
  all_goals exact wlp_pure ⟨rfl, rfl⟩

end Verif.Reduce
