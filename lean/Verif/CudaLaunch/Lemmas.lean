import Verif.CudaLaunch.Model
import Mathlib.Data.List.Perm.Basic
import Mathlib.Data.List.Nodup
import Mathlib.Data.Nat.ModEq

namespace Verif.CudaLaunch
open Verif.CudaPerm (Config launchConfig u32)
open Verif.Llvm.Mem (Byte Entry aggStep putBytes)

theorem ceil_ge {a b : Nat} (hb : 0 < b) : a ≤ (a + b - 1) / b * b := by
  have h1 := Nat.div_add_mod (a + b - 1) b
  have h2 := Nat.mod_lt (a + b - 1) hb
  have h3 : b * ((a + b - 1) / b) = (a + b - 1) / b * b := Nat.mul_comm _ _
  omega

theorem ceil_lt {a b : Nat} (hb : 0 < b) : (a + b - 1) / b * b < a + b := by
  have h1 := Nat.div_add_mod (a + b - 1) b
  have h3 : b * ((a + b - 1) / b) = (a + b - 1) / b * b := Nat.mul_comm _ _
  omega

/-- Everything about a launch without a limit of the number of thread blocks -/
theorem config_spec {sm size mt : Nat} (hsm : 0 < sm) (hsm2 : sm < 2 ^ 16) (hs : 0 < size) (hs2 : size ≤ 2 ^ 32 - 32)
    (hm : 0 < mt) (hm2 : mt ≤ 1024) :
    0 < (launchConfig sm size mt 0).blocks ∧ (launchConfig sm size mt 0).blocks < 2 ^ 31 ∧
    0 < (launchConfig sm size mt 0).threads ∧ (launchConfig sm size mt 0).threads ≤ (mt + 31) / 32 * 32 ∧
    size ≤ (launchConfig sm size mt 0).blocks * (launchConfig sm size mt 0).threads ∧
    ((launchConfig sm size mt 0).blocks * (launchConfig sm size mt 0).threads ≤ size + 31 + 992 ∨
      (launchConfig sm size mt 0).blocks * (launchConfig sm size mt 0).threads ≤ 2 ^ 26) := by
  have hw : u32 (size + 31) / 32 = (size + 31) / 32 := by
    unfold u32; rw [Nat.mod_eq_of_lt (by omega)]
  unfold launchConfig
  rw [hw]
  obtain ⟨w, hwd⟩ : ∃ w, w = (size + 31) / 32 := ⟨_, rfl⟩
  obtain ⟨M, hMd⟩ : ∃ M, M = (mt + 31) / 32 := ⟨_, rfl⟩
  rw [← hwd, ← hMd]
  have hw1 : size ≤ w * 32 := by omega
  have hw2 : w * 32 ≤ size + 31 := by omega
  have hw0 : 0 < w := by omega
  have hM0 : 0 < M := by omega
  have hM1 : M ≤ 32 := by omega
  simp only
  by_cases h1 : w ≤ sm
  · rw [if_pos h1]
    refine ⟨hw0, ?_, ?_, ?_, hw1, Or.inl (le_trans hw2 (by omega))⟩ <;> simp only <;> omega
  rw [if_neg h1]
  by_cases h2 : (w + sm - 1) / sm ≤ M
  · rw [if_pos h2]
    have ha := ceil_ge (a := w) hsm
    have hb := ceil_lt (a := w) hsm
    obtain ⟨q, hq⟩ : ∃ q, q = (w + sm - 1) / sm := ⟨_, rfl⟩
    rw [← hq] at h2 ha hb ⊢
    have hq0 : 0 < q := Nat.pos_of_ne_zero fun h => by rw [h] at ha; omega
    have hprod : sm * q ≤ 2 ^ 16 * 32 := Nat.mul_le_mul (by omega) (by omega)
    have e : sm * (q * 32) = sm * q * 32 := by ring
    have e2 : q * sm = sm * q := Nat.mul_comm _ _
    refine ⟨hsm, by simp only; omega, by simp only; omega, by simp only; omega, ?_, Or.inr ?_⟩
    · simp only; omega
    · simp only; omega
  · rw [if_neg h2]
    -- many thread blocks
    generalize hb' : (if (w + M - 1) / M < sm * 4 then ((w + M - 1) / M + sm - 1) / sm * sm else (w + M - 1) / M) = b
    rw [if_neg (by omega)]
    have hbge : (w + M - 1) / M ≤ b := by
      rw [← hb']
      by_cases h3 : (w + M - 1) / M < sm * 4
      · rw [if_pos h3]; exact ceil_ge hsm
      · rw [if_neg h3]
    have hg := ceil_ge (a := w) hM0
    have hb0 : 0 < b := by
      refine lt_of_lt_of_le (Nat.pos_of_ne_zero fun h => ?_) hbge
      rw [h] at hg; omega
    have hwb : w ≤ b * M := le_trans hg (Nat.mul_le_mul_right _ hbge)
    obtain ⟨q, hq⟩ : ∃ q, q = (w + b - 1) / b := ⟨_, rfl⟩
    have ha := ceil_ge (a := w) hb0
    rw [← hq] at ha ⊢
    have hq0 : 0 < q := Nat.pos_of_ne_zero fun h => by rw [h] at ha; omega
    have hqM : q ≤ M := by
      rw [hq]
      apply Nat.le_of_lt_succ
      rw [Nat.div_lt_iff_lt_mul hb0, Nat.succ_mul, Nat.mul_comm M b]
      omega
    have h5 := ceil_ge (a := w) hq0
    have h6 := ceil_lt (a := w) hq0
    obtain ⟨r, hr⟩ : ∃ r, r = (w + q - 1) / q := ⟨_, rfl⟩
    rw [← hr] at h5 h6 ⊢
    have hr0 : 0 < r := Nat.pos_of_ne_zero fun h => by rw [h] at h5; omega
    have e : r * (q * 32) = r * q * 32 := by ring
    have hrle : r ≤ r * q := Nat.le_mul_of_pos_right _ hq0
    refine ⟨hr0, ?_, ?_, ?_, ?_, Or.inl ?_⟩ <;> simp only <;> omega

/-- Without overflow, the index is what it should be. -/
theorem threadIndex_eq {c : Config} {b t : Nat} (h : c.blocks * c.threads < 2 ^ 32) (hb : b < c.blocks) (ht : t < c.threads) :
    threadIndex c b t = b * c.threads + t := by
  have h1 : (b + 1) * c.threads ≤ c.blocks * c.threads := Nat.mul_le_mul_right _ hb
  rw [Nat.add_mul, Nat.one_mul] at h1
  unfold threadIndex u32
  rw [Nat.mod_eq_of_lt (a := b * c.threads) (by omega), Nat.mod_eq_of_lt (by omega)]

theorem range_mul (a b : Nat) : ((List.range a).flatMap fun x => (List.range b).map fun t => x * b + t) = List.range (a * b) := by
  induction a with
  | zero => simp
  | succ a ih =>
    rw [List.range_succ, List.flatMap_append, ih, Nat.succ_mul, List.range_add]
    simp

/-- The indices of all threads -/
theorem indices_eq {c : Config} (h : c.blocks * c.threads < 2 ^ 32) :
    ((threads c).map fun x => threadIndex c x.1 x.2) = List.range (c.blocks * c.threads) := by
  rw [← range_mul]
  unfold threads
  rw [List.map_flatMap]
  apply List.flatMap_congr
  intro b hb
  rw [List.map_map]
  apply List.map_congr_left
  intro t ht
  exact threadIndex_eq h (List.mem_range.1 hb) (List.mem_range.1 ht)

theorem filter_range {n k : Nat} (h : k ≤ n) : (List.range n).filter (fun i => decide (i < k)) = List.range k := by
  obtain ⟨d, rfl⟩ := Nat.exists_eq_add_of_le h
  rw [List.range_add, List.filter_append]
  have h1 : (List.range k).filter (fun i => decide (i < k)) = List.range k :=
    List.filter_eq_self.2 fun i hi => by simpa using hi
  have h2 : (List.map (fun x => k + x) (List.range d)).filter (fun i => decide (i < k)) = [] :=
    List.filter_eq_nil_iff.2 fun i hi => by
      obtain ⟨j, _, rfl⟩ := List.mem_map.1 hi
      simp
  rw [h1, h2, List.append_nil]

/-- The loop of `fill_64` ends if there are enough threads. -/
theorem visits_exists {step size : Nat} (h1 : size ≤ step) (h2 : step < 2 ^ 32) (i : Nat) (hi : i < 2 ^ 32) :
    ∃ l, Visits step size i l := by
  induction i using Nat.strong_induction_on with
  | _ i ih =>
    by_cases hlt : i < size
    · by_cases hw : i + step < 2 ^ 32
      · refine ⟨[i], .next hlt (.stop ?_)⟩
        unfold u32
        rw [Nat.mod_eq_of_lt hw]
        omega
      · have e : u32 (i + step) = i + step - 2 ^ 32 := by
          unfold u32
          rw [Nat.mod_eq_sub_mod (by omega), Nat.mod_eq_of_lt (by omega)]
        obtain ⟨l, hl⟩ := ih (i + step - 2 ^ 32) (by omega) (by omega)
        exact ⟨i :: l, .next hlt (by rw [e]; exact hl)⟩
    · exact ⟨[], .stop hlt⟩

theorem visits_lt {step size i : Nat} {l : List Nat} (h : Visits step size i l) : ∀ j ∈ l, j < size := by
  induction h with
  | stop _ => simp
  | next hi _ ih =>
    intro j hj
    rcases List.mem_cons.1 hj with rfl | hj
    · exact hi
    · exact ih j hj

theorem visits_mem {step size i : Nat} {l : List Nat} (h : Visits step size i l) (hi : i < size) : i ∈ l := by
  cases h with
  | stop h => exact absurd hi h
  | next _ _ => simp

/-- With step zero, the loop does not end. -/
theorem visits_zero {size i : Nat} (hi : i < size) (hi2 : i < 2 ^ 32) {l : List Nat} : ¬ Visits 0 size i l := by
  intro h
  generalize hs : 0 = step at h
  induction h with
  | stop h => exact h hi
  | next _ _ ih =>
    subst hs
    have e : ∀ j : Nat, j < 2 ^ 32 → u32 (j + 0) = j := fun j hj => by unfold u32; rw [Nat.add_zero, Nat.mod_eq_of_lt hj]
    rw [e _ hi2] at ih
    exact ih hi hi2

/-! ### Stores -/

theorem apply_cons (w : Nat × Byte) (ws : List (Nat × Byte)) (m : Nat → Byte) : apply (w :: ws) m = apply ws (Function.update m w.1 w.2) := rfl

theorem apply_notin {ws : List (Nat × Byte)} {m : Nat → Byte} {a : Nat} (h : ∀ w ∈ ws, w.1 ≠ a) : apply ws m a = m a := by
  induction ws generalizing m with
  | nil => rfl
  | cons w ws ih =>
    rw [apply_cons, ih (fun x hx => h x (List.mem_cons_of_mem _ hx))]
    exact Function.update_of_ne (Ne.symm (h w List.mem_cons_self)) _ _

/-- If all stores to an address have the same value, and there is one, the order does not matter. -/
theorem apply_in {ws : List (Nat × Byte)} {m : Nat → Byte} {a : Nat} {v : Byte} (h : ∀ w ∈ ws, w.1 = a → w.2 = v)
    (he : ∃ w ∈ ws, w.1 = a) : apply ws m a = v := by
  induction ws generalizing m with
  | nil => obtain ⟨w, hw, _⟩ := he; simp at hw
  | cons w ws ih =>
    rw [apply_cons]
    by_cases h2 : ∃ x ∈ ws, x.1 = a
    · exact ih (fun x hx => h x (List.mem_cons_of_mem _ hx)) h2
    · obtain ⟨x, hx, hxa⟩ := he
      rcases List.mem_cons.1 hx with rfl | hx
      · rw [apply_notin (fun y hy e => h2 ⟨y, hy, e⟩), ← hxa, Function.update_self]
        exact h x List.mem_cons_self hxa
      · exact absurd ⟨x, hx, hxa⟩ h2

/-- A list of stores that consists of all elements of an array -/
theorem apply_elements {ws : List (Nat × Byte)} {p n isize : Nat} {src : Nat → Byte} (hi : 0 < isize)
    (h : ∀ w, w ∈ ws ↔ ∃ i, i < n ∧ w ∈ storeBytes p isize i src) (m : Nat → Byte) :
    (∀ k, k < n * isize → apply ws m (p + k) = src (k % isize)) ∧ ∀ l, ¬ (p ≤ l ∧ l < p + n * isize) → apply ws m l = m l := by
  have hmem : ∀ w, w ∈ ws ↔ ∃ i k, i < n ∧ k < isize ∧ w = (p + i * isize + k, src k) := by
    intro w
    rw [h w]
    constructor
    · rintro ⟨i, hin, hw⟩
      obtain ⟨k, hk, rfl⟩ := List.mem_map.1 hw
      exact ⟨i, k, hin, List.mem_range.1 hk, rfl⟩
    · rintro ⟨i, k, hin, hk, rfl⟩
      exact ⟨i, hin, List.mem_map.2 ⟨k, List.mem_range.2 hk, rfl⟩⟩
  have hlt : ∀ i k, i < n → k < isize → i * isize + k < n * isize := by
    intro i k h1 h2
    have h3 : (i + 1) * isize ≤ n * isize := Nat.mul_le_mul_right _ h1
    rw [Nat.add_mul, Nat.one_mul] at h3
    omega
  constructor
  · intro k hk
    apply apply_in
    · rintro w hw hwa
      obtain ⟨i, k', h1, h2, rfl⟩ := (hmem w).1 hw
      have hk' : k = i * isize + k' := by simp only at hwa; omega
      rw [hk', Nat.mul_comm, Nat.mul_add_mod, Nat.mod_eq_of_lt h2]
    · refine ⟨(p + k / isize * isize + k % isize, src (k % isize)), (hmem _).2 ⟨k / isize, k % isize, ?_, Nat.mod_lt _ hi, rfl⟩, ?_⟩
      · exact (Nat.div_lt_iff_lt_mul hi).2 hk
      · have := Nat.div_add_mod k isize
        rw [Nat.mul_comm] at this
        simp only; omega
  · intro l hl
    apply apply_notin
    intro w hw e
    obtain ⟨i, k, h1, h2, rfl⟩ := (hmem w).1 hw
    have := hlt i k h1 h2
    simp only at e
    omega

end Verif.CudaLaunch
