import Verif.Lanes.Spec
import Mathlib.Tactic.Common
import Mathlib.Tactic.SplitIfs
import Mathlib.Data.List.Flatten

/-! # Lanes of a launch, and masks that are false beyond the end -/
namespace Verif.Lanes
open Verif.Llvm
open Expr

/-! ### Lanes of a launch -/

theorem range_mul_flatMap (n w : Nat) :
    (List.range n).flatMap (fun k => (List.range w).map fun j => k * w + j) = List.range (n * w) := by
  induction n with
  | zero => simp
  | succ n ih => rw [List.range_succ, List.flatMap_append, ih, Nat.succ_mul, List.range_add]; simp

theorem taskLanes_fst (w word i : Nat) :
    (taskLanes w word i).map Prod.fst = (taskPackets w word i).flatMap fun p => (List.range w).map fun k => p + k := by
  unfold taskLanes taskPackets
  cases taskRange word i with
  | none => rfl
  | some r =>
    simp only [Option.elim_some, List.map_flatMap, List.map_map]
    rfl

theorem launchLanes_fst {m : Machine} {N : Nat} (h : m.Fits N) :
    (launchLanes N m.w m.desired m.cores).map Prod.fst = List.range (cdiv N m.w * m.w) := by
  have hc := C21_packets m.wpos h.pos m.dpos m.div h.block h.tasks (cores := m.cores)
  rw [← range_mul_flatMap]
  have : (List.range (cdiv N m.w)).flatMap (fun k => (List.range m.w).map fun j => k * m.w + j)
      = ((List.range (cdiv N m.w)).map (· * m.w)).flatMap fun p => (List.range m.w).map fun j => p + j := by
    rw [List.flatMap_map]
  rw [this, ← hc]
  unfold launchLanes launchPackets
  dsimp only
  rw [List.map_flatMap, ← List.flatMap_def, List.flatMap_assoc]
  congr 1
  funext i
  exact taskLanes_fst _ _ _

theorem launchPlan_block {m : Machine} {N : Nat} (h : m.Fits N) :
    (launchPlan N m.w m.desired m.cores).2 < 2 ^ 32
      ∧ (launchPlan N m.w m.desired m.cores = (1, N) ∨ m.w ∣ (launchPlan N m.w m.desired m.cores).2) := by
  have hp := m.wpos
  have hpos := h.pos
  have hb := h.block
  have ht := h.tasks
  have hd := m.dpos
  have hw : m.w ≤ (2 * m.cores + 1) * m.w := Nat.le_mul_of_pos_left _ (by omega)
  have hpk : ceilDiv32 N m.w = cdiv N m.w := ceilDiv32_eq hp (by omega)
  have hclt := cdiv_mul_lt (a := N) hp
  unfold launchPlan
  dsimp only
  rw [hpk]
  by_cases c1 : m.cores ≤ 1
  · rw [if_pos c1]; exact ⟨by dsimp only; omega, Or.inl rfl⟩
  rw [if_neg c1]
  by_cases c2 : cdiv N m.w ≤ m.cores
  · rw [if_pos c2]; exact ⟨by dsimp only; omega, Or.inr (Nat.dvd_refl _)⟩
  rw [if_neg c2]
  by_cases c3 : N ≤ mul32 (mul32 m.desired m.cores) 2
  · rw [if_pos c3]
    dsimp only
    have h0 : m.cores ≤ m.cores * m.w := Nat.le_mul_of_pos_right _ hp
    have h3 : (2 * m.cores + 1) * m.w = 2 * (m.cores * m.w) + m.w := by rw [Nat.add_mul, Nat.mul_assoc]; omega
    have eb : mul32 2 m.cores = 2 * m.cores := mul32_eq (by omega)
    have hle := cdiv_le_self (a := N) hp
    rw [eb, ceilDiv32_eq (by omega) (by omega)]
    have hq : cdiv (cdiv N m.w) (2 * m.cores) ≤ cdiv N m.w := cdiv_le_self (by omega)
    have hq2 := Nat.mul_le_mul_right m.w hq
    rw [mul32_eq (by omega)]
    exact ⟨by omega, Or.inr ⟨_, Nat.mul_comm _ _⟩⟩
  · rw [if_neg c3]
    exact ⟨by dsimp only; omega, Or.inr m.div⟩

/-- A lane is either below the end of the range of its task, or it lies beyond the end of the array, and
then the end of the range is the end of the array. -/
theorem launchLanes_end {m : Machine} {N : Nat} (h : m.Fits N) {l e : Nat}
    (hx : (l, e) ∈ launchLanes N m.w m.desired m.cores) : e ≤ N ∧ (l < e ∨ (e = N ∧ N ≤ l)) := by
  obtain ⟨hb, hdiv⟩ := launchPlan_block h
  have hN := h.block
  have hd := m.dpos
  have hp := m.wpos
  unfold launchLanes at hx
  dsimp only at hx
  rw [List.mem_flatMap] at hx
  obtain ⟨i, hi, hx⟩ := hx
  rw [List.mem_range] at hi
  generalize hpl : launchPlan N m.w m.desired m.cores = plan at hx hi hb hdiv
  obtain ⟨d1, d2⟩ := packSizes_decode (b := plan.2) (s := N) hb (by omega)
  unfold taskLanes at hx
  cases hr : taskRange (packSizes plan.2 N) i with
  | none => rw [hr] at hx; simp at hx
  | some r =>
    rw [hr, Option.elim_some, List.mem_flatMap] at hx
    obtain ⟨p, hpm, hx⟩ := hx
    rw [List.mem_map] at hx
    obtain ⟨k, hk, he⟩ := hx
    rw [List.mem_range] at hk
    obtain ⟨rfl, rfl⟩ := Prod.mk.inj he
    unfold taskRange at hr
    rw [d1, d2] at hr
    dsimp only at hr
    split_ifs at hr with hc
    rw [Option.some.injEq] at hr
    subst hr
    dsimp only at hpm ⊢
    generalize hs : mul32 i plan.2 = s at hpm hc
    have hs' : s < 2 ^ 32 := by rw [← hs]; exact Nat.mod_lt _ (by decide)
    refine ⟨Nat.min_le_right _ _, ?_⟩
    by_cases hlt : add32 s plan.2 < N
    · left
      rw [Nat.min_eq_left (by omega)] at hc hpm ⊢
      have hadd : add32 s plan.2 = s + plan.2 := by
        apply add32_eq
        by_contra hge
        have h1 : add32 s plan.2 = s + plan.2 - 2 ^ 32 := by
          unfold add32
          rw [Nat.mod_eq_sub_mod (by omega), Nat.mod_eq_of_lt (by omega)]
        omega
      rcases hdiv with hdiv | ⟨q, hq⟩
      · -- a single block
        have h1 : i = 0 := by rw [hdiv] at hi; dsimp only at hi; omega
        subst h1
        have h2 : s = 0 := by rw [← hs]; simp [mul32]
        rw [hadd, h2, hdiv] at hlt
        dsimp only at hlt; omega
      · unfold packetsOf at hpm
        rw [List.mem_map] at hpm
        obtain ⟨j, hj, rfl⟩ := hpm
        rw [List.mem_range, lt_cdiv hp, hadd, Nat.add_sub_cancel_left, hq] at hj
        have hjq : j < q := by
          rw [Nat.mul_comm m.w q] at hj
          exact Nat.lt_of_mul_lt_mul_right hj
        have := Nat.mul_le_mul_right m.w hjq
        rw [Nat.succ_mul] at this
        rw [hadd, hq, Nat.mul_comm m.w q]
        omega
    · have hmin : min (add32 s plan.2) N = N := Nat.min_eq_right (by omega)
      rw [hmin]
      omega

/-! ### Values of masks -/

theorem value_elem {e l : Nat} (hl : l < e) (he : e < 2 ^ 32) (x : Expr) : x.value e l = x.elem l := by
  induction x with
  | lit => rfl
  | input n data =>
    by_cases h : n = 1
    · simp [value, elem, h]
    · simp [value, elem, h]
  | dflt n =>
    show decide (l % 2 ^ 32 < e % 2 ^ 32) = true
    rw [Nat.mod_eq_of_lt he, Nat.mod_eq_of_lt (by omega), decide_eq_true_iff]
    exact hl
  | node => rfl
  | and n a b iha ihb => simp only [value, elem, iha, ihb]
  | cast n a ih => simpa only [value, elem] using ih

/-- False in all lanes beyond the end of every launch in which the mask can be used -/
def Guarded (m : Machine) (x : Expr) : Prop :=
  ∀ N : Nat, m.Fits N → (x.size = 1 ∨ x.size = N) → ∀ l : Nat, N ≤ l → l < cdiv N m.w * m.w → x.value N l = false

theorem guarded_dflt (m : Machine) (n : Nat) : Guarded m (dflt n) := by
  intro N hN _ l h1 h2
  have := cdiv_mul_lt (a := N) m.wpos
  have ht := hN.tasks
  have hw : m.w ≤ (2 * m.cores + 1) * m.w := Nat.le_mul_of_pos_left _ (by omega)
  show decide (l % 2 ^ 32 < N % 2 ^ 32) = false
  rw [Nat.mod_eq_of_lt (by omega), Nat.mod_eq_of_lt (by have := m.wpos; omega), decide_eq_false_iff_not]
  omega

theorem withSize_value (n e l : Nat) {x : Expr} (h : x.isEvaluated = false) : (x.withSize n).value e l = x.value e l := by
  cases x <;> first | rfl | simp [isEvaluated] at h

theorem withSize_elem (n l : Nat) {x : Expr} (h : x.isEvaluated = false) : (x.withSize n).elem l = x.elem l := by
  cases x <;> first | rfl | simp [isEvaluated] at h

theorem withSize_size (n : Nat) (x : Expr) : (x.withSize n).size = n := by cases x <;> rfl

/-- What `resize` yields -/
theorem resize_spec {sole : Bool} {x r : Expr} {n : Nat} (h : x.resize sole n = some r) :
    r.size = n ∧ (∀ e l : Nat, r.value e l = x.value e l) ∧ (∀ l : Nat, r.elem l = x.elem l) := by
  unfold resize at h
  split_ifs at h with h0 h1
  · cases h; exact ⟨h1, fun _ _ => rfl, fun _ => rfl⟩
  · cases x with
    | lit k v => cases h; exact ⟨rfl, fun _ _ => rfl, fun _ => rfl⟩
    | _ =>
      all_goals
        dsimp only at h
        split_ifs at h with h2 h3
        · cases h
          refine ⟨withSize_size _ _, fun _ _ => withSize_value _ _ _ ?_, fun _ => withSize_elem _ _ ?_⟩ <;>
            simpa using (Bool.and_eq_true_iff.1 h3).1
        · cases h
          exact ⟨rfl, fun _ _ => rfl, fun _ => rfl⟩

/-- What `varAnd` yields -/
theorem varAnd_spec {c : Cfg} {a b r : Expr} (h : varAnd c a b = some r) :
    r.size = max a.size b.size ∧ (a.size = 1 ∨ a.size = r.size) ∧ (b.size = 1 ∨ b.size = r.size)
      ∧ (∀ e l : Nat, r.value e l = (a.value e l && b.value e l))
      ∧ (∀ l : Nat, r.elem l = (a.elem l && b.elem l)) := by
  unfold varAnd at h
  dsimp only at h
  split_ifs at h with h0 h1
  · have hsz : r.size = max a.size b.size ∧ (∀ e l : Nat, r.value e l = (a.value e l && b.value e l))
        ∧ (∀ l : Nat, r.elem l = (a.elem l && b.elem l)) := by
      split at h
      · cases h; exact ⟨rfl, fun _ _ => rfl, fun _ => rfl⟩
      · cases h; exact ⟨rfl, fun _ _ => by simp [value], fun _ => by simp [elem]⟩
      · cases h; exact ⟨rfl, fun _ _ => by simp [value], fun _ => by simp [elem]⟩
      · obtain ⟨s1, s2, s3⟩ := resize_spec h
        exact ⟨s1, fun _ _ => by rw [s2]; simp [value], fun _ => by rw [s3]; simp [elem]⟩
      · obtain ⟨s1, s2, s3⟩ := resize_spec h
        exact ⟨s1, fun _ _ => by rw [s2]; simp [value], fun _ => by rw [s3]; simp [elem]⟩
      · cases h; exact ⟨rfl, fun _ _ => rfl, fun _ => rfl⟩
    refine ⟨hsz.1, ?_, ?_, hsz.2⟩ <;> rw [hsz.1] <;> omega
  · cases h
    refine ⟨rfl, ?_, ?_, fun _ _ => rfl, fun _ => rfl⟩ <;> show _ ∨ _ = max a.size b.size <;> omega

theorem guarded_and {m : Machine} {c : Cfg} {a b r : Expr} (h : varAnd c a b = some r) (hg : Guarded m a ∨ Guarded m b) :
    Guarded m r := by
  obtain ⟨_, ha, hb, hv, _⟩ := varAnd_spec h
  intro N hN hr l h1 h2
  rw [hv]
  rcases hg with hg | hg
  · rw [hg N hN (by omega) l h1 h2]; rfl
  · rw [hg N hN (by omega) l h1 h2, Bool.and_false]

/-- The mask of the stack that `maskApply` uses -/
def usable (stack : List Expr) (size : Nat) : Option Expr :=
  match stack with
  | [] => none
  | m :: _ => if size = 1 ∨ m.size = 1 ∨ m.size = size then some m else none

theorem maskApply_spec {m : Machine} {c : Cfg} {stack : List Expr} {x r : Expr} {n : Nat}
    (h : maskApply c stack x n = some r) (hg : ∀ y : Expr, usable stack n = some y → Guarded m y) :
    Guarded m r ∧ ∀ l : Nat, r.elem l = wanted stack x n l := by
  have hw : ∀ l : Nat, wanted stack x n l = (x.elem l && ((usable stack n).map (elem l)).getD true) := by
    intro l
    unfold wanted usable
    cases stack with
    | nil => rfl
    | cons y st =>
      dsimp only
      split_ifs <;> rfl
  unfold maskApply at h
  dsimp only at h
  change (maskDefault n).bind (fun d => (match usable stack n with
      | none => some d
      | some m => if m.isEvaluated = true ∧ n = 1 then varAnd c m d else some m).bind fun mask => varAnd c mask x) = some r at h
  unfold maskDefault at h
  by_cases h0 : n = 0
  · rw [if_pos h0] at h; cases h
  rw [if_neg h0, Option.bind_some] at h
  cases hu : usable stack n with
  | none =>
    rw [hu] at h hw
    dsimp only at h
    rw [Option.bind_some] at h
    obtain ⟨_, _, _, _, he⟩ := varAnd_spec h
    refine ⟨guarded_and h (Or.inl (guarded_dflt m n)), fun l => ?_⟩
    rw [he, hw]
    simp [elem]
  | some y =>
    rw [hu] at h hw
    have hy := hg y hu
    dsimp only at h
    by_cases hc : y.isEvaluated = true ∧ n = 1
    · rw [if_pos hc] at h
      obtain ⟨z, hz, h⟩ := Option.bind_eq_some_iff.1 h
      obtain ⟨_, _, _, _, he1⟩ := varAnd_spec hz
      obtain ⟨_, _, _, _, he⟩ := varAnd_spec h
      refine ⟨guarded_and h (Or.inl (guarded_and hz (Or.inl hy))), fun l => ?_⟩
      rw [he, he1, hw]
      simp [elem, Bool.and_comm]
    · rw [if_neg hc, Option.bind_some] at h
      obtain ⟨_, _, _, _, he⟩ := varAnd_spec h
      refine ⟨guarded_and h (Or.inl hy), fun l => ?_⟩
      rw [he, hw]
      simp [Bool.and_comm]

theorem guarded_evaluate {m : Machine} {x : Expr} (junk : Nat → Bool) (hx : x.size ≠ 1) (hg : Guarded m x) :
    Guarded m (evaluate m.w junk x) := by
  intro N hN hs l h1 h2
  have hs' : x.size = N := by
    rcases hs with h | h
    · exact absurd h hx
    · exact h
  have := hg N hN (Or.inr hs') l h1 h2
  show (if x.size ≠ 1 then _ else _) = false
  rw [if_pos hx]
  dsimp only
  rw [hs', if_pos h2]
  exact this

theorem usable_mem {stack : List Expr} {n : Nat} {y : Expr} (h : usable stack n = some y) : y ∈ stack := by
  unfold usable at h
  cases stack with
  | nil => cases h
  | cons z st =>
    dsimp only at h
    split_ifs at h
    cases h
    exact List.mem_cons_self

/-- All masks of a program are false beyond the end -/
theorem reachable_guarded {m : Machine} {s : State} (h : Reachable m s) :
    (∀ x ∈ s.masks, Guarded m x) ∧ (∀ x ∈ s.stack, Guarded m x) := by
  induction h with
  | start => exact ⟨fun x hx => (by cases hx), fun x hx => (by cases hx)⟩
  | step _ hst ih =>
    obtain ⟨i1, i2⟩ := ih
    cases hst with
    | default n d hd =>
      unfold maskDefault at hd
      split_ifs at hd
      cases hd
      refine ⟨fun x hx => ?_, i2⟩
      rcases List.mem_cons.1 hx with rfl | hx
      · exact guarded_dflt m n
      · exact i1 x hx
    | apply c x n r hr =>
      refine ⟨fun y hy => ?_, i2⟩
      rcases List.mem_cons.1 hy with rfl | hy
      · exact (maskApply_spec hr fun y hy => i2 y (usable_mem hy)).1
      · exact i1 y hy
    | push x hx =>
      refine ⟨i1, fun y hy => ?_⟩
      rcases List.mem_cons.1 hy with rfl | hy
      · exact i1 _ hx
      · exact i2 y hy
    | pop x st hst =>
      exact ⟨i1, fun y hy => i2 y (by rw [hst]; exact List.mem_cons_of_mem _ hy)⟩
    | eval i x junk hx hs =>
      refine ⟨fun y hy => ?_, i2⟩
      rcases List.mem_or_eq_of_mem_set hy with hy | rfl
      · exact i1 y hy
      · exact guarded_evaluate junk hs (i1 x (List.mem_of_getElem? hx))
    | evalStack i x junk hx hs =>
      refine ⟨i1, fun y hy => ?_⟩
      rcases List.mem_or_eq_of_mem_set hy with hy | rfl
      · exact i2 y hy
      · exact guarded_evaluate junk hs (i2 x (List.mem_of_getElem? hx))

theorem effects_guarded {m : Machine} {N : Nat} (h : m.Fits N) {x : Expr} (hs : x.size = 1 ∨ x.size = N) (hg : Guarded m x) :
    effects N m.w m.desired m.cores x = (List.range N).filter fun l => x.elem l := by
  have hf := launchLanes_fst h
  have hN := h.block
  have hd := m.dpos
  have hge := cdiv_mul_ge (a := N) m.wpos
  have hcong : (launchLanes N m.w m.desired m.cores).filter (fun y => x.value y.2 y.1)
      = (launchLanes N m.w m.desired m.cores).filter ((fun l => decide (l < N) && x.elem l) ∘ Prod.fst) := by
    apply List.filter_congr
    rintro ⟨l, e⟩ hy
    obtain ⟨h1, h2⟩ := launchLanes_end h hy
    have hl : l < cdiv N m.w * m.w := by
      have : l ∈ (launchLanes N m.w m.desired m.cores).map Prod.fst := List.mem_map.2 ⟨(l, e), hy, rfl⟩
      rw [hf] at this
      exact List.mem_range.1 this
    show x.value e l = (decide (l < N) && x.elem l)
    rcases h2 with h2 | ⟨rfl, h2⟩
    · rw [value_elem h2 (by omega), decide_eq_true (by omega), Bool.true_and]
    · rw [hg _ h hs l h2 hl, decide_eq_false (by omega), Bool.false_and]
  unfold effects
  rw [hcong, ← List.filter_map, hf]
  obtain ⟨k, hk⟩ := Nat.le.dest hge
  rw [← hk, List.range_add, List.filter_append]
  have h1 : (List.range N).filter (fun l => decide (l < N) && x.elem l) = (List.range N).filter fun l => x.elem l := by
    apply List.filter_congr
    intro l hl
    rw [decide_eq_true (List.mem_range.1 hl), Bool.true_and]
  have h2 : ((List.range k).map (N + ·)).filter (fun l => decide (l < N) && x.elem l) = [] := by
    rw [List.filter_eq_nil_iff]
    intro l hl
    obtain ⟨j, _, rfl⟩ := List.mem_map.1 hl
    simp
  rw [h1, h2, List.append_nil]

/-- `evaluate` stores what the lanes of the launch compute: the array read back in a lane has the value that
the lane computed, whichever task ran it. -/
theorem evaluate_lanes {m : Machine} {x : Expr} (h : m.Fits x.size) (hx : x.size ≠ 1) (junk : Nat → Bool) {l e : Nat}
    (hl : (l, e) ∈ launchLanes x.size m.w m.desired m.cores) (e' : Nat) :
    (evaluate m.w junk x).value e' l = x.value e l := by
  have hN := h.block
  have hd := m.dpos
  have hl' : l < cdiv x.size m.w * m.w := by
    have : l ∈ (launchLanes x.size m.w m.desired m.cores).map Prod.fst := List.mem_map.2 ⟨(l, e), hl, rfl⟩
    rw [launchLanes_fst h] at this
    exact List.mem_range.1 this
  show (if x.size ≠ 1 then _ else _) = _
  rw [if_pos hx]
  dsimp only
  rw [if_pos hl']
  obtain ⟨h1, h2⟩ := launchLanes_end h hl
  rcases h2 with h2 | ⟨rfl, h2⟩
  · rw [value_elem h2 (by omega), value_elem (by omega) (by omega)]
  · rfl

end Verif.Lanes
