import Verif.Cuda.Geo
import Verif.Cuda.Spec

/-!
# The kernel computes prefix reductions
-/
namespace Verif.Cuda

open Verif.Par

variable {T V H : Type} {L : Launch} {cp : Nat}

/-- Effect of the exclusive shift -/
theorem last_ends {bx yb : Nat} {pre : Nat → V} {m0 m' : SLoc → V} (h : Ends (L.lastPhases bx yb pre) m0 m') :
    ∀ t, t < L.threads → L.valid bx yb t = true → m' (.reg t) =
      if L.pos t = 0 then pre t else if sub32 t 1 < L.threads ∧ L.valid bx yb (sub32 t 1) = true then m0 (.reg (sub32 t 1)) else m0 (.sh (sub32 t 1)) := by
  obtain ⟨m1, h1, m2, h2, h3⟩ := h
  have h3' : m' = m2 := h3
  subst h3'
  obtain ⟨p1, p2⟩ := put_ends (fun t => L.valid bx yb t) h1
  obtain ⟨q1, q2⟩ := phase_spec (R := fun t => {l | ∃ i, l = SLoc.sh i}) (W := fun t => {l | l = SLoc.reg t})
    (Q := fun t mt => L.valid bx yb t = true → mt (.reg t) = if L.pos t = 0 then pre t else m1 (.sh (sub32 t 1))) (by
      rintro i j hi hj hne l rfl
      refine ⟨?_, ?_⟩ <;> simp [hne]) (by
      intro t ht
      split
      · split
        · refine wp_put rfl ?_
          intro _; simp [upd]
        · rw [wp_bind]
          refine wp_get ⟨_, rfl⟩ (wp_put rfl ?_)
          intro _; simp [upd]
      · rename_i hp
        intro h; exact absurd h hp) h2
  intro t ht hv
  obtain ⟨mi, a1, a2, _⟩ := q1 t ht
  rw [a2 _ rfl, a1 hv]
  by_cases hp : L.pos t = 0
  · rw [if_pos hp, if_pos hp]
  · rw [if_neg hp, if_neg hp, p2]

theorem window_full {k t : Nat} : window (2 ^ k) k t = Finset.Icc (t - t % 2 ^ k) t := by
  unfold window
  have := Nat.mod_lt t (Nat.two_pow_pos k)
  rw [Nat.min_eq_left (by omega)]

/-- What the words of a value have to satisfy -/
def Words.Ok (W : Words V H) : Prop := 1 ≤ W.nw ∧ ∀ (g : Nat → Option H) (v : V), (∀ k, k < W.nw → g k = some (W.part k v)) → W.join g = v

/-- Registers and shared memory after the scan -/
theorem Geo.scan (g : Geo L cp) (R : Red T V) {x : Nat → T} {c : Nat} (hc : c < L.gx * L.gy) {m : SLoc → V} (h : L.Scan R x (L.at c).1 (L.at c).2 m) :
    (∀ t, t < L.threads → On R.red R.init (fun j => R.toV (x j)) ((Finset.Icc (t - t % L.cs) t).biUnion (L.elem c)) (m (.reg t))) ∧
    ∀ t, t < L.threads → ∃ S, S ⊆ Finset.Icc (t - t % L.cs) t ∧ On R.red R.init (fun j => R.toV (x j)) (S.biUnion (L.elem c)) (m (.sh t)) := by
  obtain ⟨m0, h0, h1⟩ := h
  obtain ⟨k, hk1, hk2, hcs⟩ := g.pow
  have hlog : L.rounds = k := by unfold Launch.rounds; rw [hcs, Nat.log2_two_pow]
  rw [hlog] at h1
  obtain ⟨a1, a2⟩ := scan_spec (init := R.init) (f := fun j => R.toV (x j)) (E := L.elem c) (k := k) (g.apart c) hcs g.small (by omega) g.pos (m := m0) (by
    intro t ht
    rw [h0 t ht]
    unfold Launch.elem
    by_cases hv : L.valid (L.at c).1 (L.at c).2 t = true
    · rw [if_pos hv, if_pos ⟨hc, ht, hv⟩]; exact On.single (f := fun j => R.toV (x j)) _
    · rw [if_neg hv, if_neg (by tauto)]; exact On.empty) k (Nat.le_refl _) m h1
  rw [hcs] at a1 ⊢
  refine ⟨fun t ht => ?_, fun t ht => ⟨window L.cs (k - 1) t, ?_, a2 hk1 t ht⟩⟩
  · rw [← window_full]; exact a1 t ht
  · rw [← hcs]
    unfold window
    exact Finset.Icc_subset_Icc (by omega) (Nat.le_refl _)

/-- `prefix` and `value` after the look-back -/
theorem Geo.looked (g : Geo L cp) {R : Red T V} {W : Words V H} (hW : W.Ok) {x : Nat → T} {m : Nat → SLoc → V} {pre val : Nat → Nat → V}
    (hm : ∀ c, c < L.gx * L.gy → L.Scan R x (L.at c).1 (L.at c).2 (m c)) (h : L.Looked R W m pre val) {c t : Nat} (hc : c < L.gx * L.gy) (ht : t < L.threads) :
    On R.red R.init (fun j => R.toV (x j)) ((Finset.Ico (c - c % L.cpb) c).biUnion L.elems) (pre c t) ∧ On R.red R.init (fun j => R.toV (x j)) (L.upto c t) (val c t) := by
  have hkind := g.kind
  have hpre : On R.red R.init (fun j => R.toV (x j)) ((Finset.Ico (c - c % L.cpb) c).biUnion L.elems) (pre c t) ∧
      (val c t = R.red (m c (.reg t)) (pre c t) ∨ (val c t = m c (.reg t) ∧ L.cpb = 1)) := by
    unfold Launch.Looked at h
    split at h
    · rename_i hl
      rw [if_pos hl] at hkind
      obtain ⟨rfl, hth⟩ := hkind
      have hcs : L.cs = 1024 := by have := g.threads; omega
      obtain ⟨s, h1, h2, h3⟩ := h
      have ok : (L.cfg R W m).Ok (fun j => R.toV (x j)) L.elems := by
        refine ⟨?_, hW.1, g.cpb1, hW.2, g.aparts, butterfly_warp, ?_⟩
        · show 1 ≤ L.threads / 32; omega
        · intro c' hc'
          have hsc := (g.scan R hc' (hm c' hc')).1 1023 (by omega)
          have hle : (L.cfg R W m).leader = 1023 := by show 32 * (L.threads / 32) - 1 = 1023; omega
          rw [hle]
          have hr : Finset.Icc (1023 - 1023 % L.cs) 1023 = Finset.range L.threads := by
            ext i
            rw [hth, hcs, Finset.mem_range, Finset.mem_Icc]
            omega
          rw [hr] at hsc
          exact hsc
      have inv := run_inv ok (inv_start ok) h1
      have hd := (h2 c hc).1 (t / 32) (by show t / 32 < L.threads / 32; omega)
      have := prefix_spec ok inv (c := c) (w := t / 32) (l := t % 32) hc (by show t / 32 < L.threads / 32; omega) (Nat.mod_lt _ (by omega)) hd
      obtain ⟨k1, k2⟩ := h3 c t hc ht
      rw [k2]
      refine ⟨?_, Or.inl rfl⟩
      rw [k1]
      exact this
    · rename_i hl
      rw [if_neg hl] at hkind
      obtain ⟨k1, k2⟩ := h c t hc ht
      refine ⟨?_, Or.inr ⟨k2, hkind⟩⟩
      rw [k1, hkind, Nat.mod_one, Nat.sub_zero, Finset.Ico_self, Finset.biUnion_empty]
      exact On.empty
  refine ⟨hpre.1, ?_⟩
  have hsc := (g.scan R hc (hm c hc)).1 t ht
  rcases hpre.2 with h | ⟨h, h1⟩
  · rw [h]
    exact hsc.union (g.upto_disj c _) hpre.1
  · rw [h]
    unfold Launch.upto
    rw [h1, Nat.mod_one, Nat.sub_zero, Finset.Ico_self, Finset.biUnion_empty, Finset.union_empty]
    exact hsc

/-- Elements before the one of thread `t` -/
theorem Geo.upto_pred (g : Geo L cp) {c t e : Nat} (he : e ∈ L.elem c t) :
    (L.upto c t).erase e = if t % L.cs = 0 then (Finset.Ico (c - c % L.cpb) c).biUnion L.elems else L.upto c (t - 1) := by
  have hcs := g.cs0
  have hm := Nat.mod_lt t (show 0 < L.cs by omega)
  have hle : t % L.cs ≤ t := Nat.mod_le _ _
  have hE : L.elem c t = {e} := by
    obtain ⟨h1, h2, h3, rfl⟩ := mem_elem.1 he
    unfold Launch.elem
    rw [if_pos ⟨h1, h2, h3⟩]
  have hdis := Finset.disjoint_left.1 (g.upto_disj c {t})
  rw [Finset.singleton_biUnion, hE] at hdis
  have hnot := hdis (Finset.mem_singleton_self e)
  split
  · rename_i h0
    unfold Launch.upto
    rw [h0, Nat.sub_zero, Finset.Icc_self, Finset.singleton_biUnion, hE]
    ext j
    simp only [Finset.mem_erase, Finset.mem_union, Finset.mem_singleton]
    constructor
    · rintro ⟨h1, h2 | h2⟩
      · exact absurd h2 h1
      · exact h2
    · intro h
      refine ⟨?_, Or.inr h⟩
      rintro rfl
      exact hnot h
  · rename_i h0
    have hmod : (t - 1) % L.cs = t % L.cs - 1 := by
      have hd := Nat.div_add_mod t L.cs
      have : t - 1 = (t % L.cs - 1) + L.cs * (t / L.cs) := by omega
      rw [this, Nat.add_mul_mod_self_left, Nat.mod_eq_of_lt (by omega)]
    have hIcc : Finset.Icc (t - t % L.cs) t = insert t (Finset.Icc (t - t % L.cs) (t - 1)) := by
      ext i
      simp only [Finset.mem_Icc, Finset.mem_insert]
      omega
    unfold Launch.upto
    rw [hmod, show t - 1 - (t % L.cs - 1) = t - t % L.cs by omega, hIcc, Finset.biUnion_insert, hE]
    ext j
    simp only [Finset.mem_erase, Finset.mem_union, Finset.mem_singleton]
    constructor
    · rintro ⟨h1, (h2 | h2) | h2⟩
      · exact absurd h2 h1
      · exact Or.inl h2
      · exact Or.inr h2
    · intro h
      refine ⟨?_, ?_⟩
      · rintro rfl
        rcases h with h | h
        · obtain ⟨t', ht', h⟩ := Finset.mem_biUnion.1 h
          have := (g.elem_inj he h).2
          have := Finset.mem_Icc.1 ht'
          omega
        · exact hnot h
      · rcases h with h | h
        · exact Or.inl (Or.inr h)
        · exact Or.inr h

/-- If the thread before a valid one is not valid, there are no elements before. -/
theorem Geo.upto_empty (g : Geo L cp) {c t e : Nat} (he : e ∈ L.elem c t) (h0 : t % L.cs ≠ 0) (hv : L.elem c (t - 1) = ∅) : L.upto c (t - 1) = ∅ := by
  have hcs := g.cs0
  have hb := g.bs1
  have hm := Nat.mod_lt t (show 0 < L.cs by omega)
  have hle : t % L.cs ≤ t := Nat.mod_le _ _
  obtain ⟨hc, ht, _⟩ := mem_elem.1 he
  obtain ⟨e0, e1, e2⟩ := (g.elem_iff hc ht).1 he
  have hmod : (t - 1) % L.cs = t % L.cs - 1 ∧ (t - 1) / L.cs = t / L.cs := by
    have hd := Nat.div_add_mod t L.cs
    have : t - 1 = L.cs * (t / L.cs) + (t % L.cs - 1) := by omega
    rw [this, Nat.mul_add_mod, Nat.mod_eq_of_lt (by omega), Nat.mul_add_div (by omega), Nat.div_eq_of_lt (show t % L.cs - 1 < L.cs by omega)]
    exact ⟨rfl, by omega⟩
  have hup := g.upto_pred he
  rw [if_neg h0] at hup
  rw [← hup, Finset.eq_empty_iff_forall_notMem]
  intro j hj
  obtain ⟨hne, hj⟩ := Finset.mem_erase.1 hj
  obtain ⟨j0, j1, j2⟩ := (g.mem_upto he).1 hj
  have d1 := Nat.div_add_mod e L.bs
  have d2 := Nat.div_add_mod j L.bs
  rw [j1] at d2
  have m1 := Nat.mod_lt e (show 0 < L.bs by omega)
  have m2 := Nat.mod_lt j (show 0 < L.bs by omega)
  have hrank : L.rank (c * cp + (t - 1) / L.cs) (t - 1) + 1 = L.rk e := by
    rw [e2, hmod.2]
    unfold Launch.rank
    rw [hmod.1]; omega
  have step : ∀ e', e' / L.bs = e / L.bs → e' < L.size → L.rk e' + 1 = L.rk e → False := by
    intro e' h1 h2 h3
    have : e' ∈ L.elem c (t - 1) := (g.elem_iff hc (by omega)).2 ⟨h2, by rw [h1, e1, hmod.2], by omega⟩
    rw [hv] at this
    exact absurd this (Finset.notMem_empty _)
  have hdm : ∀ r, r < L.bs → (L.bs * (e / L.bs) + r) / L.bs = e / L.bs ∧ (L.bs * (e / L.bs) + r) % L.bs = r := by
    intro r hr
    rw [Nat.mul_add_div (by omega), Nat.mul_add_mod, Nat.div_eq_of_lt hr, Nat.mod_eq_of_lt hr]
    exact ⟨by omega, rfl⟩
  unfold Launch.rk at j2 step
  by_cases hr : L.rev = true
  · simp only [hr, if_true] at j2 step
    obtain ⟨a, b⟩ := hdm (e % L.bs + 1) (by omega)
    exact step _ a (by omega) (by rw [b]; omega)
  · simp only [hr] at j2 step
    simp only [Bool.false_eq_true, if_false] at j2 step
    obtain ⟨a, b⟩ := hdm (e % L.bs - 1) (by omega)
    exact step _ a (by omega) (by rw [b]; omega)

/-- The sets of the specification -/
theorem Geo.scanned_eq (g : Geo L cp) {c t e : Nat} (he : e ∈ L.elem c t) :
    scanned L.size L.bs L.excl L.rev e = if L.excl then (L.upto c t).erase e else L.upto c t := by
  have hb := g.bs1
  have key : ∀ j, j ∈ L.upto c t ↔ j < L.size ∧ j / L.bs = e / L.bs ∧ (if L.rev then e ≤ j else j ≤ e) := by
    intro j
    rw [g.mem_upto he]
    refine and_congr_right fun _ => and_congr_right fun h1 => ?_
    unfold Launch.rk
    have d1 := Nat.div_add_mod e L.bs
    have d2 := Nat.div_add_mod j L.bs
    rw [h1] at d2
    have m1 := Nat.mod_lt e (show 0 < L.bs by omega)
    have m2 := Nat.mod_lt j (show 0 < L.bs by omega)
    split <;> omega
  ext j
  unfold scanned
  rw [Finset.mem_filter, Finset.mem_range]
  cases L.excl
  · simp only [Bool.false_eq_true, if_false, false_implies, and_true]
    rw [key]
  · simp only [if_true, Finset.mem_erase, true_implies]
    rw [key]; tauto

/-- Every execution of the kernel computes the prefix reduction. -/
theorem Geo.runs (g : Geo L cp) {R : Red T V} {W : Words V H} (hW : W.Ok) {x y y' : Nat → T} (h : L.Runs R W x y y') :
    IsPrefix R.red R.init R.toV R.ofV L.size L.bs L.excl L.rev x y y' := by
  obtain ⟨m, pre, val, res, h1, h2, h3, h4, h5⟩ := h
  refine ⟨fun e he => ?_, fun e he => h5 e fun c t hc ht hv heq => ?_⟩
  · obtain ⟨c, t, hel, _⟩ := g.surj he
    obtain ⟨hc, ht, hv, hpos⟩ := mem_elem.1 hel
    refine ⟨res c t, ?_, by rw [hpos]; exact h4 c t hc ht hv⟩
    show On R.red R.init (fun j => R.toV (x j)) (scanned L.size L.bs L.excl L.rev e) (res c t)
    rw [g.scanned_eq hel]
    have hl := h3 c hc
    obtain ⟨lp, lv⟩ := g.looked hW h1 h2 hc ht
    unfold Launch.Last at hl
    split at hl
    · rename_i hex
      rw [if_pos hex]
      obtain ⟨m0, m', k1, k2, k3, k4⟩ := hl
      rw [k4 t ht, last_ends k3 t ht hv, g.pos t ht, g.upto_pred hel]
      by_cases hp : t % L.cs = 0
      · rw [if_pos hp, if_pos hp]; exact lp
      · rw [if_neg hp, if_neg hp]
        have ht0 : 1 ≤ t := by
          have : t % L.cs ≤ t := Nat.mod_le _ _
          omega
        have hsmall := g.small
        rw [sub32_le (by omega) ht0]
        split
        · rename_i hv1
          rw [k2 _ hv1.1]
          exact (g.looked hW h1 h2 hc hv1.1).2
        · rename_i hv1
          have hempty : L.elem c (t - 1) = ∅ := by
            unfold Launch.elem
            rw [if_neg (by tauto)]
          have hup := g.upto_empty hel hp hempty
          rw [k1, hup]
          obtain ⟨S, hS, hon⟩ := (g.scan R hc (h1 c hc)).2 (t - 1) (by omega)
          have : S.biUnion (L.elem c) = ∅ := by
            rw [Finset.eq_empty_iff_forall_notMem]
            intro j hj
            obtain ⟨i, hi, hj⟩ := Finset.mem_biUnion.1 hj
            have : j ∈ L.upto c (t - 1) := by
              unfold Launch.upto
              exact Finset.mem_union_left _ (Finset.mem_biUnion.2 ⟨i, hS hi, hj⟩)
            rw [hup] at this
            exact absurd this (Finset.notMem_empty _)
          rw [this] at hon
          exact hon
    · rename_i hex
      rw [if_neg hex, hl t ht]
      exact lv
  · have : e ∈ L.elem c t := mem_elem.2 ⟨hc, ht, hv, heq.symm⟩
    have := ((g.elem_iff hc ht).1 this).1
    omega

end Verif.Cuda
