import Verif.Jit.Main
import Verif.Ops.Props
/-!
# Properties of evaluation
-/
namespace Verif.Jit
open Verif.Var Verif.Ops Verif.Gather

variable {E : Env} {s s' : Store} {U U' : List Nat} {u : Nat → Nat} {q : List (Nat × Nat)}

theorem step_any {ev : M Unit} (hev : EvOK ev) (h : IInv s U u) {u' : Nat → Nat} (hs : Step ev s u s' u') :
    ∃ U', IInv s' U' u' := by
  obtain ⟨U', h', _⟩ := step_spec hev h hs
  exact ⟨U', h'⟩

theorem iinv_of (h : Inv s' U' u (fun _ => 0) []) (hq : s'.sideEffects = []) : IInv s' U' u := by
  unfold IInv; rw [hq, plus_nil]; exact h

/-- A successful evaluation. -/
theorem evalJit_done (hE : EnvOK E) (h : IInv s U u) (he : evalJit E q s = .ok () s') :
    Done E q u s U [] s' := by
  have hw : wp (evalJit E q) s (fun _ s' => Done E q u s U [] s') (fun _ => True) (fun _ => True) := by
    unfold evalJit
    rw [wp_bind]
    refine wp_mono (evalImpl_spec (scheduled := q) hE h) ?_ (fun _ _ => trivial) (fun _ _ => trivial)
    intro L s1 hd
    rw [wp_ite]
    by_cases hL : L = []
    · rw [if_pos hL, wp_pure]; rw [hL] at hd; exact hd
    · rw [if_neg hL, wp_stop]; trivial
  unfold wp at hw; rw [he] at hw; exact hw

/-- A failed evaluation. -/
theorem evalJit_failed (hE : EnvOK E) (h : IInv s U u) (he : evalJit E q s = .raise s') :
    ∃ U', Inv s' U' u (fun _ => 0) [] ∧ VRel (fun _ => 0#64) [] [] u s U s' U' ∧ s'.sideEffects = [] := by
  have hw : wp (evalJit E q) s (fun _ _ => True) (fun s' => ∃ U', Inv s' U' u (fun _ => 0) [] ∧
      VRel (fun _ => 0#64) [] [] u s U s' U' ∧ s'.sideEffects = []) (fun _ => True) := by
    unfold evalJit
    rw [wp_bind]
    refine wp_mono (evalImpl_spec (scheduled := q) hE h) ?_ (fun _ e => e) (fun _ _ => trivial)
    intro L s1 hd
    rw [wp_ite]
    by_cases hL : L = []
    · rw [if_pos hL, wp_pure]; trivial
    · rw [if_neg hL, wp_stop]; trivial
  unfold wp at hw; rw [he] at hw; exact hw

/-- The invariant holds in all histories. -/
theorem jreachable_inv (hE : EnvOK E) (h : JReachable E s u) : ∃ U, IInv s U u := by
  induction h with
  | init mem vn ri cp fm ss => exact reachable_inv (evalJit_ok hE []) (.init mem vn ri cp fm ss)
  | call q _ hs ih =>
    obtain ⟨U, hi⟩ := ih
    exact step_any (evalJit_ok hE q) hi hs
  | op q _ hw hv he ih =>
    obtain ⟨U, hi⟩ := ih
    obtain ⟨hr, U', h'⟩ := op_inv ⟨hi, (writesOK_iff hi).1 hw⟩ hv he
    rw [plus_one hr]
    exact ⟨U', h'.inv⟩
  | eval q _ he ih =>
    obtain ⟨U, hi⟩ := ih
    obtain ⟨_, _, _, U', a, _, b, _⟩ := (evalJit_done hE hi he).vrel
    rw [plus_nil] at a
    exact ⟨U', iinv_of a b⟩
  | evalFails q _ he ih =>
    obtain ⟨U, hi⟩ := ih
    obtain ⟨U', a, _, b⟩ := evalJit_failed hE hi he
    exact ⟨U', iinv_of a b⟩

/-- **C61 (no crash).** Evaluation terminates, and it neither aborts the process nor runs into undefined
behaviour: it returns, raises an exception, exceeds a limit of the implementation, or leaves the model. -/
theorem C61_no_crash (hE : EnvOK E) (h : JReachable E s u) :
    (∃ s', evalJit E q s = .ok () s') ∨ (∃ s', evalJit E q s = .raise s') ∨
      evalJit E q s = .stop .limit ∨ evalJit E q s = .stop .unmodelled := by
  obtain ⟨U, hi⟩ := jreachable_inv hE h
  have hw : wp (evalJit E q) s (fun _ _ => True) (fun _ => True) (fun r => r = .limit ∨ r = .unmodelled) := by
    unfold evalJit
    rw [wp_bind]
    refine wp_mono (evalImpl_spec (scheduled := q) hE hi) ?_ (fun _ _ => trivial) (fun _ e => e)
    intro L s1 hd
    rw [wp_ite]
    by_cases hL : L = []
    · rw [if_pos hL, wp_pure]; trivial
    · rw [if_neg hL, wp_stop]; exact .inr rfl
  unfold wp at hw
  cases he : evalJit E q s with
  | ok a s1 => exact .inl ⟨s1, rfl⟩
  | raise s1 => exact .inr (.inl ⟨s1, rfl⟩)
  | abort => rw [he] at hw; exact hw.elim
  | stop r =>
    rw [he] at hw
    rcases hw with rfl | rfl
    · exact .inr (.inr (.inl rfl))
    · exact .inr (.inr (.inr rfl))

/-- What the caller can see of a variable apart from its contents and how it is represented. -/
def SameVar (s s' : Store) (k : Nat) : Prop :=
  (s'.vars k).type = (s.vars k).type ∧ (s'.vars k).backend = (s.vars k).backend ∧
    (s'.vars k).size = (s.vars k).size ∧ (s'.vars k).counter = (s.vars k).counter

theorem VRel.sameVar {data : Nat → BitVec 64} {R S : List Nat} {base : Nat → Nat}
    (h : VRel data R S base s U s' U') {k : Nat} (hk : Alive s' U' k) : SameVar s s' k := by
  obtain ⟨_, f2, f3, f4, _⟩ := ((h.keep k hk).2.fields)
  exact ⟨f2, f3, h.size k, f4⟩

/-- **C61 (variables).** Evaluation keeps the variables that the caller holds, with their type, backend,
size and identity, whether or not it succeeds.  No side effect is pending afterwards. -/
theorem C61_held (hE : EnvOK E) (h : JReachable E s u)
    (he : evalJit E q s = .ok () s' ∨ evalJit E q s = .raise s') :
    s'.sideEffects = [] ∧ ∀ k, 0 < u k → Live s' k ∧ SameVar s s' k := by
  obtain ⟨U, hi⟩ := jreachable_inv hE h
  have al : ∀ k, 0 < u k → Alive s U k := fun k hk => hi.alive_of_ext (plus_pos_left hk)
  rcases he with he | he
  · obtain ⟨_, _, _, U', a, b, c, _⟩ := (evalJit_done hE hi he).vrel
    refine ⟨c, fun k hk => ?_⟩
    have := b.stay k hk (al k hk)
    exact ⟨(live_alive a).2 this, b.sameVar this⟩
  · obtain ⟨U', a, b, c⟩ := evalJit_failed hE hi he
    refine ⟨c, fun k hk => ?_⟩
    have := b.stay k hk (al k hk)
    exact ⟨(live_alive a).2 this, b.sameVar this⟩

/-- **C61 (failure).** A failed evaluation leaves all variables that the caller holds as they were. -/
theorem C61_failed (hE : EnvOK E) (h : JReachable E s u) (he : evalJit E q s = .raise s') :
    ∀ k, 0 < u k → (s'.vars k).body = (s.vars k).body ∧ (s'.vars k).size = (s.vars k).size := by
  obtain ⟨U, hi⟩ := jreachable_inv hE h
  obtain ⟨U', a, b, c⟩ := evalJit_failed hE hi he
  intro k hk
  have := b.stay k hk (hi.alive_of_ext (plus_pos_left hk))
  exact ⟨(b.keeps k this).2, b.size k⟩

/-- **C61 (evaluated).** After a successful evaluation, all scheduled variables that the caller still
holds are stored in memory. -/
theorem C61_evaluated (hE : EnvOK E) (h : JReachable E s u) (he : evalJit E q s = .ok () s')
    {i : Nat} (hi : 0 < u i) (hq : (i, (s.vars i).counter) ∈ q) (hs : (s.vars i).kind ≠ scatterKind) :
    (s'.vars i).kind = .evaluated := by
  obtain ⟨U, hI⟩ := jreachable_inv hE h
  obtain ⟨roots, se, data, U', a1, a2, a3, a4, a5, a6, a7, a8⟩ := (evalJit_done hE hI he).vrel
  have al : Alive s U i := hI.alive_of_ext (plus_pos_left hi)
  have al' := a2.stay i hi al
  by_cases hk : (s.vars i).kind = .evaluated
  · exact ((a2.keep i al').2.fields).2.2.2.2.2 hk
  · rcases a8 i (a7 i _ hq ⟨al.1, rfl, hk⟩) al' with b | b
    · rw [body_kind b]; rfl
    · exact absurd b hs

/-- **C61 (others).** Variables that are neither scheduled nor side effects are not changed. -/
theorem C61_untouched (hE : EnvOK E) (h : JReachable E s u) (he : evalJit E q s = .ok () s')
    {k : Nat} (hk : 0 < u k) (hq : k ∉ q.map Prod.fst) (hse : k ∉ s.sideEffects) :
    (s'.vars k).body = (s.vars k).body := by
  obtain ⟨U, hI⟩ := jreachable_inv hE h
  obtain ⟨roots, se, data, U', a1, a2, a3, a4, a5, a6, a7, a8⟩ := (evalJit_done hE hI he).vrel
  have al' := a2.stay k hk (hI.alive_of_ext (plus_pos_left hk))
  have hr : k ∉ roots := by
    intro hm
    obtain ⟨_, _, c, hc, _⟩ := a6 k hm
    exact hq (List.mem_map.2 ⟨_, hc, rfl⟩)
  have hs : k ∉ se := fun hm => hse (a5.subset hm)
  rcases (a2.keep k al').2 with b | ⟨b, _⟩ | ⟨b, _⟩
  · exact b
  · exact (b.elim hr hs).elim
  · exact (hr b).elim

/-- **C61 (values).** Evaluation keeps the values of all variables that the caller holds, including
those that were scheduled, and those that are expressions of scheduled variables.  Expressions of arrays with pending
writes are excluded, unless nothing but arithmetic is evaluated. -/
theorem C61_values (hE : EnvOK E) (hL : LaunchOK E.launch) (h : JReachable E s u)
    (he : evalJit E q s = .ok () s') (hse : ∀ i ∈ s.sideEffects, ∃ c, (s.vars i).kind = .other c)
    (huni : ∀ i c, (i, c) ∈ q → (s.vars i).size = 1 → ∀ l l' x, Entry s i l x → Entry s i l' x)
    {k : Nat} (hk : 0 < u k) (hq : Undisturbed s (q.map Prod.fst ++ s.sideEffects) k) {l : Nat} {x : BitVec 64}
    (hx : Entry s k l x) : Entry s' k l x := by
  obtain ⟨U, hI⟩ := jreachable_inv hE h
  exact (evalJit_done hE hI he).value hL hI hse huni hk hq hx

/-- **C61 (no leak).** In all histories: once the caller has given back all references and no side effect
is pending, no variable is left, and all memory has been given back. -/
theorem C61_no_leak (hE : EnvOK E) (h : JReachable E s u) (hu : ∀ i, u i = 0) (hse : s.sideEffects = []) :
    (∀ i, ¬ Live s i) ∧ ∀ p, s.freed.count p = s.acquired.count p := by
  obtain ⟨U, hinv⟩ := jreachable_inv hE h
  have e : u = fun _ => 0 := funext hu
  have hI : Inv s U (fun _ => 0) (fun _ => 0) [] := by
    have := hinv
    unfold IInv at this
    rw [hse, plus_nil, e] at this; exact this
  have hna := no_alive hI
  refine ⟨fun i hl => hna i ((live_iff hinv i).1 hl), fun p => ?_⟩
  have := hI.bal p
  have h0 : owned s U p = 0 := by
    unfold owned
    refine Finset.sum_eq_zero (fun j _ => ?_)
    rw [if_neg (fun hh => hna j hh.1)]
  omega

/-- **C61 (no double free).** In all histories, memory is given back at most once, and not as
long as a variable owns it. -/
theorem C61_no_double_free (hE : EnvOK E) (h : JReachable E s u) (p : BitVec 64) :
    s.freed.count p ≤ s.acquired.count p ∧
    ∀ i, Live s i → (s.vars i).kind = .evaluated → (s.vars i).retainData = false →
      (s.vars i).literal = p → s.freed.count p < s.acquired.count p := by
  obtain ⟨U, hinv⟩ := jreachable_inv hE h
  have hb := hinv.bal p
  refine ⟨by omega, ?_⟩
  intro i hl h1 h2 h3
  have hA := (live_iff hinv i).1 hl
  have : 1 ≤ owned s U p := by
    unfold owned
    have hle := Finset.single_le_sum
      (f := fun j => if Alive s U j ∧ (s.vars j).owns p = true then 1 else 0)
      (fun j _ => Nat.zero_le _) (Finset.mem_range.2 hA.2.1)
    rw [if_pos ⟨hA, by simp [Var.owns, Var.isEvaluated, h1, h2, h3]⟩] at hle
    exact hle
  omega

/-! ## The contract that gathers assume -/

theorem visits_part {i k : Nat} (ht : Typed s i) (h : Visits s [i] k) : Part s i k := by
  induction h with
  | root hi => rw [List.mem_singleton.1 hi]; exact .root
  | @dep k d _ hd ih =>
    obtain ⟨m, h0⟩ := takeWhile_ne hd
    by_cases hl : (s.vars k).kind = .literal
    · have hz := ht.leaf k ih hl
      unfold Var.refs at hd
      split at hd
      · cases hd
      · rw [hz] at hd
        rw [List.takeWhile_cons, if_neg (by simp)] at hd
        cases hd
    · have hw := ht.read k ih hl
      rw [refs_of hw] at m
      have : ∃ j, j < 4 ∧ (s.vars k).dep j = d := by
        simp only [List.mem_cons, List.not_mem_nil, or_false] at m
        rcases m with rfl | rfl | rfl | rfl
        · exact ⟨0, by omega, rfl⟩
        · exact ⟨1, by omega, rfl⟩
        · exact ⟨2, by omega, rfl⟩
        · exact ⟨3, by omega, rfl⟩
      obtain ⟨j, hj, rfl⟩ := this
      exact .dep ih hl hj h0

theorem visits_nil {roots : List Nat} {i : Nat} (h : Visits s (roots ++ []) i) : Visits s roots i := by
  rw [List.append_nil] at h; exact h

/-- `jit_var_eval()` meets the contract that the property of gathers assumes. -/
theorem varEval_ok (hE : EnvOK E) (hL : LaunchOK E.launch) : EvalOK (varEval E) := by
  intro s U u i h hw hse hu hnode ht huni s' he
  have al : Alive s U i := h.alive_of_ext (plus_pos_left hu)
  -- the evaluation in the middle
  have key : evalJit E [(i, (s.vars i).counter)] s = .ok () s' ∧ (s'.vars i).kind = .evaluated := by
    have hget : getVar i s = .ok (s.vars i) s := (live_alive h).2 al
    have hnp : wp (varEval E i) s (fun _ s1 => evalJit E [(i, (s.vars i).counter)] s = .ok () s1 ∧
        (s1.vars i).kind = .evaluated) (fun _ => True) (fun _ => True) := by
      unfold varEval
      rw [wp_bind, wp_getVar h al, wp_ite]
      by_cases h1 : (s.vars i).symbolic = true
      · rw [if_pos h1, wp_raise]; trivial
      rw [if_neg h1, wp_ite]
      by_cases h2 : (s.vars i).consumed = true
      · rw [if_pos h2, wp_raise]; trivial
      rw [if_neg h2, wp_ite, if_neg (by simp [hnode]), if_pos hnode, wp_bind]
      have hd := evalJit_ok hE [(i, (s.vars i).counter)] s U u h
      have hid : wp (evalJit E [(i, (s.vars i).counter)]) s
          (fun _ s1 => evalJit E [(i, (s.vars i).counter)] s = .ok () s1 ∧ ∃ U1, IInv s1 U1 u)
          (fun _ => True) (fun _ => True) := by
        unfold wp at hd ⊢
        cases hr : evalJit E [(i, (s.vars i).counter)] s with
        | ok a s1 =>
          rw [hr] at hd
          obtain ⟨U1, b1, _⟩ := hd
          exact ⟨rfl, U1, b1⟩
        | raise s1 => trivial
        | abort => rw [hr] at hd; exact hd.elim
        | stop r => trivial
      refine wp_post hid ?_
      rintro _ s1 ⟨e1, U1, b1⟩
      have al1 : Alive s1 U1 i := b1.alive_of_ext (plus_pos_left hu)
      rw [wp_bind, wp_getVar b1 al1, wp_ite]
      by_cases h3 : (s1.vars i).isDirty = true
      · rw [if_pos h3, wp_raise]; trivial
      rw [if_neg h3, wp_ite]
      by_cases h4 : (!(s1.vars i).isEvaluated || decide ((s1.vars i).literal = 0#64)) = true
      · rw [if_pos h4, wp_raise]; trivial
      rw [if_neg h4, wp_pure]
      refine ⟨e1, ?_⟩
      simp only [Bool.or_eq_true, Bool.not_eq_true', not_or, Bool.not_eq_false] at h4
      simpa [Var.isEvaluated] using h4.1
    exact wp_ok hnp he
  obtain ⟨hrun, hdone⟩ := key
  have hd := evalJit_done hE h hrun
  obtain ⟨roots, se, data, U', a1, a2, a3, a4, a5, a6, a7, a8⟩ := hd.vrel
  rw [plus_nil] at a1
  have stay : ∀ k, 0 < u k → Alive s' U' k := fun k hk => a2.stay k hk (h.alive_of_ext (plus_pos_left hk))
  have hrt : ∀ k ∈ roots, k = i := by
    intro k hk
    obtain ⟨_, _, c, hc, _⟩ := a6 k hk
    simp only [List.mem_singleton, Prod.mk.injEq] at hc
    exact hc.1
  have hse' : se = [] := by rw [hse] at a5; exact List.sublist_nil.1 a5
  refine ⟨⟨U', iinv_of a1 a3⟩, hdone, ?_, ?_, fun k _ => a2.size k, ?_⟩
  · refine ⟨fun k hk => a2.types k (stay k hk), fun k hk => .inl (a2.size k), ?_, ?_, ?_⟩
    · intro k hk hc
      exact clean_vrel h a1 a2 hc
    · intro k hk hlit
      rcases (a2.keep k (stay k hk)).2 with b | ⟨_, b⟩ | ⟨_, b⟩
      · obtain ⟨e1, e2, e3, _⟩ := body_fields b
        unfold LitOK at hlit ⊢
        rw [e1, e2, e3]; exact hlit
      · obtain ⟨e1, e2, e3, _⟩ := body_fields b
        unfold LitOK at hlit ⊢
        rw [e1, e2, e3]; exact hlit
      · obtain ⟨e1, _⟩ := body_fields b
        intro hk'
        rw [e1] at hk'
        cases hk'
    · intro k hk l x _ _ hx
      refine hd.value hL h (by rw [hse]; intro j hj; cases hj) ?_ hk (.inl ?_) hx
      · intro j c hj
        simp only [List.mem_singleton, Prod.mk.injEq] at hj
        rw [hj.1]; exact huni
      · intro j hj
        rw [hse] at hj
        exact ht.pure j (visits_part ht (visits_nil hj))
  · intro k hk hki hlit
    rcases (a2.keep k (stay k hk)).2 with b | ⟨hm, b⟩ | ⟨hm, b⟩
    · obtain ⟨e1, e2, e3, _⟩ := body_fields b
      exact ⟨e1.trans hlit, e3⟩
    · rw [hse'] at hm
      rcases hm with hm | hm
      · exact absurd (hrt k hm) hki
      · cases hm
    · exact absurd (hrt k hm) hki
  · exact (writesOK_iff (iinv_of a1 a3)).2 (wok_vrel h a1 a2 ((writesOK_iff h).1 hw))

end Verif.Jit
