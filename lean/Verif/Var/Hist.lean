import Verif.Var.Spec
/-!
# Histories preserve the invariant
-/
namespace Verif.Var
open Verif.FreeSlots (FreeSlots Rep)
set_option linter.dupNamespace false

/-- What every call, including evaluation, preserves about the variables it did not create. -/
structure Track (base : Nat → Nat) (s : Store) (U : List Nat) (s' : Store) (U' : List Nat) :
    Prop where
  vc : s.variableCounter ≤ s'.variableCounter
  len : s.len ≤ s'.len
  keep : ∀ i, Alive s' U' i → (s'.vars i).uid < s.variableCounter →
    Alive s U i ∧ (s'.vars i).uid = (s.vars i).uid ∧ (s'.vars i).type = (s.vars i).type ∧
    (s'.vars i).backend = (s.vars i).backend ∧ (s'.vars i).counter = (s.vars i).counter
  stay : ∀ i, 0 < base i → Alive s U i → Alive s' U' i ∧ (s'.vars i).uid = (s.vars i).uid
  cnt : ∀ i, i < s.len → (s.vars i).counter ≤ (s'.vars i).counter
  gone : ∀ i, Alive s U i → (Alive s' U' i ∧ (s'.vars i).uid = (s.vars i).uid) ∨
    (s.vars i).counter < (s'.vars i).counter

variable {s s' s'' : Store} {U U' U'' : List Nat} {b b' u ext extSe : Nat → Nat}

theorem Frame.track (h : Frame b s U s' U') : Track b s U s' U' where
  vc := h.vc
  len := h.len
  keep := by
    intro i h1 h2
    obtain ⟨a1, a2, _⟩ := h.keep i h1 h2
    exact ⟨a1, body_uid a2, by simpa [Var.body] using congrArg Var.type a2,
      by simpa [Var.body] using congrArg Var.backend a2, body_counter a2⟩
  stay := h.stay
  cnt := h.cnt
  gone := h.gone

theorem Track.refl : Track b s U s U := Frame.refl.track

theorem Track.trans (h1 : Track b s U s' U') (h2 : Track b s' U' s'' U'') :
    Track b s U s'' U'' where
  vc := le_trans h1.vc h2.vc
  len := le_trans h1.len h2.len
  keep := by
    intro i hi hu
    obtain ⟨a2, b2, c2, d2, e2⟩ := h2.keep i hi (lt_of_lt_of_le hu h1.vc)
    obtain ⟨a1, b1, c1, d1, e1⟩ := h1.keep i a2 (by rw [← b2]; exact hu)
    exact ⟨a1, b2.trans b1, c2.trans c1, d2.trans d1, e2.trans e1⟩
  stay := by
    intro i hb hi
    obtain ⟨a1, b1⟩ := h1.stay i hb hi
    obtain ⟨a2, b2⟩ := h2.stay i hb a1
    exact ⟨a2, b2.trans b1⟩
  cnt := fun i hi => le_trans (h1.cnt i hi) (h2.cnt i (lt_of_lt_of_le hi h1.len))
  gone := by
    intro i hi
    rcases h1.gone i hi with ⟨a1, b1⟩ | h
    · rcases h2.gone i a1 with ⟨a2, b2⟩ | h
      · exact .inl ⟨a2, b2.trans b1⟩
      · exact .inr (lt_of_le_of_lt (h1.cnt i hi.2.1) h)
    · exact .inr (lt_of_lt_of_le h (h2.cnt i (lt_of_lt_of_le hi.2.1 h1.len)))

theorem Track.mono (h : Track b s U s' U') (hb : ∀ i, 0 < b' i → 0 < b i) : Track b' s U s' U' :=
  ⟨h.vc, h.len, h.keep, fun i hi => h.stay i (hb i hi), h.cnt, h.gone⟩

theorem relOK_track : RelOK Track := ⟨Frame.track, Track.trans, Track.mono⟩

/-- Contract of evaluation used for histories: it respects references, keeps every variable that
is still referenced, and may otherwise do what it likes. -/
abbrev EvOK (ev : M Unit) : Prop := EvSpec ev Track (fun r => r ≠ .ub)

/-- Running into a limit is no undefined behaviour. -/
theorem lim_ub (r : Stop) (h : r = .limit) : r ≠ .ub := by rw [h]; decide

theorem evOK_pure : EvOK (pure ()) := fun _ U _ h => ⟨U, h, Track.refl⟩

/-- Changes of the scope bookkeeping. -/
theorem track_scope (h1 : s'.variableCounter = s.variableCounter) (h2 : s'.len = s.len)
    (h3 : ∀ i, ∃ c, s'.vars i = { s.vars i with scope := c }) : Track b s U s' U := by
  have hal : ∀ i, Alive s' U i ↔ Alive s U i := by intro i; unfold Alive; rw [h2]
  refine ⟨h1.ge, h2.ge, ?_, ?_, ?_, ?_⟩
  · intro i hi _
    obtain ⟨c, e⟩ := h3 i
    rw [e]; exact ⟨(hal i).1 hi, rfl, rfl, rfl, rfl⟩
  · intro i _ hi
    obtain ⟨c, e⟩ := h3 i
    rw [e]; exact ⟨(hal i).2 hi, rfl⟩
  · intro i _
    obtain ⟨c, e⟩ := h3 i
    rw [e]
  · intro i hi
    obtain ⟨c, e⟩ := h3 i
    rw [e]; exact .inl ⟨(hal i).2 hi, rfl⟩

theorem Inv.setScopes (h : Inv s U ext extSe []) (c d : Nat) :
    Inv { s with scope := c, scopeCtr := d } U ext extSe [] :=
  ⟨h.rep, h.ub, h.len, h.dead, h.deps, h.uids, h.rc, h.rcSe, h.pend, h.nodup, h.lvn, h.lvnKeys,
    h.bal⟩

theorem newScope_spec (h : IInv s U u) :
    ∃ n s', newScope s = .ok n s' ∧ IInv s' U u ∧ Track b s U s' U := by
  refine ⟨_, _, rfl, ?_, ?_⟩
  · unfold scopeNext
    dsimp only
    split
    · exact ((compact_inv h).1).setScopes _ _
    · exact Inv.setScopes h _ _
  · unfold scopeNext
    dsimp only
    split
    · refine track_scope rfl rfl ?_
      intro i
      dsimp only
      rw [compact_vars h]
      split
      · exact ⟨_, rfl⟩
      · exact ⟨(s.vars i).scope, rfl⟩
    · exact track_scope rfl rfl (fun i => ⟨_, rfl⟩)

/-- The caller's references if one to `i` is given up. -/
def minus (u : Nat → Nat) (i : Nat) : Nat → Nat := fun k => if k = i then u k - 1 else u k

theorem plus_minus (h : 0 < u i) (hi : i ≠ 0) : plus (minus u i) [i] = u := by
  funext k
  unfold plus minus
  by_cases hk : k = i
  · subst hk; rw [if_pos rfl, if_neg hi]; simp; omega
  · rw [if_neg hk, List.count_cons_of_ne (fun e => hk e.symm)]; simp

theorem after_default (c : Call) (r : Nat) (h1 : ∀ i, c ≠ .decRef i)
    (h2 : ∀ i, c ≠ .markSideEffect i) : c.after u r = plus u [r] := by
  funext k
  have : c.after u r k = u k + (if r ≠ 0 ∧ k = r then 1 else 0) := by
    cases c <;> first | rfl | exact absurd rfl (h1 _) | exact absurd rfl (h2 _)
  rw [this]
  unfold plus
  by_cases hk : k = r
  · subst hk
    by_cases h0 : k = 0 <;> simp [h0]
  · rw [if_neg (fun e => hk e.2), List.count_cons_of_ne (fun e => hk e.symm)]; simp

theorem after_dec (i : Nat) : (Call.decRef i).after u 0 = minus u i := by
  funext k; simp [Call.after, minus]
theorem after_mark (i : Nat) : (Call.markSideEffect i).after u 0 = minus u i := by
  funext k; simp [Call.after, minus]

/-- What a legal call guarantees. -/
def CallPost (c : Call) (s : Store) (U : List Nat) (u : Nat → Nat) (r : Nat) (s' : Store) : Prop :=
  ∃ U', IInv s' U' (c.after u r) ∧ Track (fun i => min (u i) (c.after u r i)) s U s' U' ∧
    (r ≠ 0 → Alive s' U' r)

theorem callPost_of (c : Call) (h1 : ∀ i, c ≠ .decRef i) (h2 : ∀ i, c ≠ .markSideEffect i)
    {r : Nat} (hi : IInv s' U' (plus u [r])) (ht : Track u s U s' U')
    (hr : r ≠ 0 → Alive s' U' r) : CallPost c s U u r s' := by
  refine ⟨U', ?_, ht.mono (fun i h => by omega), hr⟩
  rw [after_default c r h1 h2]; exact hi

theorem call_spec {ev : M Unit} (hev : EvOK ev) (h : IInv s U u) {c : Call} (hl : c.legal u) :
    wp (c.exec ev) s (CallPost c s U u)
      (fun s' => ∃ U', IInv s' U' u ∧ Track u s U s' U') (fun r => r ≠ .ub) := by
  have fr : ∀ {s' : Store}, s' = s → ∃ U', IInv s' U' u ∧ Track u s U s' U' := by
    rintro _ rfl; exact ⟨U, h, Track.refl⟩
  cases c with
  | literal b t x n =>
    refine wp_mono (varLiteral_spec h) ?_ (fun s' hs => fr hs.1) lim_ub
    rintro r s' ⟨U', a1, a2, a3⟩
    refine callPost_of _ (by simp) (by simp) (IInv.of_frame a1 a2) a2.user.track ?_
    rcases a3 with a3 | a3
    · exact fun hr => absurd a3.2 hr
    · exact fun _ => a3.2.1
  | undefined b t n =>
    refine wp_mono (varUndefined_spec h) ?_ (fun s' hs => fr hs.1) lim_ub
    rintro r s' ⟨U', a1, a2, a3⟩
    refine callPost_of _ (by simp) (by simp) (IInv.of_frame a1 a2) a2.user.track ?_
    rcases a3 with a3 | a3
    · exact fun hr => absurd a3.2 hr
    · exact fun _ => a3.2
  | counter b n =>
    refine wp_mono (varCounter_spec h) ?_ (fun s' hs => fr hs.1) lim_ub
    rintro r s' ⟨U', a1, a2, a3⟩
    exact callPost_of _ (by simp) (by simp) (IInv.of_frame a1 a2) a2.user.track (fun _ => a3)
  | memMap b t p n f =>
    refine wp_mono (varMemMap_spec h) ?_ (fun s' hs => fr hs.1) lim_ub
    rintro r s' ⟨U', a1, a2, a3⟩
    refine callPost_of _ (by simp) (by simp) (IInv.of_frame a1 a2) a2.user.track ?_
    rcases a3 with a3 | a3
    · exact fun hr => absurd a3.2 hr
    · exact fun _ => a3.2.1
  | pointer b x d w =>
    refine wp_mono (varPointer_spec (R := fun s' => False) h ?_) ?_ (fun _ => False.elim)
      lim_ub
    · by_cases hd : d = 0
      · exact .inl hd
      · refine .inr (h.alive_of_ext (plus_pos_left (hl d ?_)))
        simp [Call.operands, hd]
    rintro r s' ⟨U', a1, a2, a3⟩
    exact callPost_of _ (by simp) (by simp) (IInv.of_frame a1 a2) a2.user.track (fun _ => a3)
  | node0 b k t n sy p =>
    refine wp_post (newNode0_spec (T := fun r => r ≠ .ub) relOK_track (by decide) h) ?_
    rintro r s' ⟨U', a1, a2, a3, _⟩
    exact callPost_of _ (by simp) (by simp) a1 a2 (fun _ => a3)
  | node1 b k t n sy a0 p =>
    refine wp_post (newNode1_spec (T := fun r => r ≠ .ub) relOK_track (by decide) hev h (hl a0 (by simp [Call.operands]))) ?_
    rintro r s' ⟨U', a1, a2, a3, _⟩
    exact callPost_of _ (by simp) (by simp) a1 a2 (fun _ => a3)
  | node2 b k t n sy a0 a1 p =>
    refine wp_post (newNode2_spec (T := fun r => r ≠ .ub) relOK_track (by decide) hev h (hl a0 (by simp [Call.operands]))
      (hl a1 (by simp [Call.operands]))) ?_
    rintro r s' ⟨U', a1, a2, a3, _⟩
    exact callPost_of _ (by simp) (by simp) a1 a2 (fun _ => a3)
  | node3 b k t n sy a0 a1 a2 p =>
    refine wp_post (newNode3_spec (T := fun r => r ≠ .ub) relOK_track (by decide) hev h (hl a0 (by simp [Call.operands]))
      (hl a1 (by simp [Call.operands])) (hl a2 (by simp [Call.operands]))) ?_
    rintro r s' ⟨U', a1, a2, a3, _⟩
    exact callPost_of _ (by simp) (by simp) a1 a2 (fun _ => a3)
  | node4 b k t n sy a0 a1 a2 a3 p =>
    refine wp_post (newNode4_spec (T := fun r => r ≠ .ub) relOK_track (by decide) hev h (hl a0 (by simp [Call.operands]))
      (hl a1 (by simp [Call.operands])) (hl a2 (by simp [Call.operands]))
      (hl a3 (by simp [Call.operands]))) ?_
    rintro r s' ⟨U', a1, a2, a3, _⟩
    exact callPost_of _ (by simp) (by simp) a1 a2 (fun _ => a3)
  | resize i n =>
    refine wp_post (varResize_spec (T := fun r => r ≠ .ub) relOK_track (by decide) hev h (hl i (by simp [Call.operands]))) ?_
    rintro r s' ⟨U', a1, a2, a3⟩
    refine callPost_of _ (by simp) (by simp) a1 a2 ?_
    rcases a3 with a3 | a3
    · exact fun hr => absurd a3.2 hr
    · exact fun _ => a3.1
  | incRef i =>
    have hi := h.alive_of_ext (plus_pos_left (l := s.sideEffects) (hl i (by simp [Call.operands])))
    unfold Call.exec
    rw [wp_bind]
    refine wp_mono (incRef_spec (base := u) (R := fun _ => False) h (.inr hi)) ?_
      (fun _ => False.elim) lim_ub
    rintro _ s' ⟨a1, a2⟩
    rw [wp_pure]
    refine callPost_of _ (by simp) (by simp) (IInv.of_frame a1 a2) a2.track (fun _ => ?_)
    exact (a2.stay i (hl i (by simp [Call.operands])) hi).1
  | decRef i =>
    have hp := hl i (by simp [Call.operands])
    have hi := h.alive_of_ext (plus_pos_left (l := s.sideEffects) hp)
    unfold Call.exec
    rw [wp_bind]
    have h' : Inv s U (plus (plus (minus u i) s.sideEffects) [i]) (fun _ => 0) [] := by
      rw [plus_comm, plus_minus hp hi.1]; exact h
    refine wp_mono (decRef_spec (R := fun _ => False) (T := fun r => r ≠ .ub) h') ?_
      (fun _ => False.elim) (fun _ => id)
    rintro _ s' ⟨U', a1, a2, _⟩
    rw [wp_pure]
    refine ⟨U', ?_, ?_, fun e => absurd rfl e⟩
    · rw [after_dec]; unfold IInv; rw [a2.side]; exact a1
    · rw [after_dec]
      exact a2.track.mono (fun k hk => by unfold plus; omega)
  | markSideEffect i =>
    have hp := hl i (by simp [Call.operands])
    have hi := h.alive_of_ext (plus_pos_left (l := s.sideEffects) hp)
    change wp (do markSideEffect i; pure 0) s _ _ _
    unfold markSideEffect
    rw [if_neg hi.1]
    simp only [wp_bind]
    rw [wp_getVar h hi, wp_modifyStore, wp_pure]
    refine ⟨U, ?_, ?_, fun e => absurd rfl e⟩
    · rw [after_mark]
      unfold IInv
      have e : plus (minus u i) (s.sideEffects ++ [i]) = plus u s.sideEffects := by
        rw [← plus_minus hp hi.1]
        funext k
        unfold plus
        rw [List.count_append]
        by_cases hk : k = i
        · subst hk; simp [hi.1, minus]; omega
        · have : List.count k [i] = 0 := by rw [List.count_eq_zero]; simpa using hk
          simp [minus, hk]; split <;> omega
      dsimp only
      rw [e]
      exact ⟨h.rep, h.ub, h.len, h.dead, h.deps, h.uids, h.rc, h.rcSe, h.pend, h.nodup, h.lvn,
        h.lvnKeys, h.bal⟩
    · exact ⟨le_refl _, le_refl _, fun k hk _ => ⟨hk, rfl, rfl, rfl, rfl⟩, fun k _ hk => ⟨hk, rfl⟩,
        fun _ _ => le_refl _, fun k hk => .inl ⟨hk, rfl⟩⟩
  | eval =>
    unfold Call.exec
    rw [wp_bind]
    refine wp_post (hev s U u h) ?_
    rintro _ s' ⟨U', a1, a2⟩
    rw [wp_pure]
    exact callPost_of _ (by simp) (by simp) (by rw [plus_zero1]; exact a1) a2
      (fun e => absurd rfl e)
  | newScope =>
    obtain ⟨n, s', e, a1, a2⟩ := newScope_spec (b := u) h
    unfold Call.exec
    rw [wp_bind]
    unfold wp
    rw [e]
    exact callPost_of _ (by simp) (by simp) (by rw [plus_zero1]; exact a1) a2
      (fun e => absurd rfl e)
  | advanceScope n =>
    unfold Call.exec
    rw [wp_bind]
    exact callPost_of _ (by simp) (by simp) (by rw [plus_zero1]; exact Inv.setScopes h _ _)
      (track_scope rfl rfl (fun i => ⟨_, rfl⟩)) (fun e => absurd rfl e)
  | setScope n =>
    unfold Call.exec
    rw [wp_bind]
    exact callPost_of _ (by simp) (by simp) (by rw [plus_zero1]; exact Inv.setScope h _)
      (track_scope rfl rfl (fun i => ⟨_, rfl⟩)) (fun e => absurd rfl e)

theorem cleanOps_clean {ev ev' : M Unit} {ops again : List Nat}
    (h : ∀ a ∈ ops, (s.vars a).isDirty = false) :
    cleanOps ev ops again s = cleanOps ev' ops again s := by
  have hn : ¬ ops.any (fun a => (s.vars a).isDirty) = true := by
    rw [List.any_eq_true]
    rintro ⟨a, ha, hd⟩
    rw [h a ha] at hd; cases hd
  unfold cleanOps
  rw [if_neg hn, if_neg hn]

theorem ite_run {α : Type} {c : Prop} [Decidable c] (m m' : M α) (s : Store) :
    (if c then m else m') s = if c then m s else m' s := by split <;> rfl

theorem bind_ok {α β : Type} {m : M α} {f : α → M β} {a : α} (h : m s = .ok a s') :
    (m >>= f) s = f a s' := by
  simp only [bind, h]

theorem bind_abort {α β : Type} {m : M α} {f : α → M β} (h : m s = .abort) :
    (m >>= f) s = .abort := by
  simp only [bind, h]

theorem bind_clean {α : Type} {ev ev' : M Unit} {ops again : List Nat}
    (h : ∀ a ∈ ops, (s.vars a).isDirty = false) (f : Unit → M α) :
    (cleanOps ev ops again >>= f) s = (cleanOps ev' ops again >>= f) s := by
  simp only [bind]
  rw [cleanOps_clean (ev := ev) (ev' := ev') h]

/-- Calls on operands without pending writes do not evaluate anything. -/
theorem exec_clean {ev ev' : M Unit} {c : Call} (hc : c ≠ .eval)
    (h : ∀ a ∈ c.operands, (s.vars a).isDirty = false) : c.exec ev s = c.exec ev' s := by
  cases c with
  | node1 b k t n sy a0 p =>
    simp only [Call.exec, newNode1, bind]
    rw [cleanOps_clean (ev := ev) (ev' := ev') (by simpa [Call.operands] using h)]
  | node2 b k t n sy a0 a1 p =>
    simp only [Call.exec, newNode2, bind]
    rw [cleanOps_clean (ev := ev) (ev' := ev') (by simpa [Call.operands] using h)]
  | node3 b k t n sy a0 a1 a2 p =>
    simp only [Call.exec, newNode3, bind]
    rw [cleanOps_clean (ev := ev) (ev' := ev') (by simpa [Call.operands] using h)]
  | node4 b k t n sy a0 a1 a2 a3 p =>
    simp only [Call.exec, newNode4, bind]
    rw [cleanOps_clean (ev := ev) (ev' := ev') (by simpa [Call.operands] using h)]
  | resize i n =>
    have hd : ∀ a ∈ [i], (s.vars a).isDirty = false := by simpa [Call.operands] using h
    have hg : getVar i s = .abort ∨ getVar i s = .ok (s.vars i) s := by
      unfold getVar; split
      · exact .inl rfl
      · exact .inr rfl
    simp only [Call.exec, varResize, ite_run]
    congr 1
    congr 1
    rcases hg with hg | hg
    · rw [bind_abort hg, bind_abort hg]
    · rw [bind_ok hg, bind_ok hg]
      simp only [ite_run]
      congr 1
      congr 1
      congr 1
      exact bind_clean hd _
  | eval => exact absurd rfl hc
  | _ => rfl

theorem evSpec_frame_pure {T : Stop → Prop} : EvSpec (pure ()) Frame T :=
  fun _ U _ h => ⟨U, h, Frame.refl⟩

/-- Calls that do not evaluate anything leave the variables alone. -/
theorem call_frame (h : IInv s U u) {c : Call} (hl : c.legal u)
    (hc : c.request.isSome = true ∨ (∃ i, c = .decRef i) ∨ (∃ i n, c = .resize i n) ∨
      ∃ b t x n f, c = .memMap b t x n f) {r : Nat} (he : c.exec (pure ()) s = .ok r s') :
    ∃ U', IInv s' U' (c.after u r) ∧ Frame (fun i => min (u i) (c.after u r i)) s U s' U' := by
  have fin : ∀ {U' : List Nat}, (∀ i, c ≠ .decRef i) → (∀ i, c ≠ .markSideEffect i) →
      IInv s' U' (plus u [r]) → Frame u s U s' U' →
      ∃ U', IInv s' U' (c.after u r) ∧ Frame (fun i => min (u i) (c.after u r i)) s U s' U' := by
    intro U' h1 h2 hi hf
    refine ⟨U', ?_, hf.mono (fun i h => by omega)⟩
    rw [after_default c r h1 h2]; exact hi
  cases c with
  | literal b t x n =>
    obtain ⟨U', a1, a2, _⟩ := wp_ok (varLiteral_spec h) he
    exact fin (by simp) (by simp) (IInv.of_frame a1 a2) a2.user
  | memMap b t p n f =>
    obtain ⟨U', a1, a2, _⟩ := wp_ok (varMemMap_spec h) he
    exact fin (by simp) (by simp) (IInv.of_frame a1 a2) a2.user
  | node0 b k t n sy p =>
    obtain ⟨U', a1, a2, _⟩ := wp_ok (newNode0_spec (R := fun _ => True)
      (T := fun r => r ≠ .ub) relOK_frame (by decide) h) he
    exact fin (by simp) (by simp) a1 a2
  | node1 b k t n sy x0 p =>
    obtain ⟨U', a1, a2, _⟩ := wp_ok (newNode1_spec (T := fun r => r ≠ .ub)
      relOK_frame (by decide) evSpec_frame_pure h (hl x0 (by simp [Call.operands]))) he
    exact fin (by simp) (by simp) a1 a2
  | node2 b k t n sy x0 x1 p =>
    obtain ⟨U', a1, a2, _⟩ := wp_ok (newNode2_spec (T := fun r => r ≠ .ub)
      relOK_frame (by decide) evSpec_frame_pure h (hl x0 (by simp [Call.operands]))
      (hl x1 (by simp [Call.operands]))) he
    exact fin (by simp) (by simp) a1 a2
  | node3 b k t n sy x0 x1 x2 p =>
    obtain ⟨U', a1, a2, _⟩ := wp_ok (newNode3_spec (T := fun r => r ≠ .ub)
      relOK_frame (by decide) evSpec_frame_pure h (hl x0 (by simp [Call.operands]))
      (hl x1 (by simp [Call.operands])) (hl x2 (by simp [Call.operands]))) he
    exact fin (by simp) (by simp) a1 a2
  | node4 b k t n sy x0 x1 x2 x3 p =>
    obtain ⟨U', a1, a2, _⟩ := wp_ok (newNode4_spec (T := fun r => r ≠ .ub)
      relOK_frame (by decide) evSpec_frame_pure h (hl x0 (by simp [Call.operands]))
      (hl x1 (by simp [Call.operands])) (hl x2 (by simp [Call.operands]))
      (hl x3 (by simp [Call.operands]))) he
    exact fin (by simp) (by simp) a1 a2
  | resize i n =>
    obtain ⟨U', a1, a2, _⟩ := wp_ok (varResize_spec (T := fun r => r ≠ .ub)
      relOK_frame (by decide) evSpec_frame_pure h (hl i (by simp [Call.operands]))) he
    exact fin (by simp) (by simp) a1 a2
  | decRef i =>
    have hp := hl i (by simp [Call.operands])
    have hi := h.alive_of_ext (plus_pos_left (l := s.sideEffects) hp)
    have h' : Inv s U (plus (plus (minus u i) s.sideEffects) [i]) (fun _ => 0) [] := by
      rw [plus_comm, plus_minus hp hi.1]; exact h
    have hw : wp (do decRef i; pure 0) s (fun r s' => r = 0 ∧ ∃ U',
        Inv s' U' (plus (minus u i) s.sideEffects) (fun _ => 0) [] ∧
        Frame (plus (minus u i) s.sideEffects) s U s' U') (fun _ => False) (fun _ => True) := by
      rw [wp_bind]
      refine wp_mono (decRef_spec (R := fun _ => False) (T := fun _ => True) h') ?_
        (fun _ => id) (fun _ => id)
      rintro _ s' ⟨U', a1, a2, _⟩
      exact ⟨rfl, U', a1, a2⟩
    obtain ⟨hr, U', a1, a2⟩ := wp_ok hw he
    subst hr
    refine ⟨U', ?_, ?_⟩
    · rw [after_dec]; unfold IInv; rw [a2.side]; exact a1
    · rw [after_dec]
      exact a2.mono (fun k hk => by unfold plus; omega)
  | _ => simp [Call.request] at hc

theorem init_inv {s : Store} (h1 : s.len = 1) (h2 : s.unused = {}) (h3 : s.lvn = [])
    (h4 : s.sideEffects = []) (h5 : s.freed = []) (h6 : s.acquired = [])
    (h7 : ∀ i, s.vars i = {}) : IInv s [] (fun _ => 0) := by
  have hna : ∀ i, ¬ Alive s [] i := by
    intro i hi
    have := hi.1; have := hi.2.1; omega
  unfold IInv
  rw [h4, plus_nil]
  refine ⟨?_, by simp, by rw [h1]; omega, ?_, ?_, ?_, ?_, ?_, ?_, List.nodup_nil, ?_, ?_, ?_⟩
  · rw [h2]; exact Verif.FreeSlots.rep_init
  · intro i _; rw [h7]; exact ⟨rfl, rfl, rfl, rfl⟩
  · intro i hi; exact absurd hi (hna i)
  · intro i hi; exact absurd hi (hna i)
  · intro i hi; exact absurd hi (hna i)
  · intro i hi; exact absurd hi (hna i)
  · intro i
    constructor
    · intro h; cases h
    · intro h; exact absurd h.1 (hna i)
  · rw [h3]; intro k i h; cases h
  · rw [h3]; exact List.nodup_nil
  · intro p
    rw [h5, h6]
    unfold owned
    rw [Finset.sum_eq_zero]
    · rfl
    · intro j _; rw [if_neg (fun h => hna j h.1)]

theorem step_spec {ev : M Unit} (hev : EvOK ev) (h : IInv s U u) {u' : Nat → Nat}
    (hs : Step ev s u s' u') :
    ∃ U', IInv s' U' u' ∧ Track (fun i => min (u i) (u' i)) s U s' U' := by
  cases hs with
  | ok hl e =>
    obtain ⟨U', a1, a2, _⟩ := wp_ok (call_spec hev h hl) e
    exact ⟨U', a1, a2⟩
  | raise hl e =>
    have := call_spec hev h hl
    unfold wp at this
    rw [e] at this
    obtain ⟨U', a1, a2⟩ := this
    exact ⟨U', a1, a2.mono (fun i hi => by omega)⟩

theorem reachable_inv {ev : M Unit} (hev : EvOK ev) (h : Reachable ev s u) : ∃ U, IInv s U u := by
  induction h with
  | init => exact ⟨[], init_inv rfl rfl rfl rfl rfl rfl (fun _ => rfl)⟩
  | step _ hs ih =>
    obtain ⟨U, hi⟩ := ih
    obtain ⟨U', h', _⟩ := step_spec hev hi hs
    exact ⟨U', h'⟩

theorem steps_spec {ev : M Unit} (hev : EvOK ev) {Q : (Nat → Nat) → Prop} (h : IInv s U u)
    {u' : Nat → Nat} (hs : Steps ev Q s u s' u') {b : Nat → Nat}
    (hb : ∀ w, Q w → ∀ i, 0 < b i → 0 < w i) :
    Q u' ∧ ∃ U', IInv s' U' u' ∧ Track b s U s' U' := by
  induction hs with
  | refl hq => exact ⟨hq, U, h, Track.refl⟩
  | step _ hst hq ih =>
    obtain ⟨hq0, U1, i1, t1⟩ := ih h
    obtain ⟨U2, i2, t2⟩ := step_spec hev i1 hst
    refine ⟨hq, U2, i2, t1.trans (t2.mono (fun i hi => ?_))⟩
    have := hb _ hq0 i hi
    have := hb _ hq i hi
    omega

theorem live_iff (h : Inv s U ext extSe []) (i : Nat) : Live s i ↔ Alive s U i := by
  unfold Live
  constructor
  · intro hl
    by_contra hn
    have hd := h.dead i hn
    unfold getVar at hl
    rw [if_pos (.inr (.inr ⟨hd.1, hd.2.1⟩))] at hl
    cases hl
  · exact fun hi => h.getVar_ok hi

end Verif.Var
