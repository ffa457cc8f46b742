import Verif.Jit.Strip
/-!
# The cleanup loop
-/
namespace Verif.Jit
open Verif.Var Verif.Ops Verif.Gather

variable {s s' s'' : Store} {U U' U'' : List Nat} {u ext extSe base : Nat → Nat}
  {data : Nat → BitVec 64} {R S : List Nat}

theorem Became.none {k : Nat} {v w : Var} (h : Became data [] [] k v w) : w.body = v.body := by
  rcases h with h | ⟨m, _⟩ | ⟨m, _⟩
  · exact h
  · rcases m with m | m <;> cases m
  · cases m

theorem plus_erase {i : Nat} {L : List Nat} (h : i ∈ L) : plus u L = plus (plus u (L.erase i)) [i] := by
  funext k
  unfold plus
  split
  · rfl
  · rename_i hk
    by_cases hi : k = i
    · subst hi
      have := List.count_pos_iff.2 h
      rw [List.count_erase_self]
      simp
      omega
    · rw [List.count_erase_of_ne hi]
      have : List.count k [i] = 0 := by rw [List.count_eq_zero]; simp [hi]
      omega

/-- What the cleanup loop achieves. -/
def CleanPost (data : Nat → BitVec 64) (l : List Eval.SV) (out se pend : List Nat) (u : Nat → Nat)
    (s : Store) (U : List Nat) (L : List Nat) (s' : Store) : Prop :=
  ∃ U', Inv s' U' (plus u L) (fun _ => 0) [] ∧ VRel data out se u s U s' U' ∧ Same s s' ∧
    (∀ x ∈ l, x.index ∈ out → (s.vars x.index).size = x.size → Alive s' U' x.index →
      (s'.vars x.index).body = ((s.vars x.index).stored (data x.index)).body) ∧
    ∀ k, L.count k + (if k ∈ se ∧ k ∈ l.map Eval.SV.index then 1 else 0) = pend.count k

theorem cleanup_spec : ∀ (l : List Eval.SV) {s : Store} {U out se pend : List Nat},
    Inv s U (plus (plus u pend) (l.map Eval.SV.index)) (fun _ => 0) [] →
    (∀ x ∈ l, x.index ≠ 0) →
    (∀ i ∈ out, Alive s U i → (s.vars i).kind ≠ .evaluated) → (∀ i ∈ se, i ∈ pend) →
    wp (cleanup data l out se pend) s (CleanPost data l out se pend u s U) (fun _ => False)
      (· = .unmodelled)
  | [], s, U, out, se, pend, h, _, _, _ => by
    unfold cleanup
    rw [wp_pure]
    rw [List.map_nil, plus_nil] at h
    exact ⟨U, h, VRel.refl, Same.refl, by simp, by simp⟩
  | x :: l, s, U, out, se, pend, h, h0, hk, hse => by
    rw [List.map_cons, plus_cons] at h
    have hi : Alive s U x.index := h.alive_of_ext (by
      rw [plus_self (h0 x (by simp))]; omega)
    have hl0 : ∀ y ∈ l, y.index ≠ 0 := fun y hy => h0 y (by simp [hy])
    unfold cleanup
    rw [wp_bind, wp_getVar h hi, wp_ite]
    by_cases hc : x.index ∉ out ∧ x.index ∉ se
    · rw [if_pos hc, wp_bind]
      refine wp_mono (decRef_v (data := data) (R := []) (S := []) h (Rr := fun _ => False)
        (T := fun _ => False)) ?_ (fun _ => id) (fun _ h => h.elim)
      rintro _ s1 ⟨U1, a1, a2, a3⟩
      have hb : ∀ k, Alive s1 U1 k → (s1.vars k).body = (s.vars k).body :=
        fun k hk' => (a2.keep k hk').2.none
      refine wp_post (cleanup_spec l a1 hl0 ?_ hse) ?_
      · intro i hio hia
        rw [body_kind (hb i hia)]
        exact hk i hio (a2.keep i hia).1
      rintro L s2 ⟨U2, b1, b2, b3, b4, b5⟩
      refine ⟨U2, b1, (a2.mono (fun _ hp => plus_pos_left (plus_pos_left hp)) (fun _ hm => nomatch hm)
        (fun _ hm => nomatch hm)).trans b2, a3.trans b3, ?_, ?_⟩
      · intro y hy hyo hys hya
        rcases List.mem_cons.1 hy with rfl | hy
        · exact absurd hyo hc.1
        · rw [b4 y hy hyo (by rw [a2.size]; exact hys) hya, stored_body, stored_body,
            hb _ (b2.keep _ hya).1]
      · intro k
        rw [← b5 k, List.map_cons]
        congr 1
        have : (k ∈ se ∧ k ∈ x.index :: l.map Eval.SV.index) ↔ (k ∈ se ∧ k ∈ l.map Eval.SV.index) := by
          constructor
          · rintro ⟨m1, m2⟩
            rcases List.mem_cons.1 m2 with rfl | m2
            · exact absurd m1 hc.2
            · exact ⟨m1, m2⟩
          · rintro ⟨m1, m2⟩
            exact ⟨m1, List.mem_cons_of_mem _ m2⟩
        simp only [this]
    rw [if_neg hc]
    have hc' : x.index ∈ out ∨ x.index ∈ se := by tauto
    rw [wp_ite]
    by_cases hw : (s.vars x.index).writePtr = true
    · rw [if_pos hw, wp_stop]
    rw [if_neg hw]
    have hw' : (s.vars x.index).writePtr = false := by simpa using hw
    generalize hdn : (decide (x.index ∈ out) && decide ((s.vars x.index).size = x.size)) = done
    dsimp only
    have hdo : done = true → x.index ∈ out := by
      intro hd; rw [← hdn] at hd
      simp only [Bool.and_eq_true, decide_eq_true_eq] at hd; exact hd.1
    have hkd : done = true → (s.vars x.index).kind ≠ .evaluated := fun hd => hk _ (hdo hd) hi
    rw [wp_bind, wp_modifyStore]
    obtain ⟨c1, c2, c3, c4, c5, c6, c7⟩ := strip_spec h hi hw' (p := data x.index) hkd
    have c8 : VRel data out se u s U (s.strip x.index done (data x.index)) U :=
      strip_v h hi hw' hkd hdo hc'
    generalize s.strip x.index done (data x.index) = s1 at c1 c2 c3 c4 c5 c6 c7 c8
    generalize hD : [(s.vars x.index).d0, (s.vars x.index).d1, (s.vars x.index).d2,
      (s.vars x.index).d3] = D at c1
    rw [plus_comm] at c1
    rw [wp_bind]
    refine wp_mono (decRef_v (data := data) (R := []) (S := []) c1 (Rr := fun _ => False)
      (T := fun _ => False)) ?_ (fun _ => id) (fun _ h => h.elim)
    rintro _ s2 ⟨U2, d1, d2, d3⟩
    -- the reference of the queue
    generalize hp' : (if x.index ∈ se then pend.erase x.index else pend) = pend'
    have hmid : wp (decRefs (if x.index ∈ se then [x.index] else [])) s2
        (fun _ s3 => ∃ U3, Inv s3 U3 (plus (plus (plus u pend') (l.map Eval.SV.index)) D) (fun _ => 0) [] ∧
          VRel data [] [] (plus (plus (plus u pend') (l.map Eval.SV.index)) D) s2 U2 s3 U3 ∧ Same s2 s3)
        (fun _ => False) (· = .unmodelled) := by
      by_cases hs : x.index ∈ se
      · rw [if_pos hs] at hp' ⊢
        subst hp'
        have e : plus (plus (plus u pend) (l.map Eval.SV.index)) D =
            plus (plus (plus (plus u (pend.erase x.index)) (l.map Eval.SV.index)) D) [x.index] := by
          rw [plus_erase (hse _ hs)]
          rw [plus_comm (u := plus u (pend.erase x.index)) [x.index]]
          rw [plus_comm (u := plus (plus u (pend.erase x.index)) (l.map Eval.SV.index)) [x.index]]
        rw [e] at d1
        exact decRefs_v [x.index] d1
      · rw [if_neg hs] at hp' ⊢
        subst hp'
        exact ⟨U2, d1, VRel.refl, Same.refl⟩
    rw [wp_bind]
    refine wp_post hmid ?_
    rintro _ s3 ⟨U3, e1, e2, e3⟩
    rw [wp_bind]
    refine wp_mono (decRefs_v (data := data) (R := []) (S := []) D e1 (Rr := fun _ => False)
      (T := fun _ => False)) ?_ (fun _ => id) (fun _ h => h.elim)
    rintro _ s4 ⟨U4, f1, f2, f3⟩
    have d2' : VRel data [] [] u s1 U s2 U2 := d2.mono
      (fun _ hp => plus_pos_left (plus_pos_left (plus_pos_left hp))) (fun _ => id) (fun _ => id)
    have e2' : VRel data [] [] u s2 U2 s3 U3 := e2.mono
      (fun _ hp => plus_pos_left (plus_pos_left (plus_pos_left hp))) (fun _ => id) (fun _ => id)
    have f2' : VRel data [] [] u s3 U3 s4 U4 := f2.mono
      (fun _ hp => plus_pos_left (plus_pos_left hp)) (fun _ => id) (fun _ => id)
    have r14 : VRel data [] [] u s1 U s4 U4 := (d2'.trans e2').trans f2'
    have hb : ∀ k, Alive s4 U4 k → Alive s1 U k ∧ (s4.vars k).body = (s1.vars k).body :=
      fun k hk' => ⟨(r14.keep k hk').1, (r14.keep k hk').2.none⟩
    generalize hout : (if done then out.filter (· ≠ x.index) else out) = out'
    have ho' : ∀ k ∈ out', k ∈ out ∧ (k = x.index → done = false) := by
      intro k hko
      rw [← hout] at hko
      cases done with
      | true =>
        rw [if_pos rfl] at hko
        obtain ⟨m1, m2⟩ := List.mem_filter.1 hko
        exact ⟨m1, fun e => absurd e (of_decide_eq_true m2)⟩
      | false => exact ⟨hko, fun _ => rfl⟩
    have hs' : ∀ k ∈ se.filter (· ≠ x.index), k ∈ se ∧ k ≠ x.index := by
      intro k hko
      obtain ⟨m1, m2⟩ := List.mem_filter.1 hko
      exact ⟨m1, of_decide_eq_true m2⟩
    refine wp_post (cleanup_spec l (out := out') (se := se.filter (· ≠ x.index)) (pend := pend')
      f1 hl0 ?_ ?_) ?_
    · intro k hko hka
      obtain ⟨g1, g2⟩ := hb k hka
      rw [body_kind g2]
      obtain ⟨m1, m2⟩ := ho' k hko
      have ha := (c8.keep k g1).1
      by_cases hki : k = x.index
      · subst hki
        rw [c2, m2 rfl, if_neg (by decide)]
        exact hk _ m1 ha
      · rw [c3 k hki]; exact hk k m1 ha
    · intro k hks
      obtain ⟨m1, m2⟩ := hs' k hks
      rw [← hp']
      split
      · exact (List.mem_erase_of_ne m2).2 (hse k m1)
      · exact hse k m1
    rintro L s5 ⟨U5, g1, g2, g3, g4, g5⟩
    refine ⟨U5, g1, ?_, ((c7.trans d3).trans (e3.trans f3)).trans g3, ?_, ?_⟩
    · exact (c8.trans (r14.mono (fun _ => id) (fun _ hm => nomatch hm) (fun _ hm => nomatch hm))).trans
        (g2.mono (fun _ => id) (fun k hk' => (ho' k hk').1) (fun k hk' => (hs' k hk').1))
    · intro y hy hyo hys hya
      have ha4 := (g2.keep _ hya).1
      obtain ⟨ha1, hb4⟩ := hb _ ha4
      by_cases hyi : y.index = x.index
      · cases hd : done with
        | true =>
          have hbec := (g2.keep _ hya).2
          have hb5 : (s5.vars y.index).body = (s4.vars y.index).body := by
            rcases hbec with q | ⟨m, _⟩ | ⟨m, _⟩
            · exact q
            · rcases m with m | m
              · exact absurd ((ho' _ m).2 hyi) (by rw [hd]; decide)
              · exact absurd hyi (hs' _ m).2
            · exact absurd ((ho' _ m).2 hyi) (by rw [hd]; decide)
          rw [hb5, hb4, hyi, c2, hd, if_pos rfl]
        | false =>
          have hyl : y ∈ l := by
            rcases List.mem_cons.1 hy with rfl | hyl
            · rw [hd] at hdn
              simp only [Bool.and_eq_false_iff, decide_eq_false_iff_not] at hdn
              rcases hdn with q | q
              · exact absurd hyo q
              · exact absurd hys q
            · exact hyl
          have hyo' : y.index ∈ out' := by
            rw [← hout, hd, if_neg (by decide)]; exact hyo
          rw [g4 y hyl hyo' (by rw [r14.size, c8.size]; exact hys) hya, stored_body, hb4, hyi, c2, hd,
            if_neg (by decide)]
          rfl
      · have hyl : y ∈ l := by
          rcases List.mem_cons.1 hy with rfl | hyl
          · exact absurd rfl hyi
          · exact hyl
        have hyo' : y.index ∈ out' := by
          rw [← hout]
          split
          · exact List.mem_filter.2 ⟨hyo, decide_eq_true hyi⟩
          · exact hyo
        rw [g4 y hyl hyo' (by rw [r14.size, c8.size]; exact hys) hya, stored_body, stored_body, hb4,
          c3 _ hyi]
    · intro k
      have q := g5 k
      by_cases hki : k = x.index
      · subst hki
        have n1 : ¬ (x.index ∈ se.filter (· ≠ x.index) ∧ x.index ∈ l.map Eval.SV.index) :=
          fun m => (hs' _ m.1).2 rfl
        rw [if_neg n1] at q
        rw [← hp'] at q
        by_cases hs : x.index ∈ se
        · rw [if_pos ⟨hs, by simp⟩]
          rw [if_pos hs, List.count_erase_self] at q
          have := List.count_pos_iff.2 (hse _ hs)
          omega
        · rw [if_neg (fun m => hs m.1)]
          rw [if_neg hs] at q
          exact q
      · have e1 : (k ∈ se ∧ k ∈ (x :: l).map Eval.SV.index) ↔
            (k ∈ se.filter (· ≠ x.index) ∧ k ∈ l.map Eval.SV.index) := by
          simp [List.mem_filter, hki]
        have e2 : pend'.count k = pend.count k := by
          rw [← hp']
          split
          · exact List.count_erase_of_ne hki
          · rfl
        rw [← e2, ← q]
        simp only [e1]

end Verif.Jit
