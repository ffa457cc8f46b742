import Verif.Reorder.Model
import Mathlib.Data.List.Forall2

/-!
# C99: Reordering of threads
-/
namespace Verif.Reorder

/-- States of the variable array: free slots are not referenced. -/
structure WF (s : St) : Prop where
  free : ∀ i ∈ s.free, s.rc i = 0 ∧ i < s.used
  nodup : s.free.Nodup
  out : ∀ i, s.used ≤ i → s.rc i = 0

theorem WF.alloc {s : St} (h : WF s) (v : Var) : WF (alloc v s).2 ∧ s.rc (alloc v s).1 = 0 ∧ (alloc v s).2.rc = Function.update s.rc (alloc v s).1 1 ∧
    (alloc v s).2.vars = Function.update s.vars (alloc v s).1 v ∧ (alloc v s).2.scope = s.scope := by
  unfold Reorder.alloc
  cases hf : s.free with
  | nil =>
    dsimp only
    refine ⟨⟨fun i hi => (by cases hi), List.nodup_nil, fun i hi => ?_⟩, h.out _ (Nat.le_refl _), rfl, rfl, rfl⟩
    dsimp only at hi ⊢
    rw [Function.update_of_ne (by omega)]
    exact h.out i (by omega)
  | cons x rest =>
    dsimp only
    have hx := h.free x (by rw [hf]; exact List.mem_cons_self)
    have hn := h.nodup
    rw [hf, List.nodup_cons] at hn
    refine ⟨⟨fun i hi => ?_, hn.2, fun i hi => ?_⟩, hx.1, rfl, rfl, rfl⟩
    · dsimp only at hi ⊢
      have hne : i ≠ x := fun e => hn.1 (e ▸ hi)
      rw [Function.update_of_ne hne]
      exact h.free i (by rw [hf]; exact List.mem_cons_of_mem _ hi)
    · dsimp only at hi ⊢
      rw [Function.update_of_ne (by omega)]
      exact h.out i hi

theorem WF.incRef {s : St} (h : WF s) {i : Nat} (hi : 0 < s.rc i) (p : Nat) : WF (incRef i p s) ∧ (∀ j, 0 < s.rc j ↔ 0 < (incRef i p s).rc j) ∧ (∀ j, s.rc j ≤ (incRef i p s).rc j) ∧
    (incRef i p s).vars = s.vars ∧ (incRef i p s).scope = s.scope ∧ (incRef i p s).gen = s.gen := by
  unfold Reorder.incRef
  by_cases hp : p = s.gen
  · rw [if_pos hp]
    have key : ∀ j, 0 < s.rc j ↔ 0 < Function.update s.rc i (s.rc i + 1) j := by
      intro j
      by_cases hj : j = i
      · subst hj; rw [Function.update_self]; omega
      · rw [Function.update_of_ne hj]
    have key2 : ∀ j, s.rc j = 0 → Function.update s.rc i (s.rc i + 1) j = 0 := fun j hj => by have := key j; omega
    refine ⟨⟨fun j hj => ⟨key2 j (h.free j hj).1, (h.free j hj).2⟩, h.nodup, fun j hj => key2 j (h.out j hj)⟩, key, fun j => ?_, rfl, rfl, rfl⟩
    dsimp only
    by_cases hj : j = i
    · subst hj; rw [Function.update_self]; omega
    · rw [Function.update_of_ne hj]; exact Nat.le_refl _
  · rw [if_neg hp]
    exact ⟨h, fun j => Iff.rfl, fun j => Nat.le_refl _, rfl, rfl, rfl⟩

theorem loop_spec (r p : Nat) : ∀ (xs : List Nat) (s : St), WF s → (∀ x ∈ xs, 0 < s.rc x) → 0 < s.rc r →
    WF (loop r p xs s).2 ∧ (∀ i, 0 < s.rc i → (loop r p xs s).2.vars i = s.vars i ∧ s.rc i ≤ (loop r p xs s).2.rc i) ∧
    List.Forall₂ (fun x o => (loop r p xs s).2.vars o = bitcastNode (s.vars x) x r s.scope ∧ s.rc o = 0 ∧ 0 < (loop r p xs s).2.rc o) xs (loop r p xs s).1 ∧
    (loop r p xs s).1.Nodup ∧ (loop r p xs s).2.scope = s.scope := by
  intro xs
  induction xs with
  | nil => intro s h _ _; exact ⟨h, fun i _ => ⟨rfl, Nat.le_refl _⟩, .nil, List.nodup_nil, rfl⟩
  | cons x xs ih =>
    intro s h hx hr
    unfold loop
    dsimp only
    obtain ⟨w1, p1, l1, v1, c1, _⟩ := h.incRef (hx x List.mem_cons_self) s.gen
    obtain ⟨w2, p2, l2, v2, c2, _⟩ := w1.incRef ((p1 r).1 hr) p
    generalize hs1 : incRef r p (incRef x s.gen s) = s1 at *
    have hp : ∀ j, 0 < s.rc j ↔ 0 < s1.rc j := fun j => (p1 j).trans (p2 j)
    have hvars : s1.vars = s.vars := v2.trans v1
    have hsc : s1.scope = s.scope := c2.trans c1
    obtain ⟨w3, f3, r3, v3, c3⟩ := w2.alloc (bitcastNode (s.vars x) x r s.scope)
    generalize ha : alloc (bitcastNode (s.vars x) x r s.scope) s1 = a at *
    have hlive : ∀ j, 0 < s.rc j → j ≠ a.1 ∧ 0 < a.2.rc j := by
      intro j hj
      have : j ≠ a.1 := fun e => by rw [← e] at f3; have := (hp j).1 hj; omega
      refine ⟨this, ?_⟩
      rw [r3, Function.update_of_ne this]
      exact (hp j).1 hj
    have hself : 0 < a.2.rc a.1 := by rw [r3, Function.update_self]; omega
    obtain ⟨w4, k4, f4, n4, c4⟩ := ih a.2 w3 (fun y hy => (hlive y (hx y (List.mem_cons_of_mem _ hy))).2) (hlive r hr).2
    have hzero : ∀ j, a.2.rc j = 0 → s.rc j = 0 ∧ j ≠ a.1 := by
      intro j hj
      refine ⟨?_, fun e => by rw [e] at hj; omega⟩
      by_cases h0 : s.rc j = 0
      · exact h0
      · have := (hlive j (by omega)).2; omega
    refine ⟨w4, fun i hi => ?_, .cons ⟨?_, ?_, ?_⟩ ?_, ?_, by rw [c4, c3, hsc]⟩
    · obtain ⟨hne, hi'⟩ := hlive i hi
      refine ⟨by rw [(k4 i hi').1, v3, Function.update_of_ne hne, hvars], ?_⟩
      have h1 := (k4 i hi').2
      rw [r3, Function.update_of_ne hne] at h1
      have h2 := l2 i
      have h3 := l1 i
      omega
    · rw [(k4 a.1 hself).1, v3, Function.update_self]
    · by_cases h0 : s.rc a.1 = 0
      · exact h0
      · have := (hp a.1).1 (by omega); omega
    · exact Nat.lt_of_lt_of_le hself (k4 a.1 hself).2
    · have hmem : ∀ (ys : List Nat) (os : List Nat), (∀ y ∈ ys, y ∈ xs) →
          List.Forall₂ (fun x o => (loop r p xs a.2).2.vars o = bitcastNode (a.2.vars x) x r a.2.scope ∧ a.2.rc o = 0 ∧ 0 < (loop r p xs a.2).2.rc o) ys os →
          List.Forall₂ (fun x o => (loop r p xs a.2).2.vars o = bitcastNode (s.vars x) x r s.scope ∧ s.rc o = 0 ∧ 0 < (loop r p xs a.2).2.rc o) ys os := by
        intro ys os hys hf
        induction hf with
        | nil => exact .nil
        | cons hh _ ih' =>
          rename_i y o ys os _
          refine .cons ⟨?_, (hzero o hh.2.1).1, hh.2.2⟩ (ih' fun z hz => hys z (List.mem_cons_of_mem _ hz))
          have hy := hx y (List.mem_cons_of_mem _ (hys y List.mem_cons_self))
          rw [hh.1, v3, Function.update_of_ne (hlive y hy).1, hvars, c3, hsc]
      exact hmem xs _ (fun _ h => h) f4
    · rw [List.nodup_cons]
      refine ⟨fun hm => ?_, n4⟩
      have : ∀ (ys os : List Nat), List.Forall₂ (fun x o => (loop r p xs a.2).2.vars o = bitcastNode (a.2.vars x) x r a.2.scope ∧ a.2.rc o = 0 ∧ 0 < (loop r p xs a.2).2.rc o) ys os →
          ∀ o ∈ os, a.2.rc o = 0 := by
        intro ys os hf
        induction hf with
        | nil => intro o ho; cases ho
        | cons hh _ ih' =>
          intro o ho
          rcases List.mem_cons.1 ho with e | e
          · rw [e]; exact hh.2.1
          · exact ih' o e
      have := this xs _ f4 a.1 hm
      omega

/-- Room for `n` variables without moving the array -/
def room (s : St) : Nat := s.free.length + (s.cap - s.used)

theorem alloc_room (v : Var) (s : St) (h : 0 < room s) : room s ≤ room (alloc v s).2 + 1 ∧ (alloc v s).2.gen = s.gen := by
  unfold room at h ⊢
  unfold alloc
  cases hf : s.free with
  | nil =>
    rw [hf] at h
    have : s.used ≠ s.cap := by intro e; rw [e] at h; simp at h
    dsimp only
    rw [if_neg this, if_neg this]
    exact ⟨by simp; omega, rfl⟩
  | cons x rest => dsimp only; exact ⟨by simp; omega, rfl⟩

theorem incRef_room (i p : Nat) (s : St) : room (incRef i p s) = room s ∧ (incRef i p s).gen = s.gen := by
  unfold incRef
  by_cases h : p = s.gen
  · rw [if_pos h]; exact ⟨rfl, rfl⟩
  · rw [if_neg h]; exact ⟨rfl, rfl⟩

theorem loop_refs (r : Nat) : ∀ (xs : List Nat) (s : St), WF s → (∀ x ∈ xs, 0 < s.rc x) → 0 < s.rc r → r ∉ xs → xs.length ≤ room s →
    (loop r s.gen xs s).2.rc r = s.rc r + xs.length ∧ (loop r s.gen xs s).2.gen = s.gen := by
  intro xs
  induction xs with
  | nil => intro s _ _ _ _ _; exact ⟨rfl, rfl⟩
  | cons x xs ih =>
    intro s h hx hr hrx hroom
    rw [List.length_cons] at hroom
    obtain ⟨w1, p1, l1, v1, c1, g1⟩ := h.incRef (hx x List.mem_cons_self) s.gen
    obtain ⟨w2, p2, l2, v2, c2, g2⟩ := w1.incRef ((p1 r).1 hr) s.gen
    have hne : r ≠ x := fun e => hrx (e ▸ List.mem_cons_self)
    have hrc : (incRef r s.gen (incRef x s.gen s)).rc r = s.rc r + 1 := by
      unfold incRef
      rw [if_pos rfl, if_pos rfl]
      dsimp only
      rw [Function.update_self, Function.update_of_ne hne]
    have hrm : room (incRef r s.gen (incRef x s.gen s)) = room s := (incRef_room _ _ _).1.trans (incRef_room _ _ _).1
    unfold loop
    dsimp only
    generalize hs1 : incRef r s.gen (incRef x s.gen s) = s1 at *
    obtain ⟨w3, f3, r3, v3, c3⟩ := w2.alloc (bitcastNode (s.vars x) x r s.scope)
    obtain ⟨m3, g3⟩ := alloc_room (bitcastNode (s.vars x) x r s.scope) s1 (by omega)
    generalize ha : alloc (bitcastNode (s.vars x) x r s.scope) s1 = a at *
    have hlive : ∀ j, 0 < s.rc j → j ≠ a.1 ∧ 0 < a.2.rc j := by
      intro j hj
      have hj' : 0 < s1.rc j := (p2 j).1 ((p1 j).1 hj)
      have : j ≠ a.1 := fun e => by rw [← e] at f3; omega
      exact ⟨this, by rw [r3, Function.update_of_ne this]; exact hj'⟩
    have hg : a.2.gen = s.gen := g3.trans (g2.trans g1)
    have := ih a.2 w3 (fun y hy => (hlive y (hx y (List.mem_cons_of_mem _ hy))).2) (hlive r hr).2 (fun hm => hrx (List.mem_cons_of_mem _ hm)) (by omega)
    rw [hg] at this
    refine ⟨?_, this.2⟩
    rw [this.1, r3, Function.update_of_ne (hlive r hr).1, hrc, List.length_cons]
    omega

/-! ### Theorems -/

/-- **C99 (other backends).**  Without CUDA, the values themselves are returned, with one more reference each. -/
theorem C99_noop {still : Nat → Bool} {key bits : Nat} {values : List Nat} {s : St} (h : (s.vars key).cuda = false) :
    ∃ s', reorder still key bits values s = .ok values s' ∧ s'.vars = s.vars ∧ ∀ i, s'.rc i = s.rc i + values.count i :=
  ⟨_, if_pos h, rfl, fun _ => rfl⟩

/-- What success means: the state in which nodes are created has the same variables up to pending writes. -/
theorem ok_create {still : Nat → Bool} {key bits : Nat} {values out : List Nat} {s s' : St} (h : reorder still key bits values s = .ok out s') (hc : (s.vars key).cuda = true) :
    ∃ s1 size sym, (s1 = s ∨ s1 = evalVars still s) ∧ create key bits size sym values s1 = (out, s') ∧ (s.vars key).ty = 0 ∧ 1 ≤ bits ∧ bits ≤ 16 ∧
      (∀ i ∈ key :: values, (s1.vars i).dirty = false) ∧ ∀ i ∈ key :: values, (s.vars i).size = 1 ∨ (s.vars i).size = size := by
  unfold reorder at h
  rw [if_neg (by rw [hc]; decide)] at h
  by_cases ht : (s.vars key).ty ≠ 0
  · rw [if_pos ht] at h; cases h
  rw [if_neg ht] at h
  dsimp only at h
  generalize hsz : maxSize s (values ++ [key]) = size at h
  by_cases h1 : ((values ++ [key]).any fun i => decide ((s.vars i).size ≠ 1 ∧ (s.vars i).size ≠ size)) = true
  · rw [if_pos h1] at h; cases h
  rw [if_neg h1] at h
  generalize hd : ((values ++ [key]).any fun i => (s.vars i).dirty) = d at h
  generalize hs1 : (if d = true then evalVars still s else s) = s1 at h
  by_cases h2 : (d && values.any fun i => (s1.vars i).dirty) = true
  · rw [if_pos h2] at h; cases h
  rw [if_neg h2] at h
  by_cases h3 : bits < 1
  · rw [if_pos h3] at h; cases h
  rw [if_neg h3] at h
  by_cases h4 : bits > 16
  · rw [if_pos h4] at h; cases h
  rw [if_neg h4] at h
  by_cases h5 : (s1.vars key).dirty = true
  · rw [if_pos h5] at h; cases h
  rw [if_neg h5] at h
  injection h with e1 e2
  refine ⟨s1, size, _, ?_, Prod.ext e1 e2, by omega, by omega, by omega, ?_, ?_⟩
  · cases d with
    | false => exact .inl hs1.symm
    | true => exact .inr hs1.symm
  · intro i hi
    rcases List.mem_cons.1 hi with e | e
    · rw [e]; exact Bool.eq_false_iff.2 h5
    · cases d with
      | false =>
        rw [if_neg (by decide)] at hs1
        rw [← hs1]
        exact Bool.eq_false_iff.2 (List.any_eq_false.1 hd i (List.mem_append_left _ e))
      | true =>
        rw [Bool.true_and, Bool.not_eq_true] at h2
        exact Bool.eq_false_iff.2 (List.any_eq_false.1 h2 i e)
  · intro i hi
    rw [Bool.not_eq_true] at h1
    have hm : i ∈ values ++ [key] := by
      rcases List.mem_cons.1 hi with e | e
      · rw [e]; exact List.mem_append_right _ List.mem_cons_self
      · exact List.mem_append_left _ e
    have := List.any_eq_false.1 h1 i hm
    rw [decide_eq_true_eq] at this
    omega

theorem WF.eval {s : St} (h : WF s) (still : Nat → Bool) : WF (evalVars still s) := ⟨h.free, h.nodup, h.out⟩

theorem create_spec {key bits size : Nat} {sym : Bool} {values : List Nat} {s : St} (h : WF s) (hk : 0 < s.rc key) (hv : ∀ x ∈ values, 0 < s.rc x) :
    ∃ r, s.rc r = 0 ∧ (create key bits size sym values s).2.vars r = ⟨.reorderThread, true, 1, size, sym, false, key, 0, bits, s.scope + 1⟩ ∧
      List.Forall₂ (fun x o => (create key bits size sym values s).2.vars o = bitcastNode (s.vars x) x r (s.scope + 2) ∧ s.rc o = 0 ∧ o ≠ r) values (create key bits size sym values s).1 ∧
      (create key bits size sym values s).1.Nodup ∧ (∀ i, 0 < s.rc i → (create key bits size sym values s).2.vars i = s.vars i) ∧
      (create key bits size sym values s).2.scope = s.scope + 2 ∧
      (values.length + 1 ≤ room s → (create key bits size sym values s).2.rc r = values.length) := by
  have h0 : WF (newScope s) := ⟨h.free, h.nodup, h.out⟩
  obtain ⟨w1, p1, l1, v1, c1, g1⟩ := h0.incRef (i := key) hk (newScope s).gen
  have rm1 := incRef_room key (newScope s).gen (newScope s)
  unfold create
  dsimp only
  generalize hs1 : incRef key (newScope s).gen (newScope s) = s1 at *
  obtain ⟨w2, f2, r2, v2, c2⟩ := w1.alloc ⟨.reorderThread, true, 1, size, sym, false, key, 0, bits, (newScope s).scope⟩
  have rm2 := alloc_room ⟨.reorderThread, true, 1, size, sym, false, key, 0, bits, (newScope s).scope⟩ s1
  generalize ha : alloc ⟨.reorderThread, true, 1, size, sym, false, key, 0, bits, (newScope s).scope⟩ s1 = a at *
  have w3 : WF (newScope a.2) := ⟨w2.free, w2.nodup, w2.out⟩
  have hp : ∀ j, 0 < s.rc j → 0 < s1.rc j := fun j hj => (p1 j).1 hj
  have hz : s.rc a.1 = 0 := by
    by_cases h0 : s.rc a.1 = 0
    · exact h0
    · have := hp a.1 (by omega); omega
  have hlive : ∀ j, 0 < s.rc j → j ≠ a.1 ∧ 0 < (newScope a.2).rc j := by
    intro j hj
    have hne : j ≠ a.1 := fun e => by rw [e] at hj; omega
    exact ⟨hne, by show 0 < a.2.rc j; rw [r2, Function.update_of_ne hne]; exact hp j hj⟩
  have hself : (newScope a.2).rc a.1 = 1 := by show a.2.rc a.1 = 1; rw [r2, Function.update_self]
  have hvx : ∀ x ∈ values, 0 < (newScope a.2).rc x := fun x hx => (hlive x (hv x hx)).2
  have hax : a.1 ∉ values := fun hm => by have := hv _ hm; omega
  obtain ⟨w4, k4, f4, n4, c4⟩ := loop_spec a.1 a.2.gen values (newScope a.2) w3 hvx (by omega)
  have refs := loop_refs a.1 values (newScope a.2) w3 hvx (by omega) hax
  have hgen : (newScope a.2).gen = a.2.gen := rfl
  rw [hgen] at refs
  have hdv : ∀ i p (s : St), (decRef i p s).vars = s.vars := by
    intro i p s
    unfold decRef
    by_cases hh : p = s.gen
    · rw [if_pos hh]
    · rw [if_neg hh]
  have hds : ∀ i p (s : St), (decRef i p s).scope = s.scope := by
    intro i p s
    unfold decRef
    by_cases hh : p = s.gen
    · rw [if_pos hh]
    · rw [if_neg hh]
  have hscope : (newScope a.2).scope = s.scope + 2 := by
    show a.2.scope + 1 = s.scope + 2
    rw [c2, c1]
    rfl
  rw [hdv, hds]
  refine ⟨a.1, hz, ?_, ?_, n4, fun i hi => ?_, c4.trans hscope, fun hroom => ?_⟩
  · rw [(k4 a.1 (by omega)).1]
    show a.2.vars a.1 = _
    rw [v2, Function.update_self]
    rfl
  · have conv : ∀ ys os, (∀ y ∈ ys, y ∈ values) →
        List.Forall₂ (fun x o => (loop a.1 a.2.gen values (newScope a.2)).2.vars o = bitcastNode ((newScope a.2).vars x) x a.1 (newScope a.2).scope ∧ (newScope a.2).rc o = 0 ∧
          0 < (loop a.1 a.2.gen values (newScope a.2)).2.rc o) ys os →
        List.Forall₂ (fun x o => (loop a.1 a.2.gen values (newScope a.2)).2.vars o = bitcastNode (s.vars x) x a.1 (s.scope + 2) ∧ s.rc o = 0 ∧ o ≠ a.1) ys os := by
      intro ys os hys hf
      induction hf with
      | nil => exact .nil
      | cons hh _ ih' =>
        rename_i y o ys os _
        have hy := hv y (hys y List.mem_cons_self)
        refine .cons ⟨?_, ?_, fun e => by have := hh.2.1; rw [e] at this; omega⟩ (ih' fun z hz => hys z (List.mem_cons_of_mem _ hz))
        · rw [hh.1, hscope]
          show bitcastNode (a.2.vars y) _ _ _ = _
          rw [v2, Function.update_of_ne (hlive y hy).1, v1]
          rfl
        · by_cases h0 : s.rc o = 0
          · exact h0
          · have := (hlive o (by omega)).2
            have := hh.2.1
            omega
    exact conv values _ (fun _ h => h) f4
  · obtain ⟨hne, hi'⟩ := hlive i hi
    rw [(k4 i hi').1]
    show a.2.vars i = _
    rw [v2, Function.update_of_ne hne, v1]
    rfl
  · have hr1 : room s1 = room s := rm1.1
    obtain ⟨m, hg⟩ := rm2 (by omega)
    have hr2 : room (newScope a.2) = room a.2 := rfl
    obtain ⟨e1, e2⟩ := refs (by omega)
    unfold decRef
    rw [if_pos (by rw [e2])]
    dsimp only
    rw [Function.update_self, e1, hself]
    omega

/-- **C99 (results).**  On CUDA devices, a successful call returns one new variable per value, which is the value (a conversion to its own type, of the same size) and depends on one new
reordering with the key and number of bits.  All other variables are unchanged, up to evaluation of pending writes. -/
theorem C99_values {still : Nat → Bool} {key bits : Nat} {values out : List Nat} {s s' : St} (h : reorder still key bits values s = .ok out s') (hc : (s.vars key).cuda = true)
    (hw : WF s) (hk : 0 < s.rc key) (hv : ∀ x ∈ values, 0 < s.rc x) :
    ∃ r, s.rc r = 0 ∧ (s'.vars r).kind = .reorderThread ∧ (s'.vars r).dep0 = key ∧ (s'.vars r).literal = bits ∧ 1 ≤ bits ∧ bits ≤ 16 ∧
      List.Forall₂ (fun x o => s.rc o = 0 ∧ (s'.vars o).kind = .bitcast ∧ (s'.vars o).dep0 = x ∧ (s'.vars o).dep1 = r ∧ (s'.vars o).ty = (s.vars x).ty ∧
        (s'.vars o).size = (s.vars x).size ∧ (s'.vars o).symbolic = (s.vars x).symbolic) values out ∧ out.Nodup ∧
      (∀ i ∈ key :: values, (s'.vars i).dirty = false ∧ ((s.vars i).size = 1 ∨ (s.vars i).size = (s'.vars r).size)) ∧
      ∀ i, 0 < s.rc i → s'.vars i = { s.vars i with dirty := (s'.vars i).dirty } := by
  obtain ⟨s1, size, sym, hs1, he, _, hb1, hb2, hd, hsz⟩ := ok_create h hc
  have hw1 : WF s1 := by rcases hs1 with rfl | rfl; exacts [hw, hw.eval still]
  have hrc : s1.rc = s.rc := by rcases hs1 with rfl | rfl <;> rfl
  have hvars : ∀ i, s1.vars i = { s.vars i with dirty := (s1.vars i).dirty } := by rcases hs1 with rfl | rfl <;> intro i <;> rfl
  obtain ⟨r, z, vr, f, n, o, _, _⟩ := create_spec (key := key) (bits := bits) (size := size) (sym := sym) (values := values) hw1 (by rw [hrc]; exact hk) (by rw [hrc]; exact hv)
  rw [he] at vr f n o
  rw [hrc] at z f o
  refine ⟨r, z, by rw [vr], by rw [vr], by rw [vr], hb1, hb2, ?_, n, ?_, ?_⟩
  · refine List.Forall₂.imp ?_ f
    intro x y hxy
    refine ⟨hxy.2.1, by rw [hxy.1]; rfl, by rw [hxy.1]; rfl, by rw [hxy.1]; rfl, ?_, ?_, ?_⟩
    · rw [hxy.1]; show (s1.vars x).ty = _; rw [hvars]
    · rw [hxy.1]; show (s1.vars x).size = _; rw [hvars]
    · rw [hxy.1]; show (s1.vars x).symbolic = _; rw [hvars]
  · intro i hi
    have hl : 0 < s.rc i := by
      rcases List.mem_cons.1 hi with e | e
      · rw [e]; exact hk
      · exact hv i e
    refine ⟨?_, ?_⟩
    · rw [show s'.vars i = s1.vars i from o i hl]; exact hd i hi
    · rw [vr]; exact hsz i hi
  · intro i hi
    rw [show s'.vars i = s1.vars i from o i hi]
    exact hvars i

theorem foldl_max (f : Nat → Nat) : ∀ (l : List Nat) (m n : Nat), m ≤ n → (∀ i ∈ l, f i ≤ n) →
    l.foldl (fun m i => max m (f i)) m ≤ n ∧ m ≤ l.foldl (fun m i => max m (f i)) m ∧ ∀ i ∈ l, f i ≤ l.foldl (fun m i => max m (f i)) m := by
  intro l
  induction l with
  | nil => intro m n h _; exact ⟨h, Nat.le_refl _, fun i hi => by cases hi⟩
  | cons x xs ih =>
    intro m n h hl
    have hx := hl x List.mem_cons_self
    obtain ⟨h1, h2, h3⟩ := ih (max m (f x)) n (by omega) fun i hi => hl i (List.mem_cons_of_mem _ hi)
    rw [List.foldl_cons]
    refine ⟨h1, by omega, fun i hi => ?_⟩
    rcases List.mem_cons.1 hi with e | e
    · rw [e]; omega
    · exact h3 i e

/-- **C99 (acceptance).**  Calls with a key of the right type, compatible sizes, at most 16 bits and variables whose pending writes can be evaluated succeed. -/
theorem C99_accepted {still : Nat → Bool} {key bits n : Nat} {values : List Nat} {s : St} (hc : (s.vars key).cuda = true) (ht : (s.vars key).ty = 0) (hb : 1 ≤ bits) (hb' : bits ≤ 16)
    (hn : 1 ≤ n) (hs : ∀ i ∈ values ++ [key], (s.vars i).size = 1 ∨ (s.vars i).size = n) (hex : ∃ i ∈ values ++ [key], (s.vars i).size = n)
    (hd : ∀ i ∈ values ++ [key], (s.vars i).dirty = true → still i = false) : ∃ out s', reorder still key bits values s = .ok out s' := by
  have hm : maxSize s (values ++ [key]) = n := by
    obtain ⟨j, hj, hjn⟩ := hex
    obtain ⟨h1, _, h3⟩ := foldl_max (fun i => (s.vars i).size) (values ++ [key]) 0 n (Nat.zero_le _) fun i hi => by have := hs i hi; omega
    have := h3 j hj
    unfold maxSize
    omega
  have hkey : key ∈ values ++ [key] := List.mem_append_right _ List.mem_cons_self
  unfold reorder
  rw [if_neg (by rw [hc]; decide), if_neg (by omega)]
  dsimp only
  rw [hm]
  have h1 : ((values ++ [key]).any fun i => decide ((s.vars i).size ≠ 1 ∧ (s.vars i).size ≠ n)) = false := by
    rw [List.any_eq_false]
    intro i hi
    rw [decide_eq_true_eq]
    have := hs i hi
    omega
  rw [if_neg (by rw [h1]; decide)]
  generalize hdd : ((values ++ [key]).any fun i => (s.vars i).dirty) = d
  have clean : ∀ i ∈ values ++ [key], ((if d = true then evalVars still s else s).vars i).dirty = false := by
    intro i hi
    cases d with
    | false => rw [if_neg (by decide)]; exact Bool.eq_false_iff.2 (List.any_eq_false.1 hdd i hi)
    | true =>
      rw [if_pos rfl]
      show ((s.vars i).dirty && still i) = false
      cases hx : (s.vars i).dirty with
      | false => rfl
      | true => rw [hd i hi hx]; rfl
  have h2 : (values.any fun i => ((if d = true then evalVars still s else s).vars i).dirty) = false := by
    rw [List.any_eq_false]
    intro i hi
    rw [clean i (List.mem_append_left _ hi)]
    decide
  rw [h2, if_neg (by rw [Bool.and_false]; decide), if_neg (by omega), if_neg (by omega), if_neg (by rw [clean key hkey]; decide)]
  exact ⟨_, _, rfl⟩

/-- **C99 (order).**  The reordering has a scope behind those of all earlier variables, the results have a scope behind that of the reordering, and so do all later variables. -/
theorem C99_scope {still : Nat → Bool} {key bits : Nat} {values out : List Nat} {s s' : St} (h : reorder still key bits values s = .ok out s') (hc : (s.vars key).cuda = true)
    (hw : WF s) (hk : 0 < s.rc key) (hv : ∀ x ∈ values, 0 < s.rc x) (hscope : ∀ i, 0 < s.rc i → (s.vars i).scope ≤ s.scope) :
    ∃ r, (s'.vars r).kind = .reorderThread ∧ (∀ i, 0 < s.rc i → (s'.vars i).scope < (s'.vars r).scope) ∧ (∀ o ∈ out, (s'.vars r).scope < (s'.vars o).scope) ∧
      (s'.vars r).scope < s'.scope := by
  obtain ⟨s1, size, sym, hs1, he, _, _, _, _, _⟩ := ok_create h hc
  have hw1 : WF s1 := by rcases hs1 with rfl | rfl; exacts [hw, hw.eval still]
  have hrc : s1.rc = s.rc := by rcases hs1 with rfl | rfl <;> rfl
  have hsc : s1.scope = s.scope := by rcases hs1 with rfl | rfl <;> rfl
  have hvs : ∀ i, (s1.vars i).scope = (s.vars i).scope := by rcases hs1 with rfl | rfl <;> intro i <;> rfl
  obtain ⟨r, z, vr, f, n, o, c, _⟩ := create_spec (key := key) (bits := bits) (size := size) (sym := sym) (values := values) hw1 (by rw [hrc]; exact hk) (by rw [hrc]; exact hv)
  rw [he] at vr f o c
  dsimp only at vr f o c
  refine ⟨r, by rw [vr], fun i hi => ?_, fun y hy => ?_, by rw [vr, c]; exact Nat.lt_succ_self _⟩
  · rw [o i (by rw [hrc]; exact hi), vr, hvs, hsc]
    exact Nat.lt_succ_of_le (hscope i hi)
  · have : ∀ ys os, List.Forall₂ (fun x o => s'.vars o = bitcastNode (s1.vars x) x r (s1.scope + 2) ∧ s1.rc o = 0 ∧ o ≠ r) ys os → ∀ o ∈ os, (s'.vars o).scope = s1.scope + 2 := by
      intro ys os hf
      induction hf with
      | nil => intro o ho; cases ho
      | cons hh _ ih' =>
        intro o ho
        rcases List.mem_cons.1 ho with e | e
        · rw [e, hh.1]; rfl
        · exact ih' o e
    rw [this _ _ f y hy, vr]
    exact Nat.lt_succ_self _

/-- **C99 (references).**  If there is room for the new variables, the reordering is referenced exactly by the results. -/
theorem C99_refs_partial {still : Nat → Bool} {key bits : Nat} {values out : List Nat} {s s' : St} (h : reorder still key bits values s = .ok out s') (hc : (s.vars key).cuda = true)
    (hw : WF s) (hk : 0 < s.rc key) (hv : ∀ x ∈ values, 0 < s.rc x) (hroom : values.length + 1 ≤ room s) :
    ∃ r, (s'.vars r).kind = .reorderThread ∧ s.rc r = 0 ∧ s'.rc r = values.length := by
  obtain ⟨s1, size, sym, hs1, he, _, _, _, _, _⟩ := ok_create h hc
  have hw1 : WF s1 := by rcases hs1 with rfl | rfl; exacts [hw, hw.eval still]
  have hrc : s1.rc = s.rc := by rcases hs1 with rfl | rfl <;> rfl
  have hrm : room s1 = room s := by rcases hs1 with rfl | rfl <;> rfl
  obtain ⟨r, z, vr, _, _, _, _, e⟩ := create_spec (key := key) (bits := bits) (size := size) (sym := sym) (values := values) hw1 (by rw [hrc]; exact hk) (by rw [hrc]; exact hv)
  rw [he] at vr e
  exact ⟨r, by rw [vr], by rw [← hrc]; exact z, e (by rw [hrm]; exact hroom)⟩

/-- A state with four variables (key and three values) in an array with room for one more -/
def full : St := ⟨fun _ => ⟨.other, true, 0, 8, false, false, 0, 0, 0, 0⟩, fun i => if i < 4 then 1 else 0, 4, 5, 0, [], 0⟩

/-- **C99 fails** if the array of variables moves in the middle: three results depend on the reordering (variable 4), which has two references only and is freed too early. -/
theorem C99_refs_counterexample : ∃ out s', reorder (fun _ => false) 0 4 [1, 2, 3] full = .ok out s' ∧ (s'.vars 4).kind = .reorderThread ∧ out = [5, 6, 7] ∧
    (s'.vars 5).dep1 = 4 ∧ (s'.vars 6).dep1 = 4 ∧ (s'.vars 7).dep1 = 4 ∧ s'.rc 4 = 2 := ⟨_, _, rfl, by decide, by decide, by decide, by decide, by decide, by decide⟩

/-! ### Examples -/

example : WF full ∧ (full.vars 0).cuda = true ∧ (∀ x ∈ [1, 2, 3], 0 < full.rc x) ∧ ∀ i, 0 < full.rc i → (full.vars i).scope ≤ full.scope :=
  ⟨⟨fun i hi => (by cases hi), List.nodup_nil, fun i (hi : 4 ≤ i) => if_neg (by omega)⟩, rfl, by decide, fun _ _ => Nat.le_refl _⟩

/-- The same with room for all variables -/
example : ∃ out s', reorder (fun _ => false) 0 4 [1, 2, 3] { full with cap := 16 } = .ok out s' ∧ s'.rc 4 = 3 ∧ room { full with cap := 16 } = 12 := ⟨_, _, rfl, by decide, rfl⟩

end Verif.Reorder
