import Verif.Freeze.Spec
import Mathlib.Tactic.Common
import Mathlib.Tactic.SplitIfs

/-!
# Kernels do not depend on addresses

If two memories have the same contents up to a renaming of arrays, then a kernel
has the same effect in both of them.
-/

namespace Verif.Freeze

variable {α β : Type}

/-- Rename the arrays that a cell refers to. -/
def ren (ρ : α → β) : Cell α → Cell β
  | .byte b => .byte b
  | .undef => .undef
  | .ref t k => .ref (ρ t) k

theorem data_ren (ρ : α → β) (c : Cell α) : (ren ρ c).data = c.data := by
  cases c <;> rfl

theorem dataOf_ren (ρ : α → β) (cs : List (Cell α)) : dataOf (cs.map (ren ρ)) = dataOf cs := by
  simp [dataOf, data_ren]

theorem ren_ofData (ρ : α → β) (o : Option Nat) : ren ρ (Cell.ofData o) = Cell.ofData o := by
  cases o <;> rfl

theorem fit_length (n : Nat) (cs : List (Cell α)) : (fit n cs).length = n := by
  simp [fit]

theorem fit_ren (ρ : α → β) (n : Nat) (cs : List (Cell α)) :
    (fit n cs).map (ren ρ) = fit n (cs.map (ren ρ)) := by
  simp [fit, List.map_take, ren]

theorem bytes_ren (sem : Sem) (p : Prim) (ins : List (List (Option Nat))) (n : Nat)
    (ρ : α → β) : (sem.bytes p ins n : List (Cell α)).map (ren ρ) = sem.bytes p ins n := by
  simp only [Sem.bytes, fit_ren, List.map_map]
  congr 1
  apply List.map_congr_left
  intro o _
  exact ren_ofData ρ o

theorem bytes_length (sem : Sem) (p : Prim) (ins : List (List (Option Nat))) (n : Nat) :
    (sem.bytes p ins n : List (Cell α)).length = n := fit_length _ _

theorem mem_refsOf {cs : List (Cell α)} {t : α} : t ∈ refsOf cs ↔ ∃ k, Cell.ref t k ∈ cs := by
  unfold refsOf
  rw [List.mem_filterMap]
  constructor
  · rintro ⟨c, hc, h⟩
    cases c with
    | ref u k =>
      simp only [Option.some.injEq] at h
      subst h
      exact ⟨k, hc⟩
    | _ => simp at h
  · rintro ⟨k, h⟩
    exact ⟨_, h, rfl⟩

theorem refsOf_bytes (sem : Sem) (p : Prim) (ins : List (List (Option Nat))) (n : Nat) :
    refsOf (sem.bytes p ins n : List (Cell α)) = [] := by
  rw [List.eq_nil_iff_forall_not_mem]
  intro t ht
  obtain ⟨k, hk⟩ := mem_refsOf.1 ht
  unfold Sem.bytes fit at hk
  have := List.mem_of_mem_take hk
  rw [List.mem_append] at this
  rcases this with h | h
  · obtain ⟨o, _, ho⟩ := List.mem_map.1 h
    cases o <;> simp [Cell.ofData] at ho
  · have := List.eq_of_mem_replicate h
    simp at this

theorem refsOf_ren (ρ : α → β) (cs : List (Cell α)) :
    refsOf (cs.map (ren ρ)) = (refsOf cs).map ρ := by
  induction cs with
  | nil => rfl
  | cons c cs ih =>
    cases c <;> simp_all [refsOf, ren]

theorem mem_uniq [DecidableEq α] {x : α} {l : List α} : x ∈ uniq l ↔ x ∈ l := by
  induction l with
  | nil => simp [uniq]
  | cons y ys ih =>
    simp only [uniq, List.mem_cons, List.mem_filter, ih, decide_eq_true_eq]
    constructor
    · rintro (h | ⟨h, _⟩)
      · exact Or.inl h
      · exact Or.inr h
    · rintro (h | h)
      · exact Or.inl h
      · by_cases e : x = y
        · exact Or.inl e
        · exact Or.inr ⟨h, e⟩

theorem uniq_nodup [DecidableEq α] (l : List α) : (uniq l).Nodup := by
  induction l with
  | nil => simp [uniq]
  | cons y ys ih =>
    simp only [uniq, List.nodup_cons, List.mem_filter]
    exact ⟨by simp, ih.filter _⟩

theorem filter_map_ne [DecidableEq α] [DecidableEq β] (ρ : α → β) (x : α) (l : List α)
    (h : ∀ y ∈ l, ρ y = ρ x → y = x) :
    (l.map ρ).filter (fun y => decide (y ≠ ρ x)) = (l.filter fun y => decide (y ≠ x)).map ρ := by
  induction l with
  | nil => rfl
  | cons y ys ih =>
    have ih := ih fun z hz => h z (List.mem_cons_of_mem _ hz)
    simp only [List.map_cons, List.filter_cons]
    by_cases e : y = x
    · subst e
      simpa using ih
    · have : ρ y ≠ ρ x := fun e' => e (h y (List.mem_cons_self ..) e')
      simp only [ne_eq, this, not_false_eq_true, decide_true, if_true, e, List.map_cons]
      simpa using ih

theorem uniq_map [DecidableEq α] [DecidableEq β] (ρ : α → β) (l : List α)
    (h : ∀ x ∈ l, ∀ y ∈ l, ρ x = ρ y → x = y) : uniq (l.map ρ) = (uniq l).map ρ := by
  induction l with
  | nil => rfl
  | cons x xs ih =>
    have ih := ih fun a ha b hb =>
      h a (List.mem_cons_of_mem _ ha) b (List.mem_cons_of_mem _ hb)
    simp only [List.map_cons, uniq, ih]
    rw [filter_map_ne]
    intro y hy e
    exact h y (List.mem_cons_of_mem _ (mem_uniq.1 hy)) x (List.mem_cons_self ..) e

theorem pos_map [DecidableEq α] [DecidableEq β] (ρ : α → β) (x : α) (l : List α)
    (h : ∀ y ∈ l, ρ y = ρ x → y = x) : pos (ρ x) (l.map ρ) = pos x l := by
  induction l with
  | nil => rfl
  | cons y ys ih =>
    have ih := ih fun z hz => h z (List.mem_cons_of_mem _ hz)
    simp only [List.map_cons, pos, ih]
    by_cases e : y = x
    · subst e
      simp
    · have : ρ y ≠ ρ x := fun e' => e (h y (List.mem_cons_self ..) e')
      simp [this, e]

theorem canon_ren [DecidableEq α] [DecidableEq β] (ρ : α → β) (vs : List α) (c : Cell α)
    (h : ∀ t k, c = .ref t k → ∀ y ∈ vs, ρ y = ρ t → y = t) :
    canon (vs.map ρ) (ren ρ c) = canon vs c := by
  cases c with
  | byte b => rfl
  | undef => rfl
  | ref t k =>
    have h := h t k rfl
    simp only [ren, canon]
    by_cases e : t ∈ vs
    · rw [if_pos e, if_pos (List.mem_map_of_mem e), pos_map ρ t vs h]
    · rw [if_neg e, if_neg]
      intro h'
      obtain ⟨y, hy, e'⟩ := List.mem_map.1 h'
      exact e (h y hy e' ▸ hy)

theorem uncanon_ren (ρ : α → β) (vs : List α) (c : Cell Nat) :
    ren ρ (uncanon vs c) = uncanon (vs.map ρ) c := by
  cases c with
  | byte b => rfl
  | undef => rfl
  | ref i k =>
    simp only [uncanon, List.getElem?_map]
    cases vs[i]? <;> rfl

theorem written_ren (ρ : α → β) (vs : List α) (old : List (Cell α))
    (o : Option (List (Cell Nat))) :
    (written vs old o).map (ren ρ) = written (vs.map ρ) (old.map (ren ρ)) o := by
  cases o with
  | none => rfl
  | some new =>
    simp only [written, fit_ren, List.length_map, List.map_map]
    congr 1
    apply List.map_congr_left
    intro c _
    exact uncanon_ren ρ vs c

theorem written_length (vs : List α) (old : List (Cell α)) (o : Option (List (Cell Nat))) :
    (written vs old o).length = old.length := by
  cases o with
  | none => rfl
  | some new => exact fit_length _ _

theorem written_refs {vs : List α} {old : List (Cell α)} {o : Option (List (Cell Nat))}
    {t : α} (h : t ∈ refsOf (written vs old o)) : t ∈ vs ∨ t ∈ refsOf old := by
  cases o with
  | none => exact Or.inr h
  | some new =>
    left
    obtain ⟨k, hk⟩ := mem_refsOf.1 h
    unfold written fit at hk
    have := List.mem_of_mem_take hk
    rw [List.mem_append] at this
    rcases this with h | h
    · obtain ⟨c, _, hc⟩ := List.mem_map.1 h
      cases c with
      | byte b => simp [uncanon] at hc
      | undef => simp [uncanon] at hc
      | ref i k' =>
        simp only [uncanon] at hc
        split at hc
        · rename_i u hu
          simp only [Cell.ref.injEq] at hc
          rw [← hc.1]
          exact List.mem_of_getElem? hu
        · simp at hc
    · have := List.eq_of_mem_replicate h
      simp at this

theorem mapM_eq_some {f : α → Option β} {l : List α} {r : List β} :
    l.mapM f = some r ↔ List.Forall₂ (fun x y => f x = some y) l r := by
  induction l generalizing r with
  | nil =>
    constructor
    · intro h
      simp only [List.mapM_nil, Option.pure_def, Option.some.injEq] at h
      subst h
      exact .nil
    · intro h
      cases h
      rfl
  | cons x xs ih =>
    rw [List.mapM_cons]
    constructor
    · intro h
      simp only [bind, Option.bind_eq_some_iff, pure, Option.some.injEq] at h
      obtain ⟨y, hy, ys, hys, e⟩ := h
      subst e
      exact .cons hy (ih.1 hys)
    · intro h
      cases h with
      | cons hy hys =>
        simp only [bind, Option.bind_eq_some_iff, pure, Option.some.injEq]
        exact ⟨_, hy, _, ih.2 hys, rfl⟩

theorem forall2_mem_left {R : α → β → Prop} {l : List α} {r : List β}
    (h : List.Forall₂ R l r) {x : α} (hx : x ∈ l) : ∃ y ∈ r, R x y := by
  induction h with
  | nil => simp at hx
  | cons hxy _ ih =>
    rcases List.mem_cons.1 hx with e | e
    · subst e
      exact ⟨_, List.mem_cons_self .., hxy⟩
    · obtain ⟨y, hy, hr⟩ := ih e
      exact ⟨y, List.mem_cons_of_mem _ hy, hr⟩

theorem forall2_mem_right {R : α → β → Prop} {l : List α} {r : List β}
    (h : List.Forall₂ R l r) {y : β} (hy : y ∈ r) : ∃ x ∈ l, R x y := by
  induction h with
  | nil => simp at hy
  | cons hxy _ ih =>
    rcases List.mem_cons.1 hy with e | e
    · subst e
      exact ⟨_, List.mem_cons_self .., hxy⟩
    · obtain ⟨x, hx, hr⟩ := ih e
      exact ⟨x, List.mem_cons_of_mem _ hx, hr⟩

/-- Renaming of the result of a kernel. -/
def renAll (ρ : α → β) (ws : List (α × List (Cell α))) : List (β × List (Cell β)) :=
  ws.map fun w => (ρ w.1, w.2.map (ren ρ))

theorem mapM_ren {get : α → Option (List (Cell α))} {get' : β → Option (List (Cell β))}
    {ρ : α → β} (hg : ∀ x cs, get x = some cs → get' (ρ x) = some (cs.map (ren ρ)))
    {l : List α} {cs : List (List (Cell α))} (h : l.mapM get = some cs) :
    (l.map ρ).mapM get' = some (cs.map fun c => c.map (ren ρ)) := by
  rw [mapM_eq_some] at h ⊢
  induction h with
  | nil => exact .nil
  | cons hx _ ih => exact .cons (hg _ _ hx) ih

theorem zip_zipIdx_ren (ρ : α → β) (vs : List α) (vs0 : List α) (cs : List (List (Cell α)))
    (res : List (Option (List (Cell Nat)))) (k : Nat) :
    (((vs.map ρ).zip (cs.map fun c => c.map (ren ρ))).zipIdx k).map (fun e =>
        (e.1.1, written (vs0.map ρ) e.1.2 ((res[e.2]?).join))) =
      renAll ρ (((vs.zip cs).zipIdx k).map fun e =>
        (e.1.1, written vs0 e.1.2 ((res[e.2]?).join))) := by
  induction vs generalizing cs k with
  | nil => rfl
  | cons v vs ih =>
    cases cs with
    | nil => rfl
    | cons c cs =>
      simp only [List.map_cons, List.zip_cons_cons, List.zipIdx_cons, renAll]
      congr 1
      · rw [written_ren]
      · exact ih cs (k + 1)

/-- A kernel has the same effect in two memories that agree up to a renaming. -/
theorem callKernel_ren [DecidableEq α] [DecidableEq β] {f : KernelFn}
    {get : α → Option (List (Cell α))} {get' : β → Option (List (Cell β))} {ρ : α → β}
    {P : α → Prop} (hP : ∀ x y, P x → P y → ρ x = ρ y → x = y)
    (hg : ∀ x cs, get x = some cs → get' (ρ x) = some (cs.map (ren ρ)))
    (hx : ∀ x cs, get x = some cs → P x)
    (hr : ∀ x cs, get x = some cs → ∀ t ∈ refsOf cs, P t)
    {ps : List α} {ws : List (α × List (Cell α))} (h : callKernel f get ps = some ws) :
    callKernel f get' (ps.map ρ) = some (renAll ρ ws) := by
  unfold callKernel at h ⊢
  simp only [Option.bind_eq_some_iff] at h
  obtain ⟨cs, hcs, contents, hcont, h⟩ := h
  simp only [Option.some.injEq] at h
  rw [mapM_ren hg hcs]
  simp only [Option.bind_some]
  have hps : ∀ x ∈ ps, P x := by
    intro x hx'
    obtain ⟨c, _, hc⟩ := forall2_mem_left (mapM_eq_some.1 hcs) hx'
    exact hx x c hc
  have hall : ∀ x ∈ ps ++ cs.flatMap refsOf, P x := by
    intro x hx'
    rcases List.mem_append.1 hx' with h1 | h1
    · exact hps x h1
    · obtain ⟨c, hc, ht⟩ := List.mem_flatMap.1 h1
      obtain ⟨y, _, hy⟩ := forall2_mem_right (mapM_eq_some.1 hcs) hc
      exact hr y c hy x ht
  have e1 : (List.map ρ ps ++ List.flatMap refsOf (List.map (fun c => List.map (ren ρ) c) cs)) =
      (ps ++ cs.flatMap refsOf).map ρ := by
    rw [List.map_append, List.flatMap_map, List.map_flatMap]
    congr 2
    funext c
    exact refsOf_ren ρ c
  have e2 : uniq (List.map ρ ps ++ List.flatMap refsOf (List.map (fun c => List.map (ren ρ) c) cs)) =
      (uniq (ps ++ cs.flatMap refsOf)).map ρ := by
    rw [e1]
    exact uniq_map ρ _ fun x h1 y h2 e => hP x y (hall x h1) (hall y h2) e
  rw [e2, mapM_ren hg hcont]
  simp only [Option.bind_some, Option.some.injEq]
  have e3 : (ps.map ρ).map (fun p => pos p ((uniq (ps ++ cs.flatMap refsOf)).map ρ)) =
      ps.map fun p => pos p (uniq (ps ++ cs.flatMap refsOf)) := by
    rw [List.map_map]
    apply List.map_congr_left
    intro p hp
    apply pos_map
    intro y hy e
    exact hP y p (hall y (mem_uniq.1 hy)) (hps p hp) e
  have e4 : (contents.map fun c => c.map (ren ρ)).map
      (fun c => c.map (canon ((uniq (ps ++ cs.flatMap refsOf)).map ρ))) =
      contents.map fun c => c.map (canon (uniq (ps ++ cs.flatMap refsOf))) := by
    rw [List.map_map]
    apply List.map_congr_left
    intro c hc
    simp only [Function.comp_apply, List.map_map]
    apply List.map_congr_left
    intro b hb
    apply canon_ren
    intro t k e y hy e'
    obtain ⟨z, _, hz⟩ := forall2_mem_right (mapM_eq_some.1 hcont) hc
    exact hP y t (hall y (mem_uniq.1 hy))
      (hr z c hz t (mem_refsOf.2 ⟨k, e ▸ hb⟩)) e'
  rw [e3, e4, zip_zipIdx_ren ρ, h]

/-- What a kernel changes: arrays that exist, without changing their sizes; pointers to
arrays that exist, or that had been stored there before. -/
theorem callKernel_spec [DecidableEq α] {f : KernelFn} {get : α → Option (List (Cell α))}
    {ps : List α} {ws : List (α × List (Cell α))} (h : callKernel f get ps = some ws) :
    ∀ w ∈ ws, ∃ old, get w.1 = some old ∧ w.2.length = old.length ∧
      ∀ t ∈ refsOf w.2, (get t).isSome ∨ t ∈ refsOf old := by
  unfold callKernel at h
  simp only [Option.bind_eq_some_iff] at h
  obtain ⟨cs, hcs, contents, hcont, h⟩ := h
  simp only [Option.some.injEq] at h
  subst h
  intro w hw
  obtain ⟨e, he, rfl⟩ := List.mem_map.1 hw
  have hz : e.1 ∈ (uniq (ps ++ cs.flatMap refsOf)).zip contents := by
    have := List.mem_zipIdx (x := e.1) (i := e.2) (by simpa using he)
    rw [this.2.2]
    exact List.getElem_mem _
  have hall := mapM_eq_some.1 hcont
  have h1 : get e.1.1 = some e.1.2 := by
    generalize hvs : uniq (ps ++ cs.flatMap refsOf) = vs at hz hall
    clear hw he hcs hcont hvs
    induction hall with
    | nil => simp at hz
    | cons hxy _ ih =>
      rw [List.zip_cons_cons, List.mem_cons] at hz
      rcases hz with hz | hz
      · rw [hz]
        exact hxy
      · exact ih hz
  refine ⟨_, h1, written_length _ _ _, ?_⟩
  intro t ht
  rcases written_refs ht with h2 | h2
  · left
    obtain ⟨c, _, hc⟩ := forall2_mem_left hall h2
    rw [hc]
    rfl
  · exact Or.inr h2

end Verif.Freeze
