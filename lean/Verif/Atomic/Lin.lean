import Verif.Atomic.Lang
import Mathlib.Tactic.Common

/-!
# From interleaved threads to lanes that run one after another
-/
namespace Verif.Atomic

variable {Lane V R A B : Type}

/-- Running lanes that use the same entry -/
def runOps : List (LaneOp Lane V R) → V → V × List (Lane × R)
  | [], v => (v, [])
  | o :: os, v =>
    let x := o.act v
    let y := runOps os x.1
    (y.1, (o.lane, x.2) :: y.2)

/-- What is left of a program amounts to the lanes `todo`.  `past` lists the results that lanes have
obtained before, `Q` relates the result of the program with the results of the lanes.  A value `v`
that was read may since have been replaced by values `v'` with `Le v v'`. -/
def Lin (Le : V → V → Prop) (addr : Nat → Nat) (Q : A → List (Lane × R) → Prop) :
    Act V A → List (LaneOp Lane V R) → List (Lane × R) → Prop
  | .pure a, todo, past => (∀ o ∈ todo, ∀ v, (o.act v).1 = v) ∧ Q a past
  | .load l k, todo, past => ∀ v, ∃ o c j, todo.Perm (o ++ c) ∧ addr j = l ∧ (∀ x ∈ o, x.entry = j) ∧
        (∀ v', Le v v' → (runOps o v').1 = v') ∧ Lin Le addr Q (k v) c past
  | .rmw l f k, todo, past => ∃ o c j, todo.Perm (o ++ c) ∧ addr j = l ∧ (∀ x ∈ o, x.entry = j) ∧
      ∀ v, (runOps o v).1 = f v ∧ Lin Le addr Q (k v) c (past ++ (runOps o v).2)
  | .ub, _, _ => False

theorem Lin.perm {Le : V → V → Prop} {addr : Nat → Nat} {Q : A → List (Lane × R) → Prop} {p : Act V A}
    {t t' : List (LaneOp Lane V R)} {past : List (Lane × R)} (h : Lin Le addr Q p t past) (hp : t'.Perm t) :
    Lin Le addr Q p t' past := by
  cases p with
  | pure a => exact ⟨fun o ho => h.1 o (hp.mem_iff.1 ho), h.2⟩
  | load l k =>
    intro v
    obtain ⟨o, c, j, h1, h2⟩ := h v
    exact ⟨o, c, j, hp.trans h1, h2⟩
  | rmw l f k =>
    obtain ⟨o, c, j, h1, h2⟩ := h
    exact ⟨o, c, j, hp.trans h1, h2⟩
  | ub => exact h

/-- Programs one after another -/
theorem Lin.bind {Le : V → V → Prop} {addr : Nat → Nat} {Q : A → List (Lane × R) → Prop} {Q' : B → List (Lane × R) → Prop}
    {p : Act V A} {f : A → Act V B} {t2 : List (LaneOp Lane V R)} {t1 : List (LaneOp Lane V R)} {past : List (Lane × R)}
    (h : Lin Le addr Q p t1 past) (hf : ∀ a past', Q a past' → Lin Le addr Q' (f a) t2 past')
    (hn : ∀ a past' (d : List (LaneOp Lane V R)), (∀ o ∈ d, ∀ v, (o.act v).1 = v) → Lin Le addr Q' (f a) t2 past' →
      Lin Le addr Q' (f a) (d ++ t2) past') :
    Lin Le addr Q' (p.bind f) (t1 ++ t2) past := by
  induction p generalizing t1 past with
  | pure a => exact hn a past t1 h.1 (hf a past h.2)
  | load l k ih =>
    intro v
    obtain ⟨o, c, j, h1, h2, h3, h4, h5⟩ := h v
    refine ⟨o, c ++ t2, j, ?_, h2, h3, h4, ih v h5⟩
    rw [← List.append_assoc]
    exact h1.append_right t2
  | rmw l g k ih =>
    obtain ⟨o, c, j, h1, h2, h3, h4⟩ := h
    refine ⟨o, c ++ t2, j, ?_, h2, h3, fun v => ⟨(h4 v).1, ih v (h4 v).2⟩⟩
    rw [← List.append_assoc]
    exact h1.append_right t2
  | ub => exact h.elim

/-- Lanes without an effect can be added. -/
theorem Lin.idle {Le : V → V → Prop} {addr : Nat → Nat} {Q : A → List (Lane × R) → Prop} {p : Act V A}
    {d t : List (LaneOp Lane V R)} {past : List (Lane × R)} (hd : ∀ o ∈ d, ∀ v, (o.act v).1 = v)
    (h : Lin Le addr Q p t past) : Lin Le addr Q p (d ++ t) past := by
  induction p generalizing t past with
  | pure a =>
    refine ⟨fun o ho => ?_, h.2⟩
    rcases List.mem_append.1 ho with ho | ho
    · exact hd o ho
    · exact h.1 o ho
  | load l k ih =>
    intro v
    obtain ⟨o, c, j, h1, h2, h3, h4, h5⟩ := h v
    refine ⟨o, d ++ c, j, ?_, h2, h3, h4, ih v h5⟩
    refine (List.Perm.append_left d h1).trans ?_
    rw [← List.append_assoc, ← List.append_assoc]
    exact List.perm_append_comm.append_right c
  | rmw l g k ih =>
    obtain ⟨o, c, j, h1, h2, h3, h4⟩ := h
    refine ⟨o, d ++ c, j, ?_, h2, h3, fun v => ⟨(h4 v).1, ih v (h4 v).2⟩⟩
    refine (List.Perm.append_left d h1).trans ?_
    rw [← List.append_assoc, ← List.append_assoc]
    exact List.perm_append_comm.append_right c
  | ub => exact h.elim

theorem Lin.then {Le : V → V → Prop} {addr : Nat → Nat} {Q : A → List (Lane × R) → Prop} {Q' : B → List (Lane × R) → Prop}
    {p : Act V A} {f : A → Act V B} {t2 : List (LaneOp Lane V R)} {t1 : List (LaneOp Lane V R)} {past : List (Lane × R)}
    (h : Lin Le addr Q p t1 past) (hf : ∀ a past', Q a past' → Lin Le addr Q' (f a) t2 past') :
    Lin Le addr Q' (p.bind f) (t1 ++ t2) past :=
  h.bind hf fun _ _ _ hd h => h.idle hd

theorem Lin.mono {Le : V → V → Prop} {addr : Nat → Nat} {Q Q' : A → List (Lane × R) → Prop} {p : Act V A}
    {t : List (LaneOp Lane V R)} {past : List (Lane × R)} (h : Lin Le addr Q p t past) (hq : ∀ a l, Q a l → Q' a l) :
    Lin Le addr Q' p t past := by
  induction p generalizing t past with
  | pure a => exact ⟨h.1, hq _ _ h.2⟩
  | load l k ih =>
    intro v
    obtain ⟨o, c, j, h1, h2, h3, h4, h5⟩ := h v
    exact ⟨o, c, j, h1, h2, h3, h4, ih v h5⟩
  | rmw l g k ih =>
    obtain ⟨o, c, j, h1, h2, h3, h4⟩ := h
    exact ⟨o, c, j, h1, h2, h3, fun v => ⟨(h4 v).1, ih v (h4 v).2⟩⟩
  | ub => exact h.elim

/-- Results that were obtained earlier are kept. -/
theorem Lin.past {Le : V → V → Prop} {addr : Nat → Nat} {Q : A → List (Lane × R) → Prop} {p : Act V A}
    {t : List (LaneOp Lane V R)} {past : List (Lane × R)} (pre : List (Lane × R)) (h : Lin Le addr Q p t past) :
    Lin Le addr (fun a l => ∃ l', l = pre ++ l' ∧ Q a l') p t (pre ++ past) := by
  induction p generalizing t past with
  | pure a => exact ⟨h.1, past, rfl, h.2⟩
  | load l k ih =>
    intro v
    obtain ⟨o, c, j, h1, h2, h3, h4, h5⟩ := h v
    exact ⟨o, c, j, h1, h2, h3, h4, ih v h5⟩
  | rmw l g k ih =>
    obtain ⟨o, c, j, h1, h2, h3, h4⟩ := h
    refine ⟨o, c, j, h1, h2, h3, fun v => ⟨(h4 v).1, ?_⟩⟩
    rw [List.append_assoc]
    exact ih v (h4 v).2
  | ub => exact h.elim

/-! ### Sequential runs -/

theorem seqRun_append (os os' : List (LaneOp Lane V R)) (a : Nat → V) :
    seqRun (os ++ os') a = ((seqRun os' (seqRun os a).1).1, (seqRun os a).2 ++ (seqRun os' (seqRun os a).1).2) := by
  induction os generalizing a with
  | nil => rfl
  | cons o os ih => rw [List.cons_append, seqRun, ih]; rfl

theorem seqRun_entry (os : List (LaneOp Lane V R)) (j : Nat) (h : ∀ x ∈ os, x.entry = j) (a : Nat → V) :
    seqRun os a = (setEntry a j (runOps os (a j)).1, (runOps os (a j)).2) := by
  induction os generalizing a with
  | nil =>
    simp only [seqRun, runOps, Prod.mk.injEq, and_true]
    funext x; unfold setEntry; split
    · rename_i h; rw [h]
    · rfl
  | cons o os ih =>
    have e := h o (List.mem_cons_self ..)
    rw [seqRun, ih (fun x hx => h x (List.mem_cons_of_mem _ hx)), e]
    have e2 : ∀ v : V, setEntry a j v j = v := fun v => by simp [setEntry]
    simp only [runOps, e2, Prod.mk.injEq, and_true]
    funext x
    by_cases e : x = j
    · simp only [setEntry, if_pos e]
    · simp only [setEntry, if_neg e]

theorem seqRun_idle (os : List (LaneOp Lane V R)) (h : ∀ o ∈ os, ∀ v, (o.act v).1 = v) (a : Nat → V) :
    (seqRun os a).1 = a := by
  induction os generalizing a with
  | nil => rfl
  | cons o os ih =>
    rw [seqRun, h o (List.mem_cons_self ..)]
    have e : setEntry a o.entry (a o.entry) = a := by
      funext x; unfold setEntry; split
      · rename_i h; rw [h]
      · rfl
    rw [e]
    exact ih (fun o ho => h o (List.mem_cons_of_mem _ ho)) a

/-! ### The invariant -/

/-- A thread with what it still has to do and the results of its lanes so far -/
structure Thr (Lane V R A : Type) where
  prog : Act V A
  todo : List (LaneOp Lane V R)
  past : List (Lane × R)
  Q : A → List (Lane × R) → Prop

structure Inv (Le : V → V → Prop) (addr : Nat → Nat) (mem : Nat → V) (ops : List (LaneOp Lane V R))
    (Qs : List (A → List (Lane × R) → Prop)) (s : St V A) (ts : List (Thr Lane V R A)) (done : List (LaneOp Lane V R)) : Prop where
  thr : s.thr = ts.map Thr.prog
  qs : Qs = ts.map Thr.Q
  run : (seqRun done fun j => mem (addr j)).1 = fun j => s.mem (addr j)
  frame : ∀ l, (∀ j, addr j ≠ l) → s.mem l = mem l
  perm : (done ++ (ts.map Thr.todo).flatten).Perm ops
  lin : ∀ t ∈ ts, Lin Le addr t.Q t.prog t.todo t.past
  past : ∀ t ∈ ts, t.past ⊆ (seqRun done fun j => mem (addr j)).2
  old : ∀ l v, v ∈ s.old l → Le v (s.mem l)

theorem flatten_set (ts : List (List B)) (i : Nat) (t o c : List B) (h : ts[i]? = some t) (hp : t.Perm (o ++ c)) :
    ts.flatten.Perm (o ++ (ts.set i c).flatten) := by
  induction ts generalizing i with
  | nil => cases h
  | cons x xs ih =>
    cases i with
    | zero =>
      cases h
      simp only [List.flatten_cons, List.set_cons_zero]
      rw [← List.append_assoc]
      exact hp.append_right _
    | succ i =>
      simp only [List.flatten_cons, List.set_cons_succ]
      have h' : xs[i]? = some t := by simpa using h
      refine (List.Perm.append_left x (ih i h')).trans ?_
      rw [← List.append_assoc, ← List.append_assoc]
      exact List.perm_append_comm.append_right _

theorem runOps_le {Le : V → V → Prop} (hr : ∀ v, Le v v) (ht : ∀ a b c, Le a b → Le b c → Le a c)
    (os : List (LaneOp Lane V R)) (ho : ∀ o ∈ os, ∀ v, Le v (o.act v).1) (v : V) : Le v (runOps os v).1 := by
  induction os generalizing v with
  | nil => exact hr v
  | cons o os ih =>
    rw [runOps]
    exact ht _ _ _ (ho o (List.mem_cons_self ..) v) (ih (fun o h => ho o (List.mem_cons_of_mem _ h)) _)

section
variable {Le : V → V → Prop} {addr : Nat → Nat} {mem : Nat → V} {ops : List (LaneOp Lane V R)} {Qs : List (A → List (Lane × R) → Prop)}

theorem set_perm {ts : List (Thr Lane V R A)} {i : Nat} {t : Thr Lane V R A} {o c done : List (LaneOp Lane V R)} {p : Act V A}
    {past : List (Lane × R)} (hi : ts[i]? = some t) (h1 : t.todo.Perm (o ++ c))
    (hp : (done ++ (ts.map Thr.todo).flatten).Perm ops) :
    (done ++ o ++ ((ts.set i { t with prog := p, todo := c, past := past }).map Thr.todo).flatten).Perm ops := by
  have := flatten_set (ts.map Thr.todo) i t.todo o c (by simp [hi]) h1
  rw [List.map_set]
  refine List.Perm.trans ?_ hp
  rw [List.append_assoc]
  exact List.Perm.append_left _ this.symm

theorem inv_step (hr : ∀ v, Le v v) (ht : ∀ a b c, Le a b → Le b c → Le a c) (hinj : Function.Injective addr)
    (hle : ∀ o ∈ ops, ∀ v, Le v (o.act v).1)
    {s s' : St V A} {ts : List (Thr Lane V R A)} {done : List (LaneOp Lane V R)} (h : Inv Le addr mem ops Qs s ts done)
    (hs : Step s s') : ∃ ts' done', Inv Le addr mem ops Qs s' ts' done' := by
  cases hs with
  | load i l k v hi hv =>
    rw [h.thr] at hi
    rw [List.getElem?_map] at hi
    obtain ⟨t, hti, hp⟩ := Option.map_eq_some_iff.1 hi
    have htm := List.mem_of_getElem? hti
    have hl := h.lin t htm
    rw [hp] at hl
    obtain ⟨o, c, j, h1, h2, h3, h4, h5⟩ := hl v
    have hlev : Le v (s.mem l) := by
      rcases hv with hv | hv
      · rw [hv]; exact hr _
      · exact h.old l v hv
    have hrun : seqRun (done ++ o) (fun j => mem (addr j)) = ((fun j => s.mem (addr j)),
        (seqRun done fun j => mem (addr j)).2 ++ (runOps o (s.mem (addr j))).2) := by
      rw [seqRun_append, h.run, seqRun_entry o j h3]
      simp only [Prod.mk.injEq, and_true]
      have := h4 (s.mem l) hlev
      rw [← h2] at this
      rw [this]
      funext x; unfold setEntry; split
      · rename_i hx; rw [hx]
      · rfl
    refine ⟨ts.set i { t with prog := k v, todo := c }, done ++ o, ⟨?_, ?_, ?_, h.frame, set_perm hti h1 h.perm, ?_, ?_, h.old⟩⟩
    · simp only; rw [h.thr, List.map_set]
    · rw [h.qs, List.map_set]
      refine (List.ext_getElem? fun n => ?_).symm
      rw [List.getElem?_set]
      split
      · rename_i e; subst e; simp [(List.getElem?_eq_some_iff.1 hti).1, (List.getElem?_eq_some_iff.1 hti).2]
      · rfl
    · rw [hrun]
    · intro t' ht'
      rcases List.mem_or_eq_of_mem_set ht' with h' | h'
      · exact h.lin t' h'
      · subst h'; exact h5
    · rw [hrun]
      intro t' ht'
      have key : ∀ t ∈ ts, t.past ⊆ (seqRun done fun j => mem (addr j)).2 ++ (runOps o (s.mem (addr j))).2 :=
        fun t ht x hx => List.mem_append_left _ (h.past t ht hx)
      rcases List.mem_or_eq_of_mem_set ht' with h' | h'
      · exact key t' h'
      · subst h'; exact key t htm
  | rmw i l f k hi =>
    rw [h.thr] at hi
    rw [List.getElem?_map] at hi
    obtain ⟨t, hti, hp⟩ := Option.map_eq_some_iff.1 hi
    have htm := List.mem_of_getElem? hti
    have hl := h.lin t htm
    rw [hp] at hl
    obtain ⟨o, c, j, h1, h2, h3, h4⟩ := hl
    obtain ⟨h5, h6⟩ := h4 (s.mem l)
    subst h2
    have hrun : seqRun (done ++ o) (fun j => mem (addr j)) = (setEntry (fun j => s.mem (addr j)) j (f (s.mem (addr j))),
        (seqRun done fun j => mem (addr j)).2 ++ (runOps o (s.mem (addr j))).2) := by
      rw [seqRun_append, h.run, seqRun_entry o j h3, h5]
    have ho : ∀ x ∈ o, ∀ v, Le v (x.act v).1 := by
      intro x hx
      refine hle x (h.perm.mem_iff.1 ?_)
      refine List.mem_append_right _ (List.mem_flatten.2 ⟨t.todo, List.mem_map.2 ⟨t, htm, rfl⟩, ?_⟩)
      exact h1.mem_iff.2 (List.mem_append_left _ hx)
    refine ⟨ts.set i { t with prog := k (s.mem (addr j)), todo := c, past := t.past ++ (runOps o (s.mem (addr j))).2 },
      done ++ o, ⟨?_, ?_, ?_, ?_, set_perm hti h1 h.perm, ?_, ?_, ?_⟩⟩
    · simp only; rw [h.thr, List.map_set]
    · rw [h.qs, List.map_set]
      refine (List.ext_getElem? fun n => ?_).symm
      rw [List.getElem?_set]
      split
      · rename_i e; subst e; simp [(List.getElem?_eq_some_iff.1 hti).1, (List.getElem?_eq_some_iff.1 hti).2]
      · rfl
    · rw [hrun]
      funext x
      simp only [setEntry]
      by_cases e : x = j
      · subst e; simp
      · rw [if_neg e, if_neg fun hc => e (hinj hc)]
    · intro l hl
      simp only
      rw [if_neg (fun e => hl j e.symm), h.frame l hl]
    · intro t' ht'
      rcases List.mem_or_eq_of_mem_set ht' with h' | h'
      · exact h.lin t' h'
      · subst h'; exact h6
    · rw [hrun]
      intro t' ht'
      rcases List.mem_or_eq_of_mem_set ht' with h' | h'
      · exact fun x hx => List.mem_append_left _ (h.past t' h' hx)
      · subst h'
        intro x hx
        rcases List.mem_append.1 hx with hx | hx
        · exact List.mem_append_left _ (h.past t htm hx)
        · exact List.mem_append_right _ hx
    · intro l v hv
      simp only at hv ⊢
      by_cases e : l = addr j
      · subst e
        rw [if_pos rfl] at hv ⊢
        have h7 := runOps_le hr ht o ho (s.mem (addr j))
        rw [h5] at h7
        rcases List.mem_cons.1 hv with hv | hv
        · rw [hv]; exact h7
        · exact ht _ _ _ (h.old _ v hv) h7
      · rw [if_neg e] at hv ⊢
        exact h.old l v hv

theorem inv_steps (hr : ∀ v, Le v v) (ht : ∀ a b c, Le a b → Le b c → Le a c) (hinj : Function.Injective addr)
    (hle : ∀ o ∈ ops, ∀ v, Le v (o.act v).1)
    {s s' : St V A} {ts : List (Thr Lane V R A)} (h : Inv Le addr mem ops Qs s ts [])
    (hs : Steps s s') : ∃ ts' done', Inv Le addr mem ops Qs s' ts' done' := by
  induction hs with
  | refl => exact ⟨ts, [], h⟩
  | tail _ h2 ih =>
    obtain ⟨ts', done', h'⟩ := ih
    exact inv_step hr ht hinj hle h' h2

end

/-- What a thread amounts to: its program, its lanes, and what its result says about their results -/
structure Job (Lane V R A : Type) where
  prog : Act V A
  ops : List (LaneOp Lane V R)
  Q : A → List (Lane × R) → Prop

theorem inv_start {Le : V → V → Prop} {addr : Nat → Nat} (mem : Nat → V) (js : List (Job Lane V R A))
    (hl : ∀ j ∈ js, Lin Le addr j.Q j.prog j.ops []) :
    Inv Le addr mem (js.map Job.ops).flatten (js.map Job.Q) (start mem (js.map Job.prog))
      (js.map fun j => { prog := j.prog, todo := j.ops, past := [], Q := j.Q }) [] := by
  refine ⟨?_, ?_, rfl, fun _ _ => rfl, ?_, ?_, ?_, ?_⟩
  · simp [start]
  · simp
  · simp only [List.nil_append, List.map_map]
    exact List.Perm.refl _
  · intro t ht
    obtain ⟨j, hj, rfl⟩ := List.mem_map.1 ht
    exact hl j hj
  · intro t ht
    obtain ⟨j, hj, rfl⟩ := List.mem_map.1 ht
    exact List.nil_subset _
  · intro l v hv
    cases hv

/-- **Rule.**  Every execution has the effect of some sequential order of all lanes. -/
theorem linearize {Le : V → V → Prop} {addr : Nat → Nat} {mem mem' : Nat → V} {js : List (Job Lane V R A)} {outs : List A}
    (hr : ∀ v, Le v v) (ht : ∀ a b c, Le a b → Le b c → Le a c) (hinj : Function.Injective addr)
    (hl : ∀ j ∈ js, Lin Le addr j.Q j.prog j.ops [])
    (hle : ∀ j ∈ js, ∀ o ∈ j.ops, ∀ v, Le v (o.act v).1) (he : Ends mem (js.map Job.prog) mem' outs) :
    (∃ order rs, order.Perm (js.map Job.ops).flatten ∧ seqRun order (fun j => mem (addr j)) = ((fun j => mem' (addr j)), rs) ∧
      List.Forall₂ (fun j a => ∃ past, past ⊆ rs ∧ j.Q a past) js outs) ∧
    ∀ l, (∀ j, addr j ≠ l) → mem' l = mem l := by
  obtain ⟨old, he⟩ := he
  have hle' : ∀ o ∈ (js.map Job.ops).flatten, ∀ v, Le v (o.act v).1 := by
    intro o ho
    obtain ⟨t, h1, h2⟩ := List.mem_flatten.1 ho
    obtain ⟨j, hj, rfl⟩ := List.mem_map.1 h1
    exact hle j hj o h2
  obtain ⟨ts, done, h⟩ := inv_steps hr ht hinj hle' (inv_start mem js hl) he
  refine ⟨⟨done ++ (ts.map Thr.todo).flatten, (seqRun done fun j => mem (addr j)).2 ++
    (seqRun (ts.map Thr.todo).flatten fun j => mem' (addr j)).2, h.perm, ?_, ?_⟩, h.frame⟩
  · rw [seqRun_append, h.run]
    simp only [Prod.mk.injEq, and_true]
    refine seqRun_idle _ (fun o ho => ?_) _
    obtain ⟨t, h1, h2⟩ := List.mem_flatten.1 ho
    obtain ⟨t, ht, rfl⟩ := List.mem_map.1 h1
    have hlin := h.lin t ht
    have : t.prog ∈ outs.map Act.pure := by
      have := h.thr; simp only at this; rw [this]; exact List.mem_map.2 ⟨t, ht, rfl⟩
    obtain ⟨a, _, ha⟩ := List.mem_map.1 this
    rw [← ha] at hlin
    exact hlin.1 o h2
  · have h1 := h.thr
    have h2 := h.qs
    simp only at h1
    have h3 := h.lin
    have h4 := h.past
    clear h he hl hle hle'
    generalize (seqRun done fun j => mem (addr j)).2 = rs at h4 ⊢
    generalize (seqRun (ts.map Thr.todo).flatten fun j => mem' (addr j)).2 = rs' 
    induction ts generalizing outs js with
    | nil =>
      simp only [List.map_nil, List.map_eq_nil_iff] at h1 h2
      rw [h1, h2]; exact .nil
    | cons t ts ih =>
      cases outs with
      | nil => simp at h1
      | cons a outs =>
        cases js with
        | nil => simp at h2
        | cons j js =>
          simp only [List.map_cons, List.cons.injEq] at h1 h2
          refine .cons ⟨t.past, fun x hx => List.mem_append_left _ (h4 t (List.mem_cons_self ..) hx), ?_⟩
            (ih h1.2 h2.2 (fun t ht => h3 t (List.mem_cons_of_mem _ ht)) (fun t ht => h4 t (List.mem_cons_of_mem _ ht)))
          have := h3 t (List.mem_cons_self ..)
          rw [← h1.1] at this
          rw [h2.1]
          exact this.2

/-- **Rule.**  No execution has undefined behaviour. -/
theorem lin_safe {Le : V → V → Prop} {addr : Nat → Nat} {mem : Nat → V} {js : List (Job Lane V R A)}
    (hr : ∀ v, Le v v) (ht : ∀ a b c, Le a b → Le b c → Le a c) (hinj : Function.Injective addr)
    (hl : ∀ j ∈ js, Lin Le addr j.Q j.prog j.ops [])
    (hle : ∀ j ∈ js, ∀ o ∈ j.ops, ∀ v, Le v (o.act v).1) : Safe mem (js.map Job.prog) := by
  intro s hs hub
  have hle' : ∀ o ∈ (js.map Job.ops).flatten, ∀ v, Le v (o.act v).1 := by
    intro o ho
    obtain ⟨t, h1, h2⟩ := List.mem_flatten.1 ho
    obtain ⟨j, hj, rfl⟩ := List.mem_map.1 h1
    exact hle j hj o h2
  obtain ⟨ts, done, h⟩ := inv_steps hr ht hinj hle' (inv_start mem js hl) hs
  rw [h.thr] at hub
  obtain ⟨t, ht, hp⟩ := List.mem_map.1 hub
  have := h.lin t ht
  rw [hp] at this
  exact this

/-- Programs without undefined behaviour end, in every interleaving: every reachable state either is
final or can take a step. -/
theorem progress {s : St V A} (h : .ub ∉ s.thr) : (∃ outs : List A, s.thr = outs.map .pure) ∨ ∃ s', Step s s' := by
  by_cases hp : ∃ p ∈ s.thr, ∀ a : A, p ≠ .pure a
  · obtain ⟨p, hp1, hp2⟩ := hp
    obtain ⟨i, hi, rfl⟩ := List.mem_iff_getElem.1 hp1
    have hg : s.thr[i]? = some s.thr[i] := List.getElem?_eq_getElem hi
    refine .inr ?_
    cases e : s.thr[i] with
    | pure a => exact (hp2 a e).elim
    | load l k => exact ⟨_, .load s i l k (s.mem l) (by rw [hg, e]) (.inl rfl)⟩
    | rmw l f k => exact ⟨_, .rmw s i l f k (by rw [hg, e])⟩
    | ub => exact (h (e ▸ List.getElem_mem hi)).elim
  · refine .inl ?_
    have hp : ∀ p ∈ s.thr, ∃ a : A, p = .pure a := fun p hm => by
      by_contra hc
      exact hp ⟨p, hm, fun a ha => hc ⟨a, ha⟩⟩
    clear h
    generalize s.thr = ps at hp
    induction ps with
    | nil => exact ⟨[], rfl⟩
    | cons p ps ih =>
      obtain ⟨as, h1⟩ := ih fun p h => hp p (List.mem_cons_of_mem _ h)
      obtain ⟨a, h2⟩ := hp p (List.mem_cons_self ..)
      exact ⟨a :: as, by rw [h1, h2]; rfl⟩

end Verif.Atomic
