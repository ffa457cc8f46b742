import Mathlib.Data.Set.Basic
import Mathlib.Tactic.Common

/-!
# Parallel tasks on shared memory

A small language of tasks that read and write single memory locations, its interleaving semantics,
and a proof rule: tasks that do not touch what other tasks write have the same effect in every
interleaving as if each of them was run alone.

This models the thread pool interface used by `/repo/src/llvm_ts.cpp` (`submit_cpu`, lines 11-48):
one submission runs a function for all indices `0 .. size-1` concurrently, and starts after the
preceding submission of the same thread has completed (dependency on `jitc_task`).  The thread pool
itself (nanothread) is not modelled.
-/
namespace Verif.Par

/-- A task: finished, or the next memory access and how it continues -/
inductive Prog (L V α : Type) where
  | pure (a : α) : Prog L V α
  | read (l : L) (k : V → Prog L V α) : Prog L V α
  | write (l : L) (v : V) (k : Prog L V α) : Prog L V α

variable {L V α β : Type}

namespace Prog

/-- Sequential composition -/
def bind : Prog L V α → (α → Prog L V β) → Prog L V β
  | .pure a, f => f a
  | .read l k, f => .read l (fun v => bind (k v) f)
  | .write l v k, f => .write l v (bind k f)

/-- Reading a location -/
def get (l : L) : Prog L V V := .read l .pure
/-- Writing a location -/
def put (l : L) (v : V) : Prog L V Unit := .write l v (.pure ())

instance : Monad (Prog L V) where
  pure := .pure
  bind := bind

/-- `n` iterations with an accumulator; the body is given the number of the iteration -/
def loop (n : Nat) (a : α) (body : Nat → α → Prog L V α) : Prog L V α :=
  match n with
  | 0 => .pure a
  | n + 1 => bind (loop n a body) (fun a => body n a)

end Prog

/-- Change of one location -/
def upd [DecidableEq L] (m : L → V) (l : L) (v : V) : L → V := fun x => if x = l then v else m x

variable [DecidableEq L]

/-- Running `p` alone from `m` reads only from `R`, writes only to `W`, and ends with a result and a
memory that satisfy `Q`. -/
def wp (R W : Set L) : Prog L V α → (L → V) → (α → (L → V) → Prop) → Prop
  | .pure a, m, Q => Q a m
  | .read l k, m, Q => l ∈ R ∧ wp R W (k (m l)) m Q
  | .write l v k, m, Q => l ∈ W ∧ wp R W k (upd m l v) Q

/-- State of a group of concurrent tasks: the memory and what is left to do for each task -/
abbrev PState (L V : Type) := (L → V) × (Nat → Prog L V Unit)

/-- One access by any of the tasks -/
inductive PStep : PState L V → PState L V → Prop
  | read (m : L → V) (ps : Nat → Prog L V Unit) (i : Nat) (l : L) (k : V → Prog L V Unit) : ps i = .read l k →
      PStep (m, ps) (m, fun j => if j = i then k (m l) else ps j)
  | write (m : L → V) (ps : Nat → Prog L V Unit) (i : Nat) (l : L) (v : V) (k : Prog L V Unit) : ps i = .write l v k →
      PStep (m, ps) (upd m l v, fun j => if j = i then k else ps j)

/-- Sequences of steps -/
inductive PSteps : PState L V → PState L V → Prop
  | refl (s) : PSteps s s
  | step {s t u} : PSteps s t → PStep t u → PSteps s u

/-- The tasks `f 0 .. f (n-1)` -/
def tasks (n : Nat) (f : Nat → Prog L V Unit) : Nat → Prog L V Unit := fun i => if i < n then f i else .pure ()

/-- A submission: number of tasks and the function -/
abbrev Phase (L V : Type) := Nat × (Nat → Prog L V Unit)

/-- The group may end with memory `m'` -/
def Phase.Ends (p : Phase L V) (m m' : L → V) : Prop :=
  ∃ ps, PSteps (m, tasks p.1 p.2) (m', ps) ∧ ∀ i, ps i = .pure ()

/-- Consecutive submissions may end with memory `m'` -/
def Ends : List (Phase L V) → (L → V) → (L → V) → Prop
  | [], m, m' => m' = m
  | p :: ps, m, m' => ∃ m1, p.Ends m m1 ∧ Ends ps m1 m'

/-- All accesses, in all interleavings, of consecutive submissions satisfy `ok` (`true`: write) -/
def Phase.Safe (p : Phase L V) (ok : Bool → L → Prop) (m : L → V) : Prop :=
  ∀ m' ps i, PSteps (m, tasks p.1 p.2) (m', ps) →
    (∀ l k, ps i = .read l k → ok false l) ∧ (∀ l v k, ps i = .write l v k → ok true l)

@[inherit_doc Phase.Safe]
def Safe (ok : Bool → L → Prop) : List (Phase L V) → (L → V) → Prop
  | [], _ => True
  | p :: ps, m => p.Safe ok m ∧ ∀ m1, p.Ends m m1 → Safe ok ps m1

/-! ### Rules for single tasks -/

theorem wp_bind (R W : Set L) (p : Prog L V α) (f : α → Prog L V β) (m : L → V) (Q : β → (L → V) → Prop) :
    wp R W (p.bind f) m Q ↔ wp R W p m (fun a m => wp R W (f a) m Q) := by
  induction p generalizing m with
  | pure a => rfl
  | read l k ih => simp only [Prog.bind, wp, ih]
  | write l v k ih => simp only [Prog.bind, wp, ih]

theorem wp_mono {R W : Set L} {p : Prog L V α} {m : L → V} {Q Q' : α → (L → V) → Prop}
    (h : wp R W p m Q) (hq : ∀ a m, Q a m → Q' a m) : wp R W p m Q' := by
  induction p generalizing m with
  | pure a => exact hq _ _ h
  | read l k ih => exact ⟨h.1, ih _ h.2⟩
  | write l v k ih => exact ⟨h.1, ih h.2⟩

theorem wp_sets {R W R' W' : Set L} (hR : R ⊆ R') (hW : W ⊆ W') {p : Prog L V α} {m : L → V} {Q : α → (L → V) → Prop}
    (h : wp R W p m Q) : wp R' W' p m Q := by
  induction p generalizing m with
  | pure a => exact h
  | read l k ih => exact ⟨hR h.1, ih _ h.2⟩
  | write l v k ih => exact ⟨hW h.1, ih h.2⟩

theorem wp_frame {R W : Set L} {p : Prog L V α} {m : L → V} {Q : α → (L → V) → Prop}
    (h : wp R W p m Q) : wp R W p m (fun a m' => Q a m' ∧ ∀ l, l ∉ W → m' l = m l) := by
  induction p generalizing m with
  | pure a => exact ⟨h, fun _ _ => rfl⟩
  | read l k ih => exact ⟨h.1, ih _ h.2⟩
  | write l v k ih =>
    refine ⟨h.1, wp_mono (ih h.2) ?_⟩
    rintro a m' ⟨h1, h2⟩
    refine ⟨h1, fun x hx => ?_⟩
    rw [h2 x hx, upd, if_neg]
    rintro rfl; exact hx h.1

theorem wp_get {R W : Set L} {l : L} {m : L → V} {Q : V → (L → V) → Prop} (hl : l ∈ R) (h : Q (m l) m) :
    wp R W (Prog.get l) m Q := ⟨hl, h⟩

theorem wp_put {R W : Set L} {l : L} {v : V} {m : L → V} {Q : Unit → (L → V) → Prop} (hl : l ∈ W) (h : Q () (upd m l v)) :
    wp R W (Prog.put l v) m Q := ⟨hl, h⟩

theorem wp_loop {R W : Set L} {body : Nat → α → Prog L V α} (I : Nat → α → (L → V) → Prop) {n : Nat} {a : α} {m : L → V}
    (h0 : I 0 a m) (hs : ∀ k a m, k < n → I k a m → wp R W (body k a) m (I (k + 1))) :
    wp R W (Prog.loop n a body) m (I n) := by
  induction n with
  | zero => exact h0
  | succ n ih =>
    unfold Prog.loop
    rw [wp_bind]
    exact wp_mono (ih (fun k a m hk => hs k a m (by omega))) (fun a m h => hs n a m (by omega) h)

/-! ### The rule for groups of tasks -/

section
variable {n : Nat} {R W : Nat → Set L} {Q : Nat → (L → V) → Prop} {m0 : L → V}

/-- What holds during the execution of a group -/
structure PInv (n : Nat) (R W : Nat → Set L) (Q : Nat → (L → V) → Prop) (m0 : L → V) (s : PState L V) : Prop where
  run : ∀ i, i < n → ∃ mi, wp (R i) (W i) (s.2 i) mi (fun _ => Q i) ∧ ∀ l, l ∈ R i ∨ l ∈ W i → s.1 l = mi l
  out : ∀ l, (∀ i, i < n → l ∉ W i) → s.1 l = m0 l
  idle : ∀ i, n ≤ i → s.2 i = .pure ()

theorem pinv_step (hd : ∀ i j, i < n → j < n → i ≠ j → ∀ l, l ∈ W i → l ∉ R j ∧ l ∉ W j)
    {s t : PState L V} (h : PInv n R W Q m0 s) (hs : PStep s t) : PInv n R W Q m0 t := by
  cases hs with
  | read m ps i l k hi =>
    have hin : i < n := by
      by_contra hc; have := h.idle i (by omega); simp only at this; rw [hi] at this; cases this
    refine ⟨fun j hj => ?_, h.out, fun j hj => ?_⟩
    · obtain ⟨mi, h1, h2⟩ := h.run j hj
      by_cases e : j = i
      · subst e
        simp only at h1; rw [hi] at h1
        refine ⟨mi, ?_, h2⟩
        simp only [if_true]
        have e2 : m l = mi l := h2 l (Or.inl h1.1)
        rw [e2]
        exact h1.2
      · simp only [if_neg e]
        exact ⟨mi, h1, h2⟩
    · have e : j ≠ i := by omega
      simp only [if_neg e]; exact h.idle j hj
  | write m ps i l v k hi =>
    have hin : i < n := by
      by_contra hc; have := h.idle i (by omega); simp only at this; rw [hi] at this; cases this
    obtain ⟨mi, g1, g2⟩ := h.run i hin
    simp only at g1; rw [hi] at g1
    refine ⟨fun j hj => ?_, fun x hx => ?_, fun j hj => ?_⟩
    · by_cases e : j = i
      · subst e
        refine ⟨upd mi l v, ?_, fun x hx => ?_⟩
        · simp only [if_true]; exact g1.2
        · simp only [upd]
          split
          · rfl
          · exact g2 x hx
      · obtain ⟨mj, h1, h2⟩ := h.run j hj
        simp only [if_neg e]
        refine ⟨mj, h1, fun x hx => ?_⟩
        have := hd i j hin hj (Ne.symm e) l g1.1
        have hne : x ≠ l := by
          rintro rfl
          rcases hx with hx | hx
          · exact this.1 hx
          · exact this.2 hx
        simp only [upd, if_neg hne]
        exact h2 x hx
    · have hne : x ≠ l := by rintro rfl; exact hx i hin g1.1
      simp only [upd, if_neg hne]
      exact h.out x hx
    · have e : j ≠ i := by omega
      simp only [if_neg e]; exact h.idle j hj

theorem pinv_steps (hd : ∀ i j, i < n → j < n → i ≠ j → ∀ l, l ∈ W i → l ∉ R j ∧ l ∉ W j)
    {s t : PState L V} (h : PInv n R W Q m0 s) (hs : PSteps s t) : PInv n R W Q m0 t := by
  induction hs with
  | refl => exact h
  | step _ h2 ih => exact pinv_step hd ih h2

theorem pinv_start {f : Nat → Prog L V Unit} (hw : ∀ i, i < n → wp (R i) (W i) (f i) m0 (fun _ => Q i)) :
    PInv n R W Q m0 (m0, tasks n f) := by
  refine ⟨fun i hi => ⟨m0, ?_, fun _ _ => rfl⟩, fun _ _ => rfl, fun i hi => ?_⟩
  · simp only [tasks, if_pos hi]; exact hw i hi
  · simp only [tasks, if_neg (show ¬ i < n by omega)]

/-- **Rule.**  If no task accesses what another one writes, then after any interleaving every
location has the value it gets when the task that writes it is run alone. -/
theorem phase_spec {f : Nat → Prog L V Unit}
    (hd : ∀ i j, i < n → j < n → i ≠ j → ∀ l, l ∈ W i → l ∉ R j ∧ l ∉ W j)
    (hw : ∀ i, i < n → wp (R i) (W i) (f i) m0 (fun _ => Q i)) {m' : L → V} (h : Phase.Ends (n, f) m0 m') :
    (∀ i, i < n → ∃ mi, Q i mi ∧ (∀ l, l ∈ W i → m' l = mi l) ∧ ∀ l, l ∉ W i → mi l = m0 l) ∧
    ∀ l, (∀ i, i < n → l ∉ W i) → m' l = m0 l := by
  obtain ⟨ps, h1, h2⟩ := h
  have hi := pinv_steps hd (pinv_start (Q := fun i m => Q i m ∧ ∀ l, l ∉ W i → m l = m0 l)
    (fun i hi => wp_frame (hw i hi))) h1
  refine ⟨fun i hin => ?_, hi.out⟩
  obtain ⟨mi, g1, g2⟩ := hi.run i hin
  simp only at g1
  rw [h2 i] at g1
  exact ⟨mi, g1.1, fun l hl => g2 l (Or.inr hl), g1.2⟩

/-- **Rule.**  Accesses stay within the stated sets. -/
theorem phase_safe {f : Nat → Prog L V Unit} {ok : Bool → L → Prop}
    (hd : ∀ i j, i < n → j < n → i ≠ j → ∀ l, l ∈ W i → l ∉ R j ∧ l ∉ W j)
    (hw : ∀ i, i < n → wp (R i) (W i) (f i) m0 (fun _ => Q i))
    (hR : ∀ i, i < n → ∀ l, l ∈ R i → ok false l) (hW : ∀ i, i < n → ∀ l, l ∈ W i → ok true l) :
    Phase.Safe (n, f) ok m0 := by
  intro m' ps i hs
  have hi := pinv_steps hd (pinv_start hw) hs
  by_cases hin : i < n
  · obtain ⟨mi, g1, _⟩ := hi.run i hin
    simp only at g1
    refine ⟨fun l k hk => ?_, fun l v k hk => ?_⟩
    · rw [hk] at g1; exact hR i hin l g1.1
    · rw [hk] at g1; exact hW i hin l g1.1
  · have := hi.idle i (by omega)
    simp only at this
    refine ⟨fun l k hk => ?_, fun l v k hk => ?_⟩
    · rw [hk] at this; cases this
    · rw [hk] at this; cases this

end

/-! ### Every group can run to completion -/

theorem psteps_trans {s t u : PState L V} (h1 : PSteps s t) (h2 : PSteps t u) : PSteps s u := by
  induction h2 with
  | refl => exact h1
  | step _ h ih => exact ih.step h

theorem run_one (m : L → V) (ps : Nat → Prog L V Unit) (i : Nat) :
    ∃ m', PSteps (m, ps) (m', fun j => if j = i then .pure () else ps j) := by
  generalize hp : ps i = p
  induction p generalizing m ps with
  | pure a =>
    refine ⟨m, ?_⟩
    have e : (fun j => if j = i then .pure () else ps j) = ps := by
      funext j; split
      · rename_i h; subst h; exact hp.symm
      · rfl
    rw [e]; exact .refl _
  | read l k ih =>
    obtain ⟨m', h⟩ := ih (m l) m (fun j => if j = i then k (m l) else ps j) (by simp)
    refine ⟨m', ?_⟩
    have e : (fun j => if j = i then Prog.pure () else if j = i then k (m l) else ps j)
        = (fun j => if j = i then Prog.pure () else ps j) := by
      funext j; split <;> rfl
    rw [e] at h
    exact psteps_trans ((PSteps.refl _).step (.read m ps i l k hp)) h
  | write l v k ih =>
    obtain ⟨m', h⟩ := ih (upd m l v) (fun j => if j = i then k else ps j) (by simp)
    refine ⟨m', ?_⟩
    have e : (fun j => if j = i then Prog.pure () else if j = i then k else ps j)
        = (fun j => if j = i then Prog.pure () else ps j) := by
      funext j; split <;> rfl
    rw [e] at h
    exact psteps_trans ((PSteps.refl _).step (.write m ps i l v k hp)) h

theorem phase_ends (p : Phase L V) (m : L → V) : ∃ m', p.Ends m m' := by
  obtain ⟨n, f⟩ := p
  have key : ∀ k, k ≤ n → ∃ m', PSteps (m, tasks n f) (m', fun j => if j < k then .pure () else tasks n f j) := by
    intro k
    induction k with
    | zero => intro _; refine ⟨m, ?_⟩; simp only [Nat.not_lt_zero, if_false]; exact .refl _
    | succ k ih =>
      intro hk
      obtain ⟨m1, h1⟩ := ih (by omega)
      obtain ⟨m2, h2⟩ := run_one m1 (fun j => if j < k then .pure () else tasks n f j) k
      refine ⟨m2, psteps_trans h1 ?_⟩
      have e : (fun j => if j = k then Prog.pure () else if j < k then Prog.pure () else tasks n f j)
          = (fun j => if j < k + 1 then Prog.pure () else tasks n f j) := by
        funext j
        by_cases a : j = k
        · rw [if_pos a, if_pos (by omega)]
        · rw [if_neg a]
          by_cases b : j < k
          · rw [if_pos b, if_pos (by omega)]
          · rw [if_neg b, if_neg (by omega)]
      rw [e] at h2
      exact h2
  obtain ⟨m', h⟩ := key n (le_refl _)
  refine ⟨m', _, h, fun i => ?_⟩
  simp only [tasks]
  by_cases a : i < n
  · rw [if_pos a]
  · rw [if_neg a, if_neg a]

/-- Consecutive submissions can always run to completion. -/
theorem ends_exists (ps : List (Phase L V)) (m : L → V) : ∃ m', Ends ps m m' := by
  induction ps generalizing m with
  | nil => exact ⟨m, rfl⟩
  | cons p ps ih =>
    obtain ⟨m1, h1⟩ := phase_ends p m
    obtain ⟨m', h2⟩ := ih m1
    exact ⟨m', m1, h1, h2⟩

theorem ends_append (ps qs : List (Phase L V)) (m m' : L → V) :
    Ends (ps ++ qs) m m' ↔ ∃ m1, Ends ps m m1 ∧ Ends qs m1 m' := by
  induction ps generalizing m with
  | nil => simp [Ends]
  | cons p ps ih =>
    simp only [List.cons_append, Ends, ih]
    constructor
    · rintro ⟨a, h1, b, h2, h3⟩; exact ⟨b, ⟨a, h1, h2⟩, h3⟩
    · rintro ⟨b, ⟨a, h1, h2⟩, h3⟩; exact ⟨a, h1, b, h2, h3⟩

theorem safe_append (ok : Bool → L → Prop) (ps qs : List (Phase L V)) (m : L → V) :
    Safe ok (ps ++ qs) m ↔ Safe ok ps m ∧ ∀ m1, Ends ps m m1 → Safe ok qs m1 := by
  induction ps generalizing m with
  | nil => simp [Ends, Safe]
  | cons p ps ih =>
    simp only [List.cons_append, Safe, Ends, ih]
    constructor
    · rintro ⟨h1, h2⟩
      refine ⟨⟨h1, fun m1 h => (h2 m1 h).1⟩, ?_⟩
      rintro m2 ⟨m1, h3, h4⟩
      exact (h2 m1 h3).2 m2 h4
    · rintro ⟨⟨h1, h2⟩, h3⟩
      exact ⟨h1, fun m1 h => ⟨h2 m1 h, fun m2 h4 => h3 m2 ⟨m1, h, h4⟩⟩⟩

end Verif.Par
