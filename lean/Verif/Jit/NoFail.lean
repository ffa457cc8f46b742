import Verif.Eval.KernelProps
import Mathlib.Data.List.TakeWhile
/-!
# Traversals stay inside of the variable table
-/
namespace Verif.Jit
open Verif.Eval

/-- A graph whose nodes have ordinary operands only, all of which exist. -/
structure Closed (g : Nat → Option Node) : Prop where
  kind : ∀ i nd, g i = some nd → nd.kind = .plain ∨ ∃ t, nd.kind = .scatter t
  deps : ∀ i nd, g i = some nd → ∀ k ∈ nd.dep, k ≠ 0 → (g k).isSome

variable {g : Nat → Option Node} {refs : Nat → Nat} {size : Nat}

/-- No access to a variable that does not exist, and nothing is deferred. -/
def Safe (s : TS) (r : Except Err TS) : Prop :=
  r ≠ .error .fail ∧ ∀ s', r = .ok s' → s'.later = s.later

theorem doActs_safe {rec : Nat → Nat → TS → Except Err TS}
    (hrec : ∀ k e s, (g k).isSome → Safe s (rec k e s)) :
    ∀ (l : List Nat) (d : Nat) (s : TS), (∀ k ∈ l, (g k).isSome) →
      Safe s (doActs rec s (l.map (Act.visit · d)))
  | [], _, s, _ => by
    refine ⟨by simp [doActs], ?_⟩
    intro s' h
    simp only [List.map_nil, doActs, Except.ok.injEq] at h
    rw [h]
  | k :: l, d, s, h => by
    obtain ⟨h1, h2⟩ := hrec k d s (h k (by simp))
    rw [List.map_cons]
    unfold doActs doAct
    dsimp only
    cases hr : rec k d s with
    | error e =>
      refine ⟨?_, fun s' hc => nomatch hc⟩
      intro hc
      simp only [Except.error.injEq] at hc
      exact h1 (by rw [hr, hc])
    | ok s1 =>
      obtain ⟨h3, h4⟩ := doActs_safe hrec l d s1 (fun k hk => h k (by simp [hk]))
      exact ⟨h3, fun s' hs' => (h4 s' hs').trans (h2 s1 hr)⟩

theorem expand_safe {rec : Nat → Nat → TS → Except Err TS} {nd : Node} {i d : Nat} {s : TS}
    (hrec : ∀ k e s, (g k).isSome → Safe s (rec k e s)) (hk : kindActs nd.kind d = [])
    (hd : ∀ k ∈ nd.dep, k ≠ 0 → (g k).isSome) : Safe s (expand rec size nd i d s) := by
  unfold expand
  rw [hk, List.nil_append, depActs]
  obtain ⟨h1, h2⟩ := doActs_safe hrec (nd.dep.takeWhile (· ≠ 0)) d s (by
    intro k hk
    have h0 := List.mem_takeWhile_imp (p := fun x : Nat => decide (x ≠ 0)) hk
    exact hd k ((List.takeWhile_sublist _).subset hk) (of_decide_eq_true h0))
  cases hr : doActs rec s ((nd.dep.takeWhile (· ≠ 0)).map (Act.visit · d)) with
  | error e =>
    refine ⟨?_, fun s' hc => nomatch hc⟩
    intro hc
    simp only [Except.error.injEq] at hc
    exact h1 (by rw [hr, hc])
  | ok s1 =>
    have := h2 s1 hr
    unfold finish
    dsimp only
    split_ifs
    · exact ⟨by simp, fun s' hc => nomatch hc⟩
    · refine ⟨by simp, fun s' hc => ?_⟩
      simp only [Except.ok.injEq] at hc
      rw [← hc]; exact this
    · refine ⟨by simp, fun s' hc => ?_⟩
      simp only [Except.ok.injEq] at hc
      rw [← hc]; exact this

theorem trav_safe (hg : Closed g) : ∀ (f i d : Nat) (s : TS), (g i).isSome →
    Safe s (trav g refs size f i d s)
  | 0, i, d, s, _ => ⟨by simp [trav], fun s' hc => nomatch hc⟩
  | f + 1, i, d, s, hi => by
    obtain ⟨nd, hn⟩ := Option.isSome_iff_exists.1 hi
    unfold trav
    rw [hn]
    dsimp only
    by_cases hs : Gen.skips s.gen i d = true
    · rw [if_pos hs]
      exact ⟨by simp, fun s' hc => by simp only [Except.ok.injEq] at hc; rw [hc]⟩
    rw [if_neg hs]
    rcases hg.kind i nd hn with hk | ⟨t, hk⟩
    · rw [hk]
      dsimp only
      exact expand_safe (g := g) (s := { s with gen := Gen.traverse s.gen i d }) (trav_safe hg f)
        (by rw [hk]; rfl) (hg.deps i nd hn)
    · rw [hk]
      dsimp only
      split_ifs
      · exact ⟨by simp, fun s' hc => by simp only [Except.ok.injEq] at hc; rw [← hc]⟩
      · exact expand_safe (g := g) (s := { s with gen := Gen.traverse s.gen i d }) (trav_safe hg f)
          (by rw [hk]; rfl) (hg.deps i nd hn)

theorem travTasks_safe (hg : Closed g) (f : Nat) : ∀ (l : List Nat) (s : TS),
    (∀ i ∈ l, (g i).isSome) → Safe s (travTasks g refs size f s l)
  | [], s, _ => ⟨by simp [travTasks], fun s' hc => by
      simp only [travTasks, Except.ok.injEq] at hc; rw [hc]⟩
  | i :: l, s, h => by
    obtain ⟨h1, h2⟩ := trav_safe (refs := refs) (size := size) hg f i 0 s (h i (by simp))
    unfold travTasks
    cases hr : trav g refs size f i 0 s with
    | error e =>
      refine ⟨?_, fun s' hc => nomatch hc⟩
      intro hc
      simp only [Except.error.injEq] at hc
      exact h1 (by rw [hr, hc])
    | ok s1 =>
      obtain ⟨h3, h4⟩ := travTasks_safe hg f l s1 (fun k hk => h k (by simp [hk]))
      exact ⟨h3, fun s' hs' => (h4 s' hs').trans (h2 s1 hr)⟩

theorem travGroup_safe (hg : Closed g) (f : Nat) (l : List Nat) (s : TS) (hl : s.later = [])
    (h : ∀ i ∈ l, (g i).isSome) : Safe s (travGroup g refs size f l s) := by
  unfold travGroup
  obtain ⟨h1, h2⟩ := travTasks_safe (refs := refs) (size := size) hg f l
    { s with gen := Gen.newGen s.gen } h
  cases hr : travTasks g refs size f { s with gen := Gen.newGen s.gen } l with
  | error e =>
    refine ⟨?_, fun s' hc => nomatch hc⟩
    intro hc
    simp only [Except.error.injEq] at hc
    exact h1 (by rw [hr, hc])
  | ok s1 =>
    have hl1 : s1.later = [] := (h2 s1 hr).trans hl
    dsimp only
    cases f with
    | zero => exact ⟨by simp [travLater], fun s' hc => nomatch hc⟩
    | succ f =>
      unfold travLater
      rw [hl1]
      dsimp only [List.getElem?_nil]
      refine ⟨by simp, fun s' hc => ?_⟩
      simp only [Except.ok.injEq] at hc
      rw [← hc, hl]

/-- The traversals of an evaluation access existing variables only. -/
theorem runTasks_safe (hg : Closed g) (f : Nat) : ∀ (n : Nat) (ts : List Task), ts.length ≤ n →
    ∀ s : TS, s.later = [] → (∀ t ∈ ts, (g t.index).isSome) → runTasks g refs f ts s ≠ .error .fail := by
  intro n
  induction n with
  | zero =>
    intro ts hl s _ _
    have : ts = [] := List.length_eq_zero_iff.1 (by omega)
    subst this
    simp [runTasks]
  | succ n ih =>
    intro ts hl s hs h
    cases ts with
    | nil => simp [runTasks]
    | cons t ts =>
      rw [runTasks]
      obtain ⟨h1, h2⟩ := travGroup_safe (size := t.size) (refs := refs) hg f
        (t.index :: (ts.takeWhile fun u => decide (u.size = t.size)).map Task.index) s hs (by
          intro i hi
          rcases List.mem_cons.1 hi with rfl | hi
          · exact h t (by simp)
          · obtain ⟨u, hu, rfl⟩ := List.mem_map.1 hi
            exact h u (List.mem_cons_of_mem _ ((List.takeWhile_sublist _).subset hu)))
      cases hg' : travGroup g refs t.size f
        (t.index :: (ts.takeWhile fun u => decide (u.size = t.size)).map Task.index) s with
      | error e =>
        dsimp only
        intro hc
        simp only [Except.error.injEq] at hc
        exact h1 (by rw [hg', hc])
      | ok s1 =>
        dsimp only
        have hlen := (List.dropWhile_sublist (l := ts)
          (fun u : Task => decide (u.size = t.size))).length_le
        simp only [List.length_cons] at hl
        exact ih _ (by omega) s1 ((h2 s1 hg').trans hs)
          (fun u hu => h u (List.mem_cons_of_mem _ ((List.dropWhile_sublist _).subset hu)))

end Verif.Jit
