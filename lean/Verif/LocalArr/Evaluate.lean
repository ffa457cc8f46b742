import Verif.LocalArr.Calls
import Verif.LocalArr.Step

/-
Local arrays (C43): evaluations.
-/

namespace Verif.LocalArr

/-- What the outputs collected so far satisfy. -/
def Collected (out : Nat → Bool) (sv : Nat → Option SVal) (acc : Nat → Option (Nat → Nat)) : Prop :=
  ∀ v d, acc v = some d → out v = true ∧ ∃ x, sv v = some x ∧ Holds d x

theorem launches_ok {T : Nat → Var} {sv : Nat → Option SVal} {out : Nat → Bool} (h : WF T)
    (hc : Consistent T sv) (m0 : Nat → Nat → Nat) : ∀ (gs : List Group) (a : Nat → AState)
    (acc : Nat → Option (Nat → Nat)), Collected out sv acc →
    (∀ g ∈ gs, Sched T g.sched ∧ Plain T g.sched ∧ ∀ v ∈ g.sched, sv v ≠ none) →
    launches T m0 out a acc gs ≠ .ub ∧ ∀ a' acc', launches T m0 out a acc gs = .ok (a', acc') →
      Collected out sv acc'
  | [], a, acc, hacc, _ => by
    refine ⟨by simp [launches], fun a' acc' he => ?_⟩
    simp only [launches, Outcome.ok.injEq, Prod.mk.injEq] at he
    rw [← he.2]; exact hacc
  | g :: gs, a, acc, hacc, hg => by
    obtain ⟨h1, h2, h3⟩ := hg g List.mem_cons_self
    obtain ⟨hu, ho⟩ := launch_ok (out := out) (a0 := a) h hc h1 h2 h3 m0
    simp only [launches]
    cases hl : launch T m0 out a g with
    | abort => exact ⟨by simp, fun _ _ he => by cases he⟩
    | ub => exact absurd hl hu
    | ok r =>
      obtain ⟨a', o⟩ := r
      refine launches_ok h hc m0 gs a' _ ?_ fun g' hg' => hg g' (List.mem_cons_of_mem _ hg')
      intro v d hd
      simp only [collect] at hd
      split at hd
      · rename_i hv
        simp only [Option.some.injEq] at hd
        subst hd
        obtain ⟨x, hx⟩ := Option.ne_none_iff_exists'.mp (h3 v hv.2.2)
        exact ⟨hv.1, x, hx, ho a' o hl v hv.2.2 hv.1 hv.2.1 x hx⟩
      · exact hacc v d hd

section

variable {s : State} {ms : Meanings} {sv : Nat → Option SVal}

theorem meaningful_sv (H : HInv s ms sv) {l : List Nat} (hm : Meaningful s ms l) :
    ∀ v ∈ l, sv v ≠ none := by
  intro v hv
  rcases hm v hv with hk | ⟨k, rfl, h0, hn⟩
  · exact H.arr v hk
  · obtain ⟨x, hx⟩ := Option.ne_none_iff_exists'.mp hn
    rw [H.hm k x h0 hx]
    simp

theorem eval_not_ub (H : HInv s ms sv) (m0 : Nat → Nat → Nat) (roots : List Nat)
    (groups : List Group) (hg : ∀ g ∈ groups, GroupOK s ms g) : eval s m0 roots groups ≠ .ub := by
  have := (launches_ok (out := fun v => v ∈ roots.map s.idx) H.wf H.cons m0 groups s.astate
    (fun _ => none) (fun _ _ hh => by cases hh)
    fun g hh => ⟨(hg g hh).1, (hg g hh).2.1, meaningful_sv H (hg g hh).2.2⟩).1
  unfold eval
  revert this
  generalize launches s.vars m0 (fun v => v ∈ roots.map s.idx) s.astate (fun _ => none) groups = r
  cases r <;> simp

/-- Turning outputs into evaluated variables. -/
theorem finish_ok (H : HInv s ms sv) {out : Nat → Bool} {acc : Nat → Option (Nat → Nat)}
    (hout : ∀ v, out v = true → ∃ k, s.idx k = v) (ha : Collected out sv acc) (a : Nat → AState) :
    HInv { s with vars := finish s.vars acc, astate := a } ms sv := by
  have hk : ∀ v, acc v = none → finish s.vars acc v = s.vars v := fun v hv => by simp [finish, hv]
  have hs : ∀ v d, acc v = some d → (finish s.vars acc v).kind = .evaluated ∧
      (finish s.vars acc v).dep0 = 0 ∧ (finish s.vars acc v).data = d ∧
      refs (finish s.vars acc v) = [0, 0, 0, 0] := fun v d hd => by simp [finish, hd, refs]
  have harr : ∀ v, (finish s.vars acc v).isArray = (s.vars v).isArray := fun v => by
    unfold finish; split <;> rfl
  have hlen : ∀ v, (finish s.vars acc v).len = (s.vars v).len := fun v => by
    unfold finish; split <;> rfl
  have hkind : ∀ v K, K ≠ .evaluated → (finish s.vars acc v).kind = K →
      acc v = none ∧ finish s.vars acc v = s.vars v := fun v K hne hK => by
    cases hv : acc v with
    | none => exact ⟨rfl, hk v hv⟩
    | some d => exact absurd (by rw [← hK, (hs v d hv).1]) hne
  have hacc : ∀ v, acc v ≠ none → v < s.next ∧ v ≠ 0 := by
    intro v hv
    obtain ⟨d, hd⟩ := Option.ne_none_iff_exists'.mp hv
    obtain ⟨ho, x, hx, _⟩ := ha v d hd
    obtain ⟨k, rfl⟩ := hout v ho
    refine ⟨H.hb k, fun h0 => ?_⟩
    rw [h0, H.none0] at hx; cases hx
  have hstore : ∀ w, (s.vars w).kind = .write → acc (s.vars w).store = none := by
    intro w hw
    by_contra hh
    obtain ⟨d, hd⟩ := Option.ne_none_iff_exists'.mp hh
    obtain ⟨ho, _⟩ := ha _ d hd
    obtain ⟨k, hk⟩ := hout _ ho
    have := H.hv k
    rw [hk] at this
    exact (H.wf.storeKind w hw).2 (this (H.wf.storeKind w hw).1)
  refine ⟨?_, H.pos, ?_, ?_, ?_, ?_, H.beyond, H.none0, ?_, H.len, H.hb, ?_, H.hm⟩
  · show WF (finish s.vars acc)
    refine WF.of (fun v => ?_) fun v w hv hw he => ?_
    · cases hv : acc v with
      | some d =>
        obtain ⟨e1, e2, -, -⟩ := hs v d hv
        constructor <;> simp [e1, e2, Kind.accesses]
      | none =>
        have hT := hk v hv
        have W := H.wf.at v
        constructor <;> rw [hT]
        · intro hh
          obtain ⟨w1, w2⟩ := W.target hh
          refine ⟨by rw [harr]; exact w1, fun hK => ?_⟩
          have := (hkind _ _ (by simp) hK).2
          rw [this] at hK ⊢
          exact w2 hK
        · exact W.array
        · exact W.init
        · exact W.write
        · exact W.scalarL
        · exact W.scalarC
        · exact W.scalarR
        · intro hh
          rw [hk _ (hstore v hh)]
          exact W.storeKind hh
        · intro hh hK
          rw [(hkind _ _ (by simp) hK).2] at hK
          rw [hk _ (hstore v hh)]
          exact W.predArray hh hK
        · intro hh hK
          have e := (hkind _ _ (by simp) hK).2
          rw [e] at hK ⊢
          rw [hk _ (hstore v hh)]
          exact W.predWrite hh hK
        · intro hh hK
          have e := (hkind _ _ (by simp) hK).2
          rw [e] at hK ⊢
          intro hK2
          rw [(hkind _ _ (by simp) hK2).2] at hK2
          rw [hk _ (hstore v hh)]
          exact W.predInit hh hK hK2
        · rw [hlen]; exact W.lenW
        · rw [hlen]; exact W.lenI
        · exact W.evald
        · rw [harr]; exact W.valueI
    · have e1 := (hkind _ _ (by simp) hv).2
      have e2 := (hkind _ _ (by simp) hw).2
      rw [e1] at hv he
      rw [e2] at hw he
      exact H.wf.storeInj v w hv hw he
  · intro v hv
    have : acc v = none := by
      by_contra hh
      have := (hacc v hh).1
      simp only at hv
      omega
    exact (hk v this).trans (H.fresh v hv)
  · have : acc 0 = none := by
      by_contra hh
      exact (hacc 0 hh).2 rfl
    exact (hk 0 this).trans H.zero
  · intro v hv d hd
    cases hv' : acc v with
    | none => exact H.bound v hv d (by rw [← hk v hv']; exact hd)
    | some x =>
      have := H.pos
      simp only [(hs v x hv').2.2.2] at hd
      have : d = 0 := by simpa using hd
      subst this
      exact H.pos
  · intro v x hx
    obtain ⟨h1, h2⟩ := H.cons v x hx
    constructor
    · cases hv' : acc v with
      | none =>
        unfold Meant at *
        simp only [hk v hv'] at *
        exact h1
      | some d =>
        obtain ⟨_, y, hy, hh⟩ := ha v d hv'
        rw [hx] at hy
        cases hy
        simp only [Meant, (hs v d hv').1, (hs v d hv').2.2.1]
        exact hh
    · cases x with
      | scalar _ => exact (harr v).trans h2
      | arr l c => exact ⟨(harr v).trans h2.1, h2.2.trans (hlen v).symm⟩
  · intro v hK
    have e := (hkind _ _ (by simp) hK).2
    simp only [e] at hK
    exact H.arr v hK
  · intro k hK
    have e := (hkind _ _ (by simp) hK).2
    simp only [State.idx] at e hK ⊢
    rw [e] at hK ⊢
    exact H.hv k hK

theorem eval_ok (H : HInv s ms sv) (m0 : Nat → Nat → Nat) (roots : List Nat)
    (groups : List Group) (hg : ∀ g ∈ groups, GroupOK s ms g) {s' : State}
    (he : eval s m0 roots groups = .ok s') : HInv s' ms sv := by
  have := (launches_ok (out := fun v => v ∈ roots.map s.idx) H.wf H.cons m0 groups s.astate
    (fun _ => none) (fun _ _ hh => by cases hh)
    fun g hh => ⟨(hg g hh).1, (hg g hh).2.1, meaningful_sv H (hg g hh).2.2⟩).2
  unfold eval at he
  revert this he
  generalize launches s.vars m0 (fun v => v ∈ roots.map s.idx) s.astate (fun _ => none) groups = r
  intro he this
  cases r with
  | abort => cases he
  | ub => cases he
  | ok x =>
    simp only [Outcome.ok.injEq] at he
    subst he
    refine finish_ok H ?_ (this x.1 x.2 rfl) x.1
    intro v hv
    simp only [decide_eq_true_eq, List.mem_map] at hv
    obtain ⟨k, _, rfl⟩ := hv
    exact ⟨k, rfl⟩

theorem launches_not_abort {T : Nat → Var} {out : Nat → Bool} (m0 : Nat → Nat → Nat) :
    ∀ (gs : List Group) (a : Nat → AState) (acc : Nat → Option (Nat → Nat)),
    (∀ g ∈ gs, ∀ v ∈ g.sched, (T v).size = 1 ∨ (T v).size = g.size) →
    launches T m0 out a acc gs ≠ .abort
  | [], a, acc, _ => by simp [launches]
  | g :: gs, a, acc, h => by
    simp only [launches]
    have hl : launch T m0 out a g ≠ .abort := by
      unfold launch
      rw [if_neg]
      · dsimp only
        split <;> simp
      · simp only [List.any_eq_true, decide_eq_true_eq, not_exists, not_and]
        intro v hv h1 h2
        rcases h g List.mem_cons_self v hv with hh | hh
        · exact h1 hh
        · exact h2 hh
    split
    · exact launches_not_abort m0 gs _ _ fun g' hg' => h g' (List.mem_cons_of_mem _ hg')
    · rename_i hh; exact absurd hh hl
    · simp

theorem launches_collects {T : Nat → Var} {out : Nat → Bool} (m0 : Nat → Nat → Nat) {v : Nat} :
    ∀ (gs : List Group) (a : Nat → AState) (acc : Nat → Option (Nat → Nat)) (a' : Nat → AState)
    (acc' : Nat → Option (Nat → Nat)), launches T m0 out a acc gs = .ok (a', acc') →
    (acc v ≠ none ∨ ∃ g ∈ gs, out v = true ∧ (T v).size = g.size ∧ v ∈ g.sched) → acc' v ≠ none
  | [], a, acc, a', acc', he, hv => by
    simp only [launches, Outcome.ok.injEq, Prod.mk.injEq] at he
    rcases hv with hv | ⟨_, hh, _⟩
    · rw [← he.2]; exact hv
    · cases hh
  | g :: gs, a, acc, a', acc', he, hv => by
    simp only [launches] at he
    split at he
    · rename_i a1 o hl
      refine launches_collects m0 gs a1 _ a' acc' he ?_
      by_cases hg : out v = true ∧ (T v).size = g.size ∧ v ∈ g.sched
      · left; simp [collect, hg]
      · rcases hv with hv | ⟨g', hg', hh⟩
        · left
          simp only [collect, if_neg hg]
          exact hv
        · rcases List.mem_cons.mp hg' with rfl | hg'
          · exact absurd hh hg
          · exact .inr ⟨g', hg', hh⟩
    · cases he
    · cases he

/-- Outputs become evaluated variables. -/
theorem eval_evaluates {s s' : State} {m0 : Nat → Nat → Nat} {roots : List Nat}
    {groups : List Group} (he : eval s m0 roots groups = .ok s') {k : Nat} (hk : k ∈ roots)
    {g : Group} (hg : g ∈ groups) (hs : s.idx k ∈ g.sched) (hz : (s.vars (s.idx k)).size = g.size) :
    s'.idx k = s.idx k ∧ (s'.vars (s.idx k)).kind = .evaluated := by
  unfold eval at he
  split at he
  · rename_i a acc hl
    simp only [Outcome.ok.injEq] at he
    subst he
    refine ⟨rfl, ?_⟩
    have := launches_collects m0 groups s.astate _ a acc hl (v := s.idx k)
      (.inr ⟨g, hg, by simpa using ⟨k, hk, rfl⟩, hz, hs⟩)
    obtain ⟨d, hd⟩ := Option.ne_none_iff_exists'.mp this
    simp [finish, hd]
  · cases he
  · cases he

theorem reach_inv {s : State} {ms : Meanings} (h : Reach s ms) : ∃ sv, HInv s ms sv := by
  induction h with
  | start => exact ⟨_, HInv.start⟩
  | call op _ hr ih =>
    obtain ⟨sv, H⟩ := ih
    exact call_ok H op hr
  | eval m0 roots groups _ hg he ih =>
    obtain ⟨sv, H⟩ := ih
    exact ⟨sv, eval_ok H m0 roots groups hg he⟩

end

end Verif.LocalArr
