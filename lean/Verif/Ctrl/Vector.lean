import Verif.Ctrl.Nodes
import Verif.Ctrl.Kernel

/-
Symbolic loops and conditionals: vectorised kernels compute in each lane what this lane computes on
its own.
-/

namespace Verif.Ctrl

theorem whileV_mono {L : List Nat} {C C' : List (Nat → Nat) → Option (Nat → Nat)}
    {B B' : List (Nat → Nat) → Option (List (Nat → Nat))}
    (hC : ∀ s b, C s = some b → C' s = some b) (hB : ∀ s b, B s = some b → B' s = some b) :
    ∀ n m s r, n ≤ m → whileV L C B n s = some r → whileV L C' B' m s = some r := by
  intro n
  induction n with
  | zero => intro m s r _ h; simp [whileV] at h
  | succ n ih =>
    intro m s r hm h
    obtain ⟨m, rfl⟩ : ∃ k, m = k + 1 := ⟨m - 1, by omega⟩
    simp only [whileV, Option.bind_eq_some_iff] at h ⊢
    obtain ⟨b, hb, h⟩ := h
    refine ⟨b, hC _ _ hb, ?_⟩
    split at h
    · next h0 =>
      rw [if_pos h0]
      simp only [Option.bind_eq_some_iff] at h ⊢
      obtain ⟨s', h1, h2⟩ := h
      exact ⟨s', hB _ _ h1, ih _ _ _ (by omega) h2⟩
    · next h0 => rw [if_neg h0]; exact h

theorem denV_mono {g : Graph} {L : List Nat} {u : Nat → Nat} : ∀ n m e i v, n ≤ m →
    denV g L u n e i = some v → denV g L u m e i = some v := by
  intro n
  induction n with
  | zero => intro m e i v _ h; simp [denV] at h
  | succ n ih =>
    intro m e i v hm h
    obtain ⟨m, rfl⟩ : ∃ k, m = k + 1 := ⟨m - 1, by omega⟩
    have hnm : n ≤ m := by omega
    have hall : ∀ e l r, evalAll (denV g L u n e) l = some r → evalAll (denV g L u m e) l = some r := by
      intro e l r h; exact evalAll_iff.2 ((evalAll_iff.1 h).imp fun _ _ h => ih _ _ _ _ hnm h)
    simp only [denV] at h ⊢
    cases hk : (g.node i).kind with
    | lit c => simpa [hk] using h
    | input c => simpa [hk] using h
    | phi => simpa [hk] using h
    | op f args =>
      simp only [hk, Option.map_eq_some_iff] at h ⊢
      obtain ⟨r, h1, h2⟩ := h
      exact ⟨r, hall _ _ _ h1, h2⟩
    | condOut c t f =>
      simp only [hk, Option.bind_eq_some_iff, Option.map_eq_some_iff] at h ⊢
      obtain ⟨b, h1, vt, h2, vf, h3, h4⟩ := h
      refine ⟨b, ih _ _ _ _ hnm h1, vt, ?_, vf, ?_, h4⟩
      · split_ifs at h2 ⊢
        · exact ih _ _ _ _ hnm h2
        · exact h2
      · split_ifs at h3 ⊢
        · exact ih _ _ _ _ hnm h3
        · exact h3
    | loopOut ld k =>
      simp only [hk, Option.bind_eq_some_iff] at h ⊢
      obtain ⟨s, ⟨s0, h1, h2⟩, h3⟩ := h
      exact ⟨s, ⟨s0, hall _ _ _ h1, whileV_mono (fun s b h => ih _ _ _ _ hnm h)
        (fun s r h => hall _ _ _ h) _ _ _ _ hnm h2⟩, h3⟩

/-- Variable `i` has the values `v` in the lanes of the packet. -/
def ValV (g : Graph) (L : List Nat) (u : Nat → Nat) (e : Nat → Nat → Nat) (i : Nat) (v : Nat → Nat) : Prop :=
  ∃ n x, denV g L u n e i = some x ∧ ∀ l ∈ L, x l = v l

/-- The lanes of vectors. -/
def SameLanes (L : List Nat) (s : List (Nat → Nat)) (t : Nat → List Nat) : Prop :=
  ∀ l ∈ L, s.map (· l) = t l

theorem vals_lanes {g : Graph} {L : List Nat} {u : Nat → Nat} {e : Nat → Nat → Nat} {l : List Nat}
    {D : Nat → Nat → Option Nat}
    (h : ∀ i ∈ l, (∀ a ∈ L, ∃ v, D a i = some v) → ∃ n x, denV g L u n e i = some x ∧ ∀ a ∈ L, D a i = some (x a))
    {t : Nat → List Nat} (ht : ∀ a ∈ L, evalAll (D a) l = some (t a)) :
    ∃ n x, (∀ m, n ≤ m → evalAll (denV g L u m e) l = some x) ∧ SameLanes L x t := by
  induction l generalizing t with
  | nil =>
    refine ⟨0, [], fun _ _ => rfl, fun a ha => ?_⟩
    have := ht a ha
    simpa [evalAll] using this
  | cons i l ih =>
    have hsplit : ∀ a ∈ L, ∃ v r, D a i = some v ∧ evalAll (D a) l = some r ∧ t a = v :: r := by
      intro a ha
      have := ht a ha
      simp only [evalAll, Option.bind_eq_some_iff, Option.map_eq_some_iff] at this
      obtain ⟨v, h1, r, h2, h3⟩ := this
      exact ⟨v, r, h1, h2, h3.symm⟩
    obtain ⟨n1, x, h1, h2⟩ := h i (by simp) fun a ha => by obtain ⟨v, _, h, _⟩ := hsplit a ha; exact ⟨v, h⟩
    obtain ⟨n2, xs, h3, h4⟩ := ih (fun j hj => h j (by simp [hj])) (t := fun a => (t a).tail) (by
      intro a ha
      obtain ⟨v, r, _, h, ht⟩ := hsplit a ha
      rw [ht]; exact h)
    refine ⟨max n1 n2, x :: xs, fun m hm => ?_, fun a ha => ?_⟩
    · simp only [evalAll, denV_mono _ m _ _ _ (by omega) h1, h3 m (by omega)]; rfl
    · obtain ⟨v, r, h5, _, ht⟩ := hsplit a ha
      have h6 := h2 a ha
      rw [h5] at h6
      have h7 := h4 a ha
      simp only [ht, List.tail_cons] at h7
      simp [ht, h7, Option.some.inj h6]

theorem anyLane_false {L : List Nat} {b : Nat → Nat} (h : ¬ anyLane L b = true) : ∀ l ∈ L, b l = 0 := by
  intro l hl
  simp only [anyLane, List.any_eq_true, decide_eq_true_eq, not_exists, not_and] at h
  simpa using h l hl

theorem anyLane_true {L : List Nat} {b : Nat → Nat} (h : anyLane L b = true) : ∃ l ∈ L, b l ≠ 0 := by
  simpa [anyLane] using h

/-- A loop that runs until all lanes are done has the result of each lane, if lanes that are done
keep their state. -/
theorem whileV_sim {L : List Nat} {C : Nat → List Nat → Option Nat} {B : Nat → List Nat → Option (List Nat)}
    {D : Nat → List (Nat → Nat) → Option (Nat → Nat)} {E : Nat → List (Nat → Nat) → Option (List (Nat → Nat))}
    {P : Nat → List Nat → Prop}
    (hD : ∀ s t (b : Nat → Nat), SameLanes L s t → (∀ l ∈ L, P l (t l)) → (∀ l ∈ L, C l (t l) = some (b l)) →
      ∃ n x, (∀ m, n ≤ m → D m s = some x) ∧ ∀ l ∈ L, x l = b l)
    (hE : ∀ s t t', SameLanes L s t → (∀ l ∈ L, P l (t l)) → (∀ l ∈ L, B l (t l) = some (t' l)) →
      ∃ n x, (∀ m, n ≤ m → E m s = some x) ∧ SameLanes L x t')
    (hP : ∀ l ∈ L, ∀ s s', P l s → B l s = some s' → P l s')
    (hF : ∀ l ∈ L, ∀ s s', P l s → C l s = some 0 → B l s = some s' → s' = s) :
    ∀ n s t r, SameLanes L s t → (∀ l ∈ L, P l (t l)) →
      (∀ l ∈ L, whileN true (C l) (B l) n (t l) = some (r l)) →
      ∃ k x, (∀ m m', k ≤ m → k ≤ m' → whileV L (D m) (E m) m' s = some x) ∧ SameLanes L x r := by
  intro n
  induction n with
  | zero =>
    intro s t r hs hp h
    by_cases hL : L = []
    · subst hL
      obtain ⟨k, x, h1, _⟩ := hD s t (fun _ => 0) hs hp (by simp)
      refine ⟨k + 1, s, fun m m' hm hm' => ?_, by intro l hl; simp at hl⟩
      obtain ⟨m', rfl⟩ : ∃ k, m' = k + 1 := ⟨m' - 1, by omega⟩
      simp [whileV, h1 m (by omega), anyLane]
    · obtain ⟨l, hl⟩ := List.exists_mem_of_ne_nil L hL
      have := h l hl
      simp [whileN] at this
  | succ n ih =>
    intro s t r hs hp h
    have hstep : ∀ l ∈ L, ∃ b s', C l (t l) = some b ∧ B l (t l) = some s' ∧
        ((b = 0 ∧ r l = t l ∧ s' = t l) ∨ (b ≠ 0 ∧ whileN true (C l) (B l) n s' = some (r l))) := by
      intro l hl
      have := h l hl
      simp only [whileN, Option.bind_eq_some_iff] at this
      obtain ⟨b, hb, this⟩ := this
      split at this
      · next h0 =>
        simp only [if_true, Option.map_eq_some_iff] at this
        obtain ⟨s', h1, h2⟩ := this
        subst h0
        exact ⟨0, s', hb, h1, .inl ⟨rfl, h2.symm, hF l hl _ _ (hp l hl) hb h1⟩⟩
      · next h0 =>
        simp only [Option.bind_eq_some_iff] at this
        obtain ⟨s', h1, h2⟩ := this
        exact ⟨b, s', hb, h1, .inr ⟨h0, h2⟩⟩
    have hb : ∀ l ∈ L, C l (t l) = some ((C l (t l)).getD 0) := fun l hl => by
      obtain ⟨b, _, hb, _⟩ := hstep l hl; simp [hb]
    have ht' : ∀ l ∈ L, B l (t l) = some ((B l (t l)).getD []) := fun l hl => by
      obtain ⟨_, s', _, h1, _⟩ := hstep l hl; simp [h1]
    obtain ⟨n1, x, hx1, hx2⟩ := hD s t _ hs hp hb
    by_cases hany : anyLane L x = true
    · obtain ⟨n2, y, hy1, hy2⟩ := hE s t _ hs hp ht'
      obtain ⟨l0, hl0, hx0⟩ := anyLane_true hany
      have hn : 0 < n := by
        obtain ⟨b, s', h1, h2, h3⟩ := hstep l0 hl0
        rw [hx2 l0 hl0, h1] at hx0
        rcases h3 with ⟨h3, _⟩ | ⟨_, h4⟩
        · exact absurd h3 (by simpa using hx0)
        · by_contra hn
          obtain rfl : n = 0 := by omega
          simp [whileN] at h4
      obtain ⟨n3, z, hz1, hz2⟩ := ih y (fun l => (B l (t l)).getD []) r hy2
        (fun l hl => hP l hl _ _ (hp l hl) (ht' l hl)) (by
          intro l hl
          obtain ⟨b, s', h1, h2, h3⟩ := hstep l hl
          simp only [h2, Option.getD_some]
          rcases h3 with ⟨h3, h4, h5⟩ | ⟨_, h4⟩
          · subst h3
            obtain ⟨n, rfl⟩ : ∃ k, n = k + 1 := ⟨n - 1, by omega⟩
            rw [h5] at h2 ⊢
            simp [whileN, h1, h2, h4]
          · exact h4)
      refine ⟨n1 + n2 + n3 + 1, z, fun m m' hm hm' => ?_, hz2⟩
      obtain ⟨m', rfl⟩ : ∃ k, m' = k + 1 := ⟨m' - 1, by omega⟩
      simp only [whileV, hx1 m (by omega), Option.bind_some, hany, if_true, hy1 m (by omega)]
      exact hz1 m m' (by omega) (by omega)
    · refine ⟨n1 + 1, s, fun m m' hm hm' => ?_, fun l hl => ?_⟩
      · obtain ⟨m', rfl⟩ : ∃ k, m' = k + 1 := ⟨m' - 1, by omega⟩
        simp only [whileV, hx1 m (by omega), Option.bind_some, hany, if_false]
        simp
      · have h0 := anyLane_false hany l hl
        rw [hx2 l hl] at h0
        obtain ⟨b, s', h1, h2, h3⟩ := hstep l hl
        rw [h1] at h0
        rcases h3 with ⟨_, h4, _⟩ | ⟨h3, _⟩
        · rw [h4]; exact hs l hl
        · exact absurd (by simpa using h0) h3

theorem fixed_elim {R : Nat → Nat → Prop} : ∀ {qs os is ws : List Nat}, Fixed qs os is →
    is.length = os.length → List.Forall₂ R is ws → Elim R qs os ws := by
  intro qs
  induction qs with
  | nil => intro os is ws _ _ _; simp [Elim]
  | cons q qs ih =>
    intro os is ws hf hl hv
    cases os with
    | nil => simp [Elim]
    | cons o os =>
      cases hv with
      | nil => simp [Elim]
      | cons h1 h2 => exact ⟨fun he => by have := hf.1 he; rwa [this] at h1, ih hf.2 (by simpa using hl) h2⟩

theorem frozen_state {g : Graph} {l a : Nat} {e : Nat → Nat} {is qs s s' : List Nat}
    (h : List.Forall₂ (fun i q => ∀ sp lane e w, Val sp g lane e a 0 → Val sp g lane e i w → Val sp g lane e q w) is qs)
    (hC : Val true g l e a 0) (hB : List.Forall₂ (Val true g l e) is s') (hq : List.Forall₂ (Val true g l e) qs s) :
    s' = s := by
  induction h generalizing s s' with
  | nil => cases hB; cases hq; rfl
  | cons h1 _ ih =>
    cases hB with
    | cons b1 b2 =>
      cases hq with
      | cons q1 q2 => rw [ih b2 q2, (h1 _ _ _ _ hC b1).unique q1]

/-- The vectorised kernel computes what each lane computes. -/
theorem denV_lanes {cfg : Cfg} {g : Graph} {L : List Nat} {u : Nat → Nat} (hll : cfg.llvm = true) (hw : WF g)
    (hok : AllOK cfg g) (hL : L ≠ []) : ∀ n e i, i < g.next → (∀ l ∈ L, ∃ v, den true g l n (e l) i = some v) →
      ∃ m x, denV g L u m e i = some x ∧ ∀ l ∈ L, den true g l n (e l) i = some (x l) := by
  intro n
  induction n with
  | zero =>
    intro e i hi h
    obtain ⟨l, hl⟩ := List.exists_mem_of_ne_nil L hL
    obtain ⟨v, hv⟩ := h l hl
    simp [den] at hv
  | succ n ih =>
    intro e i hi h
    have hr : ∀ j ∈ (g.node i).kind.refs, j < g.next := fun j hj => Nat.lt_trans (hw i hi j hj) hi
    have hnode := hok i hi
    cases hk : (g.node i).kind with
    | lit c => exact ⟨1, fun _ => c, by simp [denV, hk], fun l _ => by simp [den, hk]⟩
    | input x => exact ⟨1, fun l => entry x (g.node i).size l, by simp [denV, hk], fun l _ => by simp [den, hk]⟩
    | phi => exact ⟨1, fun l => e l i, by simp [denV, hk], fun l _ => by simp [den, hk]⟩
    | op f args =>
      rw [hk] at hr
      have ht : ∀ l ∈ L, evalAll (den true g l n (e l)) args = some ((evalAll (den true g l n (e l)) args).getD []) := by
        intro l hl
        obtain ⟨v, hv⟩ := h l hl
        simp only [den, hk, Option.map_eq_some_iff] at hv
        obtain ⟨a, h1, _⟩ := hv
        simp [h1]
      obtain ⟨m, x, h1, h2⟩ := vals_lanes (g := g) (L := L) (u := u) (e := e) (l := args)
        (D := fun l j => den true g l n (e l) j) (fun j hj => ih e j (hr j hj)) ht
      refine ⟨m + 1, fun l => f (x.map (· l)), by simp [denV, hk, h1 m (Nat.le_refl _)], fun l hl => ?_⟩
      have h3 := h2 l hl
      rw [den, hk]
      dsimp only
      rw [ht l hl, Option.map_some, h3]
    | condOut c t f =>
      rw [hk] at hr
      have hlane : ∀ l ∈ L, ∃ b, den true g l n (e l) c = some b ∧ ∃ vt vf, den true g l n (e l) t = some vt ∧
          den true g l n (e l) f = some vf ∧
          den true g l (n + 1) (e l) i = some (if b ≠ 0 then vt else vf) := by
        intro l hl
        obtain ⟨v, hv⟩ := h l hl
        have hv' := hv
        simp only [den, hk, Option.bind_eq_some_iff, if_true, Option.map_eq_some_iff] at hv
        obtain ⟨b, h1, r, h2, x, h3, rfl⟩ := hv
        refine ⟨b, h1, ?_⟩
        by_cases h0 : b ≠ 0
        · rw [if_pos h0] at h2 h3
          exact ⟨r, x, h2, h3, by rw [if_pos h0]; exact hv'⟩
        · rw [if_neg h0] at h2 h3
          exact ⟨x, r, h3, h2, by rw [if_neg h0]; exact hv'⟩
      obtain ⟨m1, b, hb1, hb2⟩ := ih e c (hr c (by simp [Kind.refs])) fun l hl => by
        obtain ⟨b, h, _⟩ := hlane l hl; exact ⟨b, h⟩
      obtain ⟨m2, vt, ht1, ht2⟩ := ih e t (hr t (by simp [Kind.refs])) fun l hl => by
        obtain ⟨_, _, v, _, h, _⟩ := hlane l hl; exact ⟨v, h⟩
      obtain ⟨m3, vf, hf1, hf2⟩ := ih e f (hr f (by simp [Kind.refs])) fun l hl => by
        obtain ⟨_, _, _, v, _, h, _⟩ := hlane l hl; exact ⟨v, h⟩
      have k1 := denV_mono m1 (max m1 (max m2 m3)) e c b (by omega) hb1
      have k2 := denV_mono m2 (max m1 (max m2 m3)) e t vt (by omega) ht1
      have k3 := denV_mono m3 (max m1 (max m2 m3)) e f vf (by omega) hf1
      refine ⟨max m1 (max m2 m3) + 1, fun l => if b l ≠ 0 then (if anyLane L b then vt else u) l else
        (if anyLane L (fun l => if b l = 0 then 1 else 0) then vf else u) l, ?_, fun l hl => ?_⟩
      · simp only [denV, hk, k1, Option.bind_some, k2, k3]
        split_ifs <;> rfl
      · obtain ⟨b', h1, vt', vf', h2, h3, h4⟩ := hlane l hl
        have e1 := hb2 l hl; rw [h1] at e1
        have e2 := ht2 l hl; rw [h2] at e2
        have e3 := hf2 l hl; rw [h3] at e3
        rw [h4, Option.some.inj e1, Option.some.inj e2, Option.some.inj e3]
        by_cases h0 : b l ≠ 0
        · have : anyLane L b = true := List.any_eq_true.2 ⟨l, hl, by simpa using h0⟩
          simp only [if_pos h0, if_pos this]
        · have : anyLane L (fun l => if b l = 0 then 1 else 0) = true :=
            List.any_eq_true.2 ⟨l, hl, by simp at h0; simp [h0]⟩
          simp only [if_neg h0, if_pos this]
    | loopOut ld k =>
      rw [hk] at hr
      simp only [NodeOK, hk] at hnode
      obtain ⟨⟨⟨base, hb1, hb2⟩, hlen, hfix, _, _, hfro⟩, q, o, hq, ho, hne⟩ := hnode
      have hfro := hfro hll
      have ra := hr ld.active (by simp [Kind.refs])
      have ro : ∀ j ∈ ld.outerIn, j < g.next := fun j hj => hr j (by simp [Kind.refs, hj])
      have ri : ∀ j ∈ ld.innerOut, j < g.next := fun j hj => hr j (by simp [Kind.refs, hj])
      have hlane : ∀ l ∈ L, ∃ s0 s v, evalAll (den true g l n (e l)) ld.outerIn = some s0 ∧
          whileN true (fun s => den true g l n (assign ld.innerIn ld.outerIn s (e l)) ld.active)
            (fun s => evalAll (den true g l n (assign ld.innerIn ld.outerIn s (e l))) ld.innerOut) n s0 = some s ∧
          s[k]? = some v ∧ den true g l (n + 1) (e l) i = some v := by
        intro l hl
        obtain ⟨v, hv⟩ := h l hl
        have hv' := hv
        simp only [den, hk, Option.bind_eq_some_iff] at hv
        obtain ⟨s, ⟨s0, h1, h2⟩, h3⟩ := hv
        exact ⟨s0, s, v, h1, h2, h3, hv'⟩
      have ht0 : ∀ l ∈ L, evalAll (den true g l n (e l)) ld.outerIn =
          some ((evalAll (den true g l n (e l)) ld.outerIn).getD []) := fun l hl => by
        obtain ⟨s0, _, _, h1, _⟩ := hlane l hl; simp [h1]
      obtain ⟨m0, s0, hs1, hs2⟩ := vals_lanes (g := g) (L := L) (u := u) (e := e)
        (D := fun l j => den true g l n (e l) j) (fun j hj => ih e j (ro j hj)) ht0
      -- the states of a lane
      have hP0 : ∀ l ∈ L, Elim (Val true g l (e l)) ld.innerIn ld.outerIn
          ((evalAll (den true g l n (e l)) ld.outerIn).getD []) ∧
          ((evalAll (den true g l n (e l)) ld.outerIn).getD []).length = ld.outerIn.length := fun l hl => by
        have h1 := evalAll_iff.1 (ht0 l hl)
        exact ⟨elim_of_vals (h1.imp fun _ _ h => ⟨n, h⟩), h1.length_eq.symm⟩
      have hbelow : ∀ l (s : List Nat) (j : Nat), j < base → assign ld.innerIn ld.outerIn s (e l) j = e l j :=
        fun l s j hj => assign_below hb2 s (e l) j hj
      obtain ⟨kk, x, hx1, hx2⟩ := whileV_sim (L := L)
        (C := fun l s => den true g l n (assign ld.innerIn ld.outerIn s (e l)) ld.active)
        (B := fun l s => evalAll (den true g l n (assign ld.innerIn ld.outerIn s (e l))) ld.innerOut)
        (D := fun m s => denV g L u m (assignV ld s e) ld.active)
        (E := fun m s => evalAll (denV g L u m (assignV ld s e)) ld.innerOut)
        (P := fun l s => Elim (Val true g l (e l)) ld.innerIn ld.outerIn s ∧ s.length = ld.outerIn.length)
        (by
          intro s t b hst _ hC
          have he : ∀ l ∈ L, assignV ld s e l = assign ld.innerIn ld.outerIn (t l) (e l) := fun l hl => by
            simp only [assignV, hst l hl]
          obtain ⟨m, y, h1, h2⟩ := ih (assignV ld s e) ld.active ra fun l hl => ⟨b l, by rw [he l hl]; exact hC l hl⟩
          refine ⟨m, y, fun m' hm' => denV_mono _ _ _ _ _ hm' h1, fun l hl => ?_⟩
          have := h2 l hl
          rw [he l hl, hC l hl] at this
          exact (Option.some.inj this).symm)
        (by
          intro s t t' hst _ hB
          have he : ∀ l ∈ L, assignV ld s e l = assign ld.innerIn ld.outerIn (t l) (e l) := fun l hl => by
            simp only [assignV, hst l hl]
          exact vals_lanes (g := g) (L := L) (u := u) (e := assignV ld s e)
            (D := fun l j => den true g l n (assignV ld s e l) j) (fun j hj => ih _ j (ri j hj))
            (fun l hl => by rw [he l hl]; exact hB l hl))
        (by
          rintro l hl s s' ⟨he, hl'⟩ hB
          have hB := (evalAll_iff.1 hB).imp fun _ _ h => (⟨n, h⟩ : Val true g l _ _ _)
          refine ⟨?_, by rw [← hB.length_eq, hlen]⟩
          refine (fixed_elim hfix hlen hB).imp fun o ho w hv => ?_
          exact Val.congr hv hw (.refl _) hb1 (fun j hj => hbelow l s j hj) ((hb2.lt hb1).2 o ho))
        (by
          rintro l hl s s' ⟨he, hl'⟩ hC hB
          have hB := (evalAll_iff.1 hB).imp fun _ _ h => (⟨n, h⟩ : Val true g l _ _ _)
          have hq := inner_vals hw hb1 hb2 s _ hl' he (fun _ _ => rfl) (hbelow l s)
          have hC : Val true g l _ _ _ := ⟨n, hC⟩
          exact frozen_state hfro hC hB hq)
        n s0 _ (fun l => (whileN true (fun s => den true g l n (assign ld.innerIn ld.outerIn s (e l)) ld.active)
            (fun s => evalAll (den true g l n (assign ld.innerIn ld.outerIn s (e l))) ld.innerOut) n
            ((evalAll (den true g l n (e l)) ld.outerIn).getD [])).getD []) hs2 hP0
        (by
          intro l hl
          obtain ⟨s0, s, v, h1, h2, h3, h4⟩ := hlane l hl
          simp only [h1, Option.getD_some, h2])
      -- the result
      have hres : ∃ y, x[k]? = some y := by
        obtain ⟨l, hl⟩ := List.exists_mem_of_ne_nil L hL
        obtain ⟨s0, s, v, h1, h2, h3, h4⟩ := hlane l hl
        have := hx2 l hl
        simp only [h1, Option.getD_some, h2] at this
        rw [← this] at h3
        simp only [List.getElem?_map, Option.map_eq_some_iff] at h3
        obtain ⟨y, h5, _⟩ := h3
        exact ⟨y, h5⟩
      obtain ⟨y, hy⟩ := hres
      refine ⟨max m0 kk + 1, y, ?_, fun l hl => ?_⟩
      · simp only [denV, hk, hs1 (max m0 kk) (by omega), Option.bind_some,
          hx1 (max m0 kk) (max m0 kk) (by omega) (by omega), hy]
      · obtain ⟨s0, s, v, h1, h2, h3, h4⟩ := hlane l hl
        have := hx2 l hl
        simp only [h1, Option.getD_some, h2] at this
        rw [← this] at h3
        simp only [List.getElem?_map, hy, Option.map_some, Option.some.injEq] at h3
        rw [h4, h3]

end Verif.Ctrl
