import Verif.Ctrl.Model
import Mathlib.Data.List.Forall2
import Mathlib.Tactic.Common

/-
Symbolic loops and conditionals: the value of a variable.
-/

namespace Verif.Ctrl

variable {sp : Bool}

/-! ### Lists -/

theorem evalAll_iff {α β : Type} {f : α → Option β} : ∀ {l : List α} {r : List β},
    evalAll f l = some r ↔ List.Forall₂ (fun a b => f a = some b) l r := by
  intro l
  induction l with
  | nil => intro r; cases r <;> simp [evalAll]
  | cons a l ih =>
    intro r
    simp only [evalAll]
    cases h : f a with
    | none =>
      simp only [Option.bind_none, reduceCtorEq, false_iff]
      intro h'; cases h' with | cons h1 _ => rw [h] at h1; simp at h1
    | some b =>
      simp only [Option.bind_some, Option.map_eq_some_iff]
      constructor
      · rintro ⟨r', h1, rfl⟩; exact .cons h (ih.1 h1)
      · intro h'; cases h' with
        | cons h1 h2 => rw [h] at h1; cases h1; exact ⟨_, ih.2 h2, rfl⟩

theorem evalAll_congr {α β : Type} {f f' : α → Option β} : ∀ {l : List α},
    (∀ a ∈ l, f a = f' a) → evalAll f l = evalAll f' l := by
  intro l
  induction l with
  | nil => intro _; rfl
  | cons a l ih =>
    intro h
    simp only [evalAll, h a (by simp), ih fun b hb => h b (by simp [hb])]

theorem whileN_mono {σ : Type} {C C' : σ → Option Nat} {B B' : σ → Option σ}
    (hC : ∀ s b, C s = some b → C' s = some b) (hB : ∀ s b, B s = some b → B' s = some b) :
    ∀ n m s r, n ≤ m → whileN sp C B n s = some r → whileN sp C' B' m s = some r := by
  intro n
  induction n with
  | zero => intro m s r _ h; simp [whileN] at h
  | succ n ih =>
    intro m s r hm h
    obtain ⟨m, rfl⟩ : ∃ k, m = k + 1 := ⟨m - 1, by omega⟩
    simp only [whileN, Option.bind_eq_some_iff] at h ⊢
    obtain ⟨b, hb, h⟩ := h
    refine ⟨b, hC _ _ hb, ?_⟩
    split at h
    · next h0 =>
      rw [if_pos h0]
      split at h
      · next hs =>
        rw [if_pos hs]
        simp only [Option.map_eq_some_iff] at h ⊢
        obtain ⟨a, h1, h2⟩ := h
        exact ⟨a, hB _ _ h1, h2⟩
      · next hs => rw [if_neg hs]; exact h
    · next h0 =>
      rw [if_neg h0]
      simp only [Option.bind_eq_some_iff] at h ⊢
      obtain ⟨s', h1, h2⟩ := h
      exact ⟨s', hB _ _ h1, ih _ _ _ (by omega) h2⟩

/-! ### The bound on the length of the computation -/

theorem den_mono {g : Graph} {lane : Nat} : ∀ n m e i v, n ≤ m → den sp g lane n e i = some v →
    den sp g lane m e i = some v := by
  intro n
  induction n with
  | zero => intro m e i v _ h; simp [den] at h
  | succ n ih =>
    intro m e i v hm h
    obtain ⟨m, rfl⟩ : ∃ k, m = k + 1 := ⟨m - 1, by omega⟩
    have hnm : n ≤ m := by omega
    have hall : ∀ e l r, evalAll (den sp g lane n e) l = some r → evalAll (den sp g lane m e) l = some r := by
      intro e l r h; exact evalAll_iff.2 ((evalAll_iff.1 h).imp fun _ _ h => ih _ _ _ _ hnm h)
    simp only [den] at h ⊢
    cases hk : (g.node i).kind with
    | lit c => simpa [hk] using h
    | input c => simpa [hk] using h
    | phi => simpa [hk] using h
    | op f args =>
      simp only [hk, Option.map_eq_some_iff] at h ⊢
      obtain ⟨r, h1, h2⟩ := h
      exact ⟨r, hall _ _ _ h1, h2⟩
    | condOut c t f =>
      simp only [hk, Option.bind_eq_some_iff] at h ⊢
      obtain ⟨b, h1, r, h2, h3⟩ := h
      refine ⟨b, ih _ _ _ _ hnm h1, r, ih _ _ _ _ hnm h2, ?_⟩
      split at h3
      · next hs =>
        rw [if_pos hs]
        simp only [Option.map_eq_some_iff] at h3 ⊢
        obtain ⟨a, h4, h5⟩ := h3
        exact ⟨a, ih _ _ _ _ hnm h4, h5⟩
      · next hs => rw [if_neg hs]; exact h3
    | loopOut ld k =>
      simp only [hk, Option.bind_eq_some_iff] at h ⊢
      obtain ⟨s, ⟨s0, h1, h2⟩, h3⟩ := h
      exact ⟨s, ⟨s0, hall _ _ _ h1, whileN_mono (fun s b h => ih _ _ _ _ hnm h)
        (fun s r h => hall _ _ _ h) _ _ _ _ hnm h2⟩, h3⟩

/-- Variable `i` has the value `v`. -/
def Val (sp : Bool) (g : Graph) (lane : Nat) (e : Nat → Nat) (i v : Nat) : Prop := ∃ n, den sp g lane n e i = some v

theorem Val.unique {g : Graph} {lane : Nat} {e : Nat → Nat} {i v w : Nat} (h : Val sp g lane e i v)
    (h' : Val sp g lane e i w) : v = w := by
  obtain ⟨n, h⟩ := h; obtain ⟨m, h'⟩ := h'
  have h1 := den_mono n (max n m) e i v (by omega) h
  have h2 := den_mono m (max n m) e i w (by omega) h'
  rw [h1] at h2; simpa using h2

theorem vals_fuel {g : Graph} {lane : Nat} {e : Nat → Nat} : ∀ {l vs : List Nat},
    List.Forall₂ (Val sp g lane e) l vs → ∃ n, ∀ m, n ≤ m → evalAll (den sp g lane m e) l = some vs := by
  intro l vs h
  induction h with
  | nil => exact ⟨0, fun _ _ => rfl⟩
  | cons h1 _ ih =>
    obtain ⟨n1, h1⟩ := h1
    obtain ⟨n2, h2⟩ := ih
    refine ⟨max n1 n2, fun m hm => ?_⟩
    simp only [evalAll, den_mono _ m _ _ _ (by omega) h1, h2 m (by omega)]
    rfl

theorem val_lit {g : Graph} {lane : Nat} {e : Nat → Nat} {i c : Nat} (h : (g.node i).kind = .lit c) :
    Val sp g lane e i c := ⟨1, by simp [den, h]⟩

theorem val_input {g : Graph} {lane : Nat} {e : Nat → Nat} {i : Nat} {x : Nat → Nat}
    (h : (g.node i).kind = .input x) : Val sp g lane e i (entry x (g.node i).size lane) :=
  ⟨1, by simp [den, h]⟩

theorem val_phi {g : Graph} {lane : Nat} {e : Nat → Nat} {i : Nat} (h : (g.node i).kind = .phi) :
    Val sp g lane e i (e i) := ⟨1, by simp [den, h]⟩

theorem val_op {g : Graph} {lane : Nat} {e : Nat → Nat} {i : Nat} {f : List Nat → Nat}
    {args vs : List Nat} (h : (g.node i).kind = .op f args)
    (hv : List.Forall₂ (Val sp g lane e) args vs) : Val sp g lane e i (f vs) := by
  obtain ⟨n, hn⟩ := vals_fuel hv
  exact ⟨n + 1, by simp [den, h, hn n (Nat.le_refl _)]⟩

theorem val_cond {g : Graph} {lane : Nat} {e : Nat → Nat} {i c t f b v : Nat}
    (h : (g.node i).kind = .condOut c t f) (hc : Val sp g lane e c b)
    (hv : Val sp g lane e (if b ≠ 0 then t else f) v)
    (ho : sp = true → ∃ x, Val sp g lane e (if b ≠ 0 then f else t) x) : Val sp g lane e i v := by
  obtain ⟨n, hn⟩ := hc; obtain ⟨m, hm⟩ := hv
  by_cases hs : sp = true
  · obtain ⟨x, k, hk⟩ := ho hs
    refine ⟨max (max n m) k + 1, ?_⟩
    simp only [den, h, den_mono n (max (max n m) k) e c b (by omega) hn, Option.bind_some,
      den_mono m (max (max n m) k) e _ v (by omega) hm, if_pos hs,
      den_mono k (max (max n m) k) e _ x (by omega) hk, Option.map_some]
  · refine ⟨max n m + 1, ?_⟩
    simp only [den, h, den_mono n (max n m) e c b (by omega) hn, Option.bind_some,
      den_mono m (max n m) e _ v (by omega) hm, if_neg hs]

theorem val_loop {g : Graph} {lane : Nat} {e : Nat → Nat} {i k v : Nat} {ld : LoopData}
    {s0 r : List Nat} (h : (g.node i).kind = .loopOut ld k)
    (h0 : List.Forall₂ (Val sp g lane e) ld.outerIn s0)
    (hw : ∃ n, ∀ m, n ≤ m → whileN sp
      (fun s => den sp g lane m (assign ld.innerIn ld.outerIn s e) ld.active)
      (fun s => evalAll (den sp g lane m (assign ld.innerIn ld.outerIn s e)) ld.innerOut) m s0 = some r)
    (hv : r[k]? = some v) : Val sp g lane e i v := by
  obtain ⟨n1, h1⟩ := vals_fuel h0
  obtain ⟨n2, h2⟩ := hw
  refine ⟨max n1 n2 + 1, ?_⟩
  simp only [den, h, h1 (max n1 n2) (by omega), Option.bind_some, h2 (max n1 n2) (by omega), hv]

/-! ### Well-formed graphs -/

/-- The variables to which a variable refers. -/
def Kind.refs : Kind → List Nat
  | .lit _ => []
  | .input _ => []
  | .op _ args => args
  | .phi => []
  | .loopOut ld _ => ld.active :: (ld.outerIn ++ ld.innerIn ++ ld.innerOut)
  | .condOut c t f => [c, t, f]

/-- Variables refer to older variables. -/
def WF (g : Graph) : Prop := ∀ i, i < g.next → ∀ j ∈ (g.node i).kind.refs, j < i

/-- `g'` contains the variables of `g`. -/
def Ext (g g' : Graph) : Prop := g.next ≤ g'.next ∧ ∀ i, i < g.next → g'.node i = g.node i

theorem Ext.refl (g : Graph) : Ext g g := ⟨Nat.le_refl _, fun _ _ => rfl⟩

theorem Ext.trans {g g' g'' : Graph} (h : Ext g g') (h' : Ext g' g'') : Ext g g'' :=
  ⟨Nat.le_trans h.1 h'.1, fun i hi => by rw [h'.2 i (Nat.lt_of_lt_of_le hi h.1), h.2 i hi]⟩

theorem assign_congr {N : Nat} : ∀ (qs os s : List Nat) (e e' : Nat → Nat), (∀ j, j < N → e j = e' j) →
    ∀ j, j < N → assign qs os s e j = assign qs os s e' j := by
  intro qs
  induction qs with
  | nil => intro os s e e' h j hj; simp [assign, h j hj]
  | cons q qs ih =>
    intro os s e e' h j hj
    cases os with
    | nil => simp [assign, h j hj]
    | cons o os =>
      cases s with
      | nil => simp [assign, h j hj]
      | cons v s =>
        have := ih os s e e' h j hj
        simp only [assign]
        split_ifs
        · exact this
        · simp only [set, this]

theorem den_congr {g g' : Graph} {lane : Nat} (hw : WF g) (hx : Ext g g') : ∀ n N e e' i,
    N ≤ g.next → (∀ j, j < N → e j = e' j) → i < N → den sp g lane n e i = den sp g' lane n e' i := by
  intro n
  induction n with
  | zero => intro N e e' i _ _ _; rfl
  | succ n ih =>
    intro N e e' i hN he hi
    have hr := hw i (by omega)
    simp only [den, hx.2 i (by omega)]
    cases hk : (g.node i).kind with
    | lit c => rfl
    | input c => rfl
    | phi => simp only [he i hi]
    | op f args =>
      simp only
      rw [evalAll_congr fun a ha => ih N e e' a hN he
        (Nat.lt_trans (hr a (by simpa [hk, Kind.refs] using ha)) hi)]
    | condOut c t f =>
      have h1 : ∀ j, j ∈ [c, t, f] → den sp g lane n e j = den sp g' lane n e' j := fun j hj =>
        ih N e e' j hN he (Nat.lt_trans (hr j (by simpa [hk, Kind.refs] using hj)) hi)
      dsimp only
      rw [h1 c (by simp)]
      congr 1
      funext b
      rw [h1 (if b ≠ 0 then t else f) (by split_ifs <;> simp), h1 (if b ≠ 0 then f else t) (by split_ifs <;> simp)]
    | loopOut ld k =>
      have hlt : ∀ j, j ∈ ld.active :: (ld.outerIn ++ ld.innerIn ++ ld.innerOut) → j < N := fun j hj =>
        Nat.lt_trans (hr j (by simpa [hk, Kind.refs] using hj)) hi
      have h1 : evalAll (den sp g lane n e) ld.outerIn = evalAll (den sp g' lane n e') ld.outerIn :=
        evalAll_congr fun a ha => ih N e e' a hN he (hlt a (by simp [ha]))
      have h2 : (fun s => den sp g lane n (assign ld.innerIn ld.outerIn s e) ld.active) =
          fun s => den sp g' lane n (assign ld.innerIn ld.outerIn s e') ld.active := by
        funext s
        exact ih N _ _ _ hN (assign_congr _ _ _ _ _ he) (hlt _ (by simp))
      have h3 : (fun s => evalAll (den sp g lane n (assign ld.innerIn ld.outerIn s e)) ld.innerOut) =
          fun s => evalAll (den sp g' lane n (assign ld.innerIn ld.outerIn s e')) ld.innerOut := by
        funext s
        exact evalAll_congr fun a ha => ih N _ _ _ hN (assign_congr _ _ _ _ _ he) (hlt _ (by simp [ha]))
      simp only [h1, h2, h3]

theorem Val.congr {g g' : Graph} {lane N : Nat} {e e' : Nat → Nat} {i v : Nat} (h : Val sp g lane e i v)
    (hw : WF g) (hx : Ext g g') (hN : N ≤ g.next) (he : ∀ j, j < N → e j = e' j) (hi : i < N) :
    Val sp g' lane e' i v := by
  obtain ⟨n, hn⟩ := h
  exact ⟨n, by rw [← den_congr hw hx n N e e' i hN he hi]; exact hn⟩

theorem Val.ext {g g' : Graph} {lane : Nat} {e : Nat → Nat} {i v : Nat} (h : Val sp g lane e i v)
    (hw : WF g) (hx : Ext g g') (hi : i < g.next) : Val sp g' lane e i v :=
  h.congr hw hx (Nat.le_refl _) (fun _ _ => rfl) hi

theorem vals_congr {g g' : Graph} {lane N : Nat} {e e' : Nat → Nat} {l vs : List Nat}
    (h : List.Forall₂ (Val sp g lane e) l vs) (hw : WF g) (hx : Ext g g') (hN : N ≤ g.next)
    (he : ∀ j, j < N → e j = e' j) (hl : ∀ i ∈ l, i < N) : List.Forall₂ (Val sp g' lane e') l vs := by
  induction h with
  | nil => exact .nil
  | cons h1 _ ih => exact .cons (h1.congr hw hx hN he (hl _ (by simp))) (ih fun i hi => hl i (by simp [hi]))

theorem vals_ext {g g' : Graph} {lane : Nat} {e : Nat → Nat} {l vs : List Nat}
    (h : List.Forall₂ (Val sp g lane e) l vs) (hw : WF g) (hx : Ext g g') (hl : ∀ i ∈ l, i < g.next) :
    List.Forall₂ (Val sp g' lane e) l vs := vals_congr h hw hx (Nat.le_refl _) (fun _ _ => rfl) hl

/-! ### New variables -/

theorem fresh_wf {g : Graph} {v : Node} (hw : WF g) (hv : ∀ j ∈ v.kind.refs, j < g.next) :
    WF (g.fresh v).1 ∧ Ext g (g.fresh v).1 ∧ (g.fresh v).2 < (g.fresh v).1.next ∧
      (g.fresh v).1.node (g.fresh v).2 = v := by
  refine ⟨?_, ⟨Nat.le_succ _, ?_⟩, Nat.lt_succ_self _, ?_⟩
  · intro i hi j hj
    simp only [Graph.fresh, set] at hi hj
    split_ifs at hj with h
    · subst h; exact hv j hj
    · exact hw i (by omega) j hj
  · intro i hi
    have : i ≠ g.next := by omega
    simp [Graph.fresh, set, this]
  · simp [Graph.fresh, set]

theorem new_wf {cfg : Cfg} (hc : CfgOK cfg) {g : Graph} {v : Node} (hw : WF g)
    (hv : ∀ j ∈ v.kind.refs, j < g.next) :
    WF (new cfg g v).1 ∧ Ext g (new cfg g v).1 ∧ (new cfg g v).2 < (new cfg g v).1.next ∧
      (new cfg g v).1.node (new cfg g v).2 = v := by
  unfold new
  split
  · next i h => exact ⟨hw, .refl _, hc.lvn _ _ _ h⟩
  · exact fresh_wf hw hv

theorem literal_kind {g : Graph} {i c : Nat} (h : g.literal i = some c) : (g.node i).kind = .lit c := by
  unfold Graph.literal at h
  split at h
  · next c' hk => rw [hk]; simpa using h
  · simp at h

theorem val_of_literal {g : Graph} {lane : Nat} {e : Nat → Nat} {i c : Nat} (h : g.literal i = some c) :
    Val sp g lane e i c := val_lit (literal_kind h)

/-- A graph and a variable that were made from the graph `g` such that the variable has the values
described by `P`. -/
def Makes (sp : Bool) (g : Graph) (r : Graph × Nat) (P : Nat → (Nat → Nat) → Nat → Prop) : Prop :=
  WF r.1 ∧ Ext g r.1 ∧ r.2 < r.1.next ∧ ∀ lane e v, P lane e v → Val sp r.1 lane e r.2 v

theorem resize_makes {cfg : Cfg} (hc : CfgOK cfg) {g : Graph} {i : Nat} (size : Nat) (hw : WF g)
    (hi : i < g.next) : Makes sp g (resize cfg g i size) fun lane e v => Val sp g lane e i v := by
  unfold resize
  split
  · exact ⟨hw, .refl _, hi, fun _ _ _ h => h⟩
  · split
    · next c hl =>
      obtain ⟨h1, h2, h3, h4⟩ := new_wf hc (v := ⟨.lit c, size⟩) hw (by simp [Kind.refs])
      refine ⟨h1, h2, h3, fun lane e v h => ?_⟩
      rw [h.unique (val_of_literal hl)]
      exact val_lit (by rw [h4])
    · obtain ⟨h1, h2, h3, h4⟩ := fresh_wf (v := ⟨.op (fun l => l.getD 0 0) [i], size⟩) hw
        (by simp [Kind.refs, hi])
      refine ⟨h1, h2, h3, fun lane e v h => ?_⟩
      exact val_op (vs := [v]) (by rw [h4]) (.cons (h.ext hw h2 hi) .nil)

theorem lit_makes {cfg : Cfg} (hc : CfgOK cfg) {g : Graph} (c size : Nat) (hw : WF g) :
    Makes sp g (new cfg g ⟨.lit c, size⟩) fun _ _ v => v = c := by
  obtain ⟨h1, h2, h3, h4⟩ := new_wf hc (v := ⟨.lit c, size⟩) hw (by simp [Kind.refs])
  exact ⟨h1, h2, h3, fun lane e v h => by rw [h]; exact val_lit (by rw [h4])⟩

theorem op_makes {cfg : Cfg} (hc : CfgOK cfg) {g : Graph} (f : List Nat → Nat) (args : List Nat)
    (size : Nat) (hw : WF g) (ha : ∀ i ∈ args, i < g.next) :
    Makes sp g (new cfg g ⟨.op f args, size⟩) fun lane e v =>
      ∃ vs, List.Forall₂ (Val sp g lane e) args vs ∧ v = f vs := by
  obtain ⟨h1, h2, h3, h4⟩ := new_wf hc (v := ⟨.op f args, size⟩) hw (by simpa [Kind.refs] using ha)
  refine ⟨h1, h2, h3, ?_⟩
  rintro lane e v ⟨vs, hv, rfl⟩
  exact val_op (by rw [h4]) (vals_ext hv hw h2 ha)

theorem literals_vals {g : Graph} {lane : Nat} {e : Nat → Nat} {args cs vs : List Nat}
    (h : evalAll g.literal args = some cs) (hv : List.Forall₂ (Val sp g lane e) args vs) : cs = vs := by
  have h := evalAll_iff.1 h
  induction hv generalizing cs with
  | nil => cases h; rfl
  | cons h1 _ ih =>
    cases h with
    | cons h2 h3 => rw [ih (evalAll_iff.2 h3) h3, h1.unique (val_of_literal h2)]

theorem vals_getElem {R : Nat → Nat → Prop} {l vs : List Nat} (h : List.Forall₂ R l vs) :
    ∀ (k a : Nat), l[k]? = some a → ∃ v, vs[k]? = some v ∧ R a v := by
  induction h with
  | nil => intro k a h; simp at h
  | cons h1 _ ih =>
    intro k a h
    cases k with
    | zero => simp only [List.getElem?_cons_zero, Option.some.injEq] at h; subst h; exact ⟨_, rfl, h1⟩
    | succ k => simp only [List.getElem?_cons_succ] at h ⊢; exact ih k a h

theorem recOp_makes {cfg : Cfg} (hc : CfgOK cfg) {g : Graph} {f : List Nat → Nat} {args : List Nat}
    {r : Graph × Nat} (hw : WF g) (ha : ∀ i ∈ args, i < g.next) (h : recOp cfg g f args = some r) :
    Makes sp g r fun lane e v => ∃ vs, List.Forall₂ (Val sp g lane e) args vs ∧ v = f vs := by
  unfold recOp at h
  dsimp only at h
  split at h
  · simp at h
  · split at h
    · next cs hcs =>
      cases h
      have hl : evalAll g.literal args = some cs := by
        split at hcs
        · exact hcs
        · simp at hcs
      obtain ⟨h1, h2, h3, h4⟩ := lit_makes hc (f cs) (maxSize (args.map g.size)) hw
      refine ⟨h1, h2, h3, ?_⟩
      rintro lane e v ⟨vs, hv, rfl⟩
      rw [← literals_vals hl hv]
      exact h4 _ _ _ rfl
    · split at h
      · next i hi =>
        cases h
        have hs : cfg.simp g f args = some i := by
          split at hi
          · exact hi
          · simp at hi
        obtain ⟨k, hk, hs⟩ := hc.simp _ _ _ _ hs
        have hm : i ∈ args := List.mem_of_getElem? hk
        obtain ⟨h1, h2, h3, h4⟩ := resize_makes hc (maxSize (args.map g.size)) hw (ha i hm)
        refine ⟨h1, h2, h3, ?_⟩
        rintro lane e v ⟨vs, hv, rfl⟩
        apply h4
        obtain ⟨v, hv1, hv2⟩ := vals_getElem hv k i hk
        have := hs vs hv.length_eq.symm (by
          intro j a c hj hl
          obtain ⟨w, h1, h2⟩ := vals_getElem hv j a hj
          rw [h1, h2.unique (val_of_literal hl)]) (by
          intro j j' a hj hj'
          obtain ⟨w, h1, h2⟩ := vals_getElem hv j a hj
          obtain ⟨w', h3, h4⟩ := vals_getElem hv j' a hj'
          rw [h1, h3, h2.unique h4])
        rw [hv1] at this
        cases this
        exact hv2
      · cases h
        exact op_makes hc f args _ hw ha

theorem select_makes {cfg : Cfg} (hc : CfgOK cfg) {g : Graph} {m t f : Nat} {r : Graph × Nat}
    (hw : WF g) (hm : m < g.next) (ht : t < g.next) (hf : f < g.next)
    (h : select cfg g m t f = some r) :
    Makes sp g r fun lane e v => ∃ b, Val sp g lane e m b ∧
      ∃ vt vf, Val sp g lane e t vt ∧ Val sp g lane e f vf ∧ v = if b ≠ 0 then vt else vf := by
  unfold select at h
  dsimp only at h
  split at h
  · simp at h
  · split at h
    · next heq =>
      cases h
      obtain ⟨h1, h2, h3, h4⟩ := resize_makes hc (maxSize [g.size m, g.size t, g.size f]) hw ht
      refine ⟨h1, h2, h3, ?_⟩
      rintro lane e v ⟨b, _, vt, vf, h5, h6, rfl⟩
      apply h4
      rw [heq] at h5
      rw [h6.unique h5, ite_self, heq]; exact h5
    · split at h
      · next hl =>
        cases h
        have hl : g.literal m = some 0 := by
          split at hl
          · exact hl
          · simp at hl
        obtain ⟨h1, h2, h3, h4⟩ := resize_makes hc (maxSize [g.size m, g.size t, g.size f]) hw hf
        refine ⟨h1, h2, h3, ?_⟩
        rintro lane e v ⟨b, h7, vt, vf, h5, h6, rfl⟩
        have := h7.unique (val_of_literal hl); subst this
        exact h4 _ _ _ h6
      · next c hne hl =>
        cases h
        have hl : g.literal m = some c := by
          split at hl
          · exact hl
          · simp at hl
        obtain ⟨h1, h2, h3, h4⟩ := resize_makes hc (maxSize [g.size m, g.size t, g.size f]) hw ht
        refine ⟨h1, h2, h3, ?_⟩
        rintro lane e v ⟨b, h7, vt, vf, h5, h6, rfl⟩
        have := h7.unique (val_of_literal hl); subst this
        rw [if_pos (fun h => hne h)]
        exact h4 _ _ _ h5
      · cases h
        obtain ⟨h1, h2, h3, h4⟩ := op_makes hc selectVal [m, t, f]
          (maxSize [g.size m, g.size t, g.size f]) hw (by simp [hm, ht, hf])
        refine ⟨h1, h2, h3, ?_⟩
        rintro lane e v ⟨b, h7, vt, vf, h5, h6, rfl⟩
        exact h4 _ _ _ ⟨[b, vt, vf], .cons h7 (.cons h5 (.cons h6 .nil)), rfl⟩

end Verif.Ctrl
