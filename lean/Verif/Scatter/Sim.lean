import Verif.Scatter.Push

/-
Scatter operations (C48): the simulation.
-/

namespace Verif.Scatter

/-! ### The target of a scatter -/

theorem Got.after {s s0 s1 : St} {i j : Nat} (I : Inv s) (I0 : Inv s0) (e : Ext s s0) (hh : s0.hs = s.hs) (hn : s0.next = s.next) (h : Held s i)
    (g : Got s0 s1 i j) : Got s s1 i j := by
  have k := h.keep I I0 e
  refine ⟨g.inv, e.trans g.ext, g.alive, g.data, g.size.trans k.2.1, g.value.trans k.2.2, ?_⟩
  have := g.or
  rw [hh, hn] at this
  exact this

theorem count_handle {l : List Nat} {i h h' : Nat} (hc : l.count i = 1) (h1 : l[h]? = some i) (h2 : l[h']? = some i) : h = h' := by
  by_contra hne
  obtain ⟨a1, b1⟩ := List.getElem?_eq_some_iff.1 h1
  obtain ⟨a2, b2⟩ := List.getElem?_eq_some_iff.1 h2
  have key : ∀ (l : List Nat) (x y : Nat) (hx : x < l.length) (hy : y < l.length), x < y → l[x] = i → l[y] = i → 2 ≤ l.count i := by
    intro l
    induction l with
    | nil => intro x y hx; simp at hx
    | cons b l ih =>
      intro x y hx hy hxy e1 e2
      obtain ⟨y, rfl⟩ : ∃ k, y = k + 1 := ⟨y - 1, by omega⟩
      have hy' : y < l.length := by simpa using hy
      have e2 : l[y] = i := by simpa using e2
      cases x with
      | zero =>
        have e1 : b = i := by simpa using e1
        have : 0 < l.count i := List.count_pos_iff.2 (e2 ▸ List.getElem_mem hy')
        rw [List.count_cons, e1, beq_self_eq_true, if_pos rfl]; omega
      | succ x =>
        have := ih x y (by simpa using hx) hy' (by omega) (by simpa using e1) e2
        rw [List.count_cons]; omega
  rcases Nat.lt_or_gt_of_ne hne with h | h
  · have := key l _ _ a1 a2 h b1 b2; omega
  · have := key l _ _ a2 a1 h b2 b1; omega

theorem alone_of_refs {s : St} {t : Nat} (I : Inv s) (h : Held s t) (hr : s.refs t ≤ 1) : s.hs.count t = 1 ∧ Alone s t := by
  have hc : 0 < s.hs.count t := List.count_pos_iff.2 h.2
  unfold St.refs at hr
  refine ⟨by omega, ?_⟩
  intro k hk hd
  have hz : ((List.range s.next).map fun j => if s.alive j then (s.kind j).deps.count t else 0).sum = 0 := by omega
  have := sum_zero _ _ hz k (by simpa using (I.bound k hk).2)
  rw [hk] at this
  simp only [if_true] at this
  rw [List.count_eq_zero] at this
  exact this hd

theorem Inv.ownTarget {cfg : Cfg} (ok : CfgOK cfg) {s : St} (I : Inv s) {t idx : Nat} (h : Held s t) (op : ROp) (free : Bool) :
    Got s (ownTarget cfg s t idx op free).1 t (ownTarget cfg s t idx op free).2 ∧
    Alone (ownTarget cfg s t idx op free).1 (ownTarget cfg s t idx op free).2 ∧
    ((ownTarget cfg s t idx op free).2 = t → s.hs.count t = 1 ∧ idx ≠ t) ∧
    (Dirty (ownTarget cfg s t idx op free).1 (ownTarget cfg s t idx op free).2 →
      (ownTarget cfg s t idx op free).1 = s ∧ (ownTarget cfg s t idx op free).2 = t ∧ (op.isIdentity = true → free = true)) := by
  have hlt := (h.alive I).2.2
  unfold Scatter.ownTarget
  have h0 : ∃ s0, (if s.dirty t && op.isIdentity && !free then Scatter.eval cfg s [] else s) = s0 ∧ Inv s0 ∧ Ext s s0 ∧ s0.hs = s.hs ∧
      s0.next = s.next ∧ (Dirty s0 t → s0 = s ∧ (op.isIdentity = true → free = true)) := by
    refine ⟨_, rfl, ?_⟩
    split
    · obtain ⟨e1, e2, e3, e4, e5, e6, -⟩ := I.eval ok []
      exact ⟨e1, e2, e5, e6, fun hd => absurd hd (e3 t)⟩
    · next hc =>
      refine ⟨I, Ext.refl s, rfl, rfl, fun hd => ⟨rfl, fun hi => ?_⟩⟩
      have := (I.dirty_iff t).2 hd
      simp [this, hi] at hc
      exact hc
  obtain ⟨s0, e0, I0, x0, hh0, hn0, hd0⟩ := h0
  rw [e0]
  dsimp only
  have hs0 : Held s0 t := h.ext x0
  rw [I0.stash t]
  generalize hx : (if idx = t then 1 else 0 : Nat) = x
  split
  · next hc =>
    have h1 : ∃ s1, (if s0.dirty t then Scatter.eval cfg s0 [] else s0) = s1 ∧ Inv s1 ∧ Ext s0 s1 ∧ s1.hs = s0.hs ∧ s1.next = s0.next ∧
        ¬ Dirty s1 t := by
      refine ⟨_, rfl, ?_⟩
      split
      · obtain ⟨e1, e2, e3, e4, e5, e6, -⟩ := I0.eval ok []
        exact ⟨e1, e2, e5, e6, e3 t⟩
      · next hc => exact ⟨I0, Ext.refl _, rfl, rfl, fun hd => hc ((I0.dirty_iff t).2 hd)⟩
    obtain ⟨s1, e1, I1, x1, hh1, hn1, hd1⟩ := h1
    rw [e1]
    have hs1 : Held s1 t := hs0.ext x1
    obtain ⟨g, gn⟩ := I1.copyFor ok hs1 hd1
    have g' := (g.after I0 I1 x1 hh1 hn1 hs0).after I I0 x0 hh0 hn0 h
    have hne : (Scatter.copyFor cfg s1 t).2 ≠ t := by omega
    rcases g'.or with ⟨e, -⟩ | ⟨-, -, a1, a2⟩
    · exact absurd e hne
    · exact ⟨g', a1, fun e => absurd e hne, fun hd => absurd hd a2⟩
  · next hc =>
    have hc : s0.refs t + x ≤ 1 := by simpa using hc
    have hr : s0.refs t ≤ 1 := by omega
    obtain ⟨c1, c2⟩ := alone_of_refs I0 hs0 hr
    have hidx : idx ≠ t := by
      rintro rfl
      have : 0 < s0.hs.count idx := by omega
      unfold St.refs at hc
      simp at hx
      omega
    obtain ⟨g, ga, gd⟩ := I0.dataFor ok hs0
    have g' := g.after I I0 x0 hh0 hn0 h
    refine ⟨g', ga c2, fun _ => ⟨by rw [← hh0]; exact c1, hidx⟩, fun hd => ?_⟩
    obtain ⟨k1, k2⟩ := gd hd
    rw [k1, k2] at hd
    obtain ⟨k3, k4⟩ := hd0 hd
    exact ⟨k1.trans k3, k2, k4⟩

theorem Inv.expandFor {cfg : Cfg} {s : St} (I : Inv s) {t : Nat} (h : Held s t) (hk : ∃ a, s.kind t = .data a 0) (hal : Alone s t) (op : ROp)
    (hd : op.isIdentity = false → cfg.expand (s.size t) = true → (s.vars t).expanded = false → ¬ Dirty s t) :
    Got s (expandFor cfg s t op).1 t (expandFor cfg s t op).2 ∧ Alone (expandFor cfg s t op).1 (expandFor cfg s t op).2 ∧
    (op.isIdentity = false → cfg.expand (s.size t) = true → ((expandFor cfg s t op).1.vars (expandFor cfg s t op).2).expanded = true) ∧
    (expandFor cfg s t op = (s, t) ∨ (s.next ≤ (expandFor cfg s t op).2 ∧ (s.vars t).expanded = false)) := by
  have hh := h.alive I
  obtain ⟨a, hk⟩ := hk
  unfold Scatter.expandFor
  split
  · next hc =>
    simp only [Bool.and_eq_true, Bool.not_eq_true'] at hc
    have had : s.addr t = a := by simp only [St.addr, hk]
    rw [had]
    obtain ⟨g, ge⟩ := I.stored h _ true (take_value I hh.1 hk (hd hc.1.1 hc.1.2 hc.2))
    rcases g.or with ⟨e, -⟩ | ⟨-, -, a1, a2⟩
    · have := hh.2.2; omega
    · exact ⟨g, a1, fun _ _ => ge, Or.inr ⟨Nat.le_refl _, hc.2⟩⟩
  · next hc =>
    refine ⟨⟨I, Ext.refl s, hh.1, ⟨a, hk⟩, rfl, rfl, Or.inl ⟨rfl, rfl⟩⟩, hal, fun h1 h2 => ?_, Or.inl rfl⟩
    cases hx : (s.vars t).expanded with
    | true => rfl
    | false => simp [h1, h2, hx] at hc

/-! ### The simulation relation -/

/-- The array of a reference. -/
def refVal (s : St) (i : Nat) : Option Arr := if i = 0 then none else some (value s i)

/-- What is known about pending scatters into an array. -/
def PendAt (s : St) (i : Nat) (p : Option ROp) : Prop :=
  Dirty s i → ∃ o, p = some o ∧ (o ≠ .identity → ∀ q ∈ s.queue, Target s q i → OpOf s q o)

structure Mid (cfg : Cfg) (pend : List (Option ROp)) (r : Refs) (s : St) : Prop where
  inv : Inv s
  exp : ∀ q ∈ s.queue, ∀ t op, Target s q t → OpOf s q op → op.isIdentity = false → cfg.expand (s.size t) = true →
    (s.vars t).expanded = true
  refs : r = s.hs.map (refVal s)
  len : pend.length = s.hs.length
  pend : ∀ (h i : Nat), s.hs[h]? = some i → i ≠ 0 → PendAt s i pend[h]?.join

structure Sim (cfg : Cfg) (pend : List (Option ROp)) (r : Refs) (s : St) : Prop extends Mid cfg pend r s where
  refd : ∀ i, s.alive i = true → Refd s i

theorem target_alive {s : St} (I : Inv s) {q t : Nat} (hq : q ∈ s.queue) (ht : Target s q t) : s.alive t = true ∧ Dirty s t := by
  obtain ⟨op, ord, p, v, i, m, a, k1, k2⟩ := ht
  have hp := (I.deps q (I.queue q hq).1 p (Or.inl (by rw [k1]; simp [Kind.deps]))).2
  exact ⟨(I.deps p hp t (Or.inr (by rw [k2]; simp [Kind.depsSe]))).2, p, a, hp, k2⟩

theorem Mid.held {cfg : Cfg} {pend : List (Option ROp)} {r : Refs} {s : St} (_ : Mid cfg pend r s) {h i : Nat} (hh : s.hs[h]? = some i)
    (h0 : i ≠ 0) : Held s i := ⟨h0, List.mem_of_getElem? hh⟩

/-- The arrays of references stay the same. -/
theorem Mid.ext {cfg : Cfg} {pend : List (Option ROp)} {r : Refs} {s s' : St} (M : Mid cfg pend r s) (I' : Inv s') (e : Ext s s') :
    Mid cfg pend r { s' with hs := s.hs } := by
  refine ⟨?_, ?_, ?_, M.len, ?_⟩
  · exact I'.rehs _ fun i hi h0 => I'.hs i (e.hs.subset hi) h0
  · intro q hq t op ht ho h1 h2
    obtain ⟨k1, k2, k3, k4⟩ := e.queue q hq
    have ht' : Target s' q t := ht
    have hta := (target_alive I' hq ht').1
    have hts := (target_alive M.inv k1 ((k3 t).1 ht')).1
    have := e.old t (M.inv.bound t hts).2 hta
    have h2 : cfg.expand (s'.size t) = true := h2
    rw [this.2.1] at h2
    show (s'.vars t).expanded = true
    rw [k4 t ((k3 t).1 ht')]
    exact M.exp q k1 t op ((k3 t).1 ht') ((k2 op).1 ho) h1 h2
  · rw [M.refs]
    apply List.map_congr_left
    intro i hi
    unfold refVal
    split
    · rfl
    · next h0 => rw [← (Held.keep M.inv I' e ⟨h0, hi⟩).2.2]; rfl
  · intro h i hh h0 hd
    have hd : Dirty s' i := hd
    obtain ⟨o, h1, h2⟩ := M.pend h i hh h0 (e.dirty i ((M.held hh h0).alive M.inv).2.2 hd)
    refine ⟨o, h1, fun ho q hq ht => ?_⟩
    obtain ⟨k1, k2, k3, k4⟩ := e.queue q hq
    exact (k2 o).2 (h2 ho q k1 ((k3 i).1 ht))

theorem Mid.same {cfg : Cfg} {pend : List (Option ROp)} {r : Refs} {s s' : St} (M : Mid cfg pend r s) (I' : Inv s') (e : Ext s s')
    (h : s'.hs = s.hs) : Mid cfg pend r s' := by
  have := M.ext I' e
  rw [← h] at this
  exact this

/-- The end of a call. -/
theorem Mid.done {cfg : Cfg} {pend : List (Option ROp)} {r : Refs} {s : St} (M : Mid cfg pend r s) (j : Nat) (p : Option ROp)
    (hj : j ≠ 0 → s.alive j = true ∧ (s.kind j).isVal = true) (hp : j ≠ 0 → PendAt s j p) :
    Sim cfg (pend ++ [p]) (r ++ [refVal s j]) (s.give j).collect := by
  have Ig : Inv (s.give j) := by
    apply M.inv.rehs
    intro i hi h0
    rcases List.mem_append.1 hi with h | h
    · exact M.inv.hs i h h0
    · simp only [List.mem_singleton] at h; subst h; exact hj h0
  have Mg : Mid cfg (pend ++ [p]) (r ++ [refVal s j]) (s.give j) := by
    refine ⟨Ig, M.exp, ?_, ?_, ?_⟩
    · show _ = (s.hs ++ [j]).map (refVal s)
      rw [List.map_append, ← M.refs]; rfl
    · simp [St.give, M.len]
    · intro h i hh h0
      change PendAt s i _
      change (s.hs ++ [j])[h]? = some i at hh
      by_cases hlt : h < s.hs.length
      · rw [List.getElem?_append_left hlt] at hh
        rw [List.getElem?_append_left (by rw [M.len]; exact hlt)]
        exact M.pend h i hh h0
      · rw [List.getElem?_append_right (by omega)] at hh
        rw [List.getElem?_append_right (by rw [M.len]; omega), M.len]
        have : h - s.hs.length = 0 := by
          cases hx : h - s.hs.length with
          | zero => rfl
          | succ n => rw [hx] at hh; simp at hh
        rw [this] at hh
        have hji : j = i := by simpa using hh
        subst hji
        rw [this]
        simpa using hp h0
  obtain ⟨hf, hr⟩ := Ig.collect
  exact ⟨Mg.same (hf.inv Ig) hf.ext hf.hs, hr⟩

/-- Pending scatters are in the queue. -/
theorem Sim.dirty_queue {cfg : Cfg} {pend : List (Option ROp)} {r : Refs} {s : St} (S : Sim cfg pend r s) {t : Nat} (hd : Dirty s t) :
    ∃ q ∈ s.queue, Target s q t := by
  have I := S.inv
  obtain ⟨j, a, h1, h2⟩ := hd
  have hj0 := (I.bound j h1).1
  rcases S.refd j h1 with h | h | ⟨k, hk, h⟩
  · have := (I.hs j h (by omega)).2
    rw [h2] at this; simp [Kind.isVal] at this
  · obtain ⟨-, op, ord, p, v, i, m, e⟩ := I.queue j h
    rw [h2] at e; cases e
  · rcases I.dep_kind hk h with h' | ⟨a', t', w, k1, k2⟩
    · rw [h2] at h'; simp [Kind.isVal] at h'
    · rw [h2] at k1
      cases k1
      obtain ⟨op, ord, p, v, i, m, hks⟩ := k2 rfl
      have hkq : k ∈ s.queue := by
        have hk0 := (I.bound k hk).1
        rcases S.refd k hk with h3 | h3 | ⟨k', hk', h3⟩
        · have := (I.hs k h3 (by omega)).2
          rw [hks] at this; simp [Kind.isVal] at this
        · exact h3
        · rcases I.dep_kind hk' h3 with h4 | ⟨a', t', w, h4, -⟩
          · rw [hks] at h4; simp [Kind.isVal] at h4
          · rw [hks] at h4; cases h4
      refine ⟨k, hkq, op, ord, p, v, i, m, a, hks, ?_⟩
      obtain ⟨-, -, h7⟩ := I.typed_scat hk hks
      rw [hks] at h
      simp only [Kind.deps, Kind.depsSe, List.mem_cons, List.not_mem_nil, or_false] at h
      rcases h with rfl | h
      · exact h2
      · have := (h7 j (by simpa using h)).1.2.1
        rw [h2] at this; simp [Kind.isVal] at this

/-! ### References -/

theorem ref_iff {s : St} {h i : Nat} : s.ref h = some i ↔ s.hs[h]? = some i ∧ i ≠ 0 := by
  unfold St.ref
  split
  · next h => simp [h]; omega
  · next hne =>
    constructor
    · intro e
      refine ⟨e, ?_⟩
      rintro rfl
      exact hne e
    · exact fun e => e.1

theorem Mid.get {cfg : Cfg} {pend : List (Option ROp)} {r : Refs} {s : St} (M : Mid cfg pend r s) (h : Nat) :
    get r h = (s.ref h).map (value s) := by
  unfold Scatter.get St.ref
  rw [M.refs, List.getElem?_map]
  cases hs : s.hs[h]? with
  | none => rfl
  | some i => cases i <;> simp [refVal]

theorem Mid.getAll {cfg : Cfg} {pend : List (Option ROp)} {r : Refs} {s : St} (M : Mid cfg pend r s) (l : List Nat) :
    getAll r l = (s.refAll l).map (List.map (value s)) := by
  induction l with
  | nil => rfl
  | cons h l ih =>
    rw [Scatter.getAll, St.refAll, M.get, ih]
    cases s.ref h with
    | none => rfl
    | some i =>
      simp only [Option.map_some, Option.bind_some]
      cases s.refAll l <;> rfl

theorem refAll_held {s : St} : ∀ (l is : List Nat), s.refAll l = some is → ∀ i ∈ is, Held s i := by
  intro l
  induction l with
  | nil => intro is h i hi; cases h; simp at hi
  | cons h l ih =>
    intro is he i hi
    rw [St.refAll] at he
    cases h1 : s.ref h with
    | none => rw [h1] at he; simp at he
    | some j =>
      cases h2 : s.refAll l with
      | none => rw [h1, h2] at he; simp at he
      | some js =>
        rw [h1, h2] at he
        simp only [Option.bind_some, Option.map_some, Option.some.injEq] at he
        subst he
        rcases List.mem_cons.1 hi with rfl | hi
        · have := ref_iff.1 h1
          exact ⟨this.2, List.mem_of_getElem? this.1⟩
        · exact ih js h2 i hi

theorem common_spec {l : List Nat} {n : Nat} (h : common l = some n) : n ≠ 0 ∧ ∀ k ∈ l, k = n ∨ k = 1 := by
  unfold common at h
  dsimp only at h
  split at h
  · next hc =>
    cases h
    refine ⟨hc.1, fun k hk => ?_⟩
    have := List.all_eq_true.1 hc.2 k hk
    simpa using this
  · cases h

theorem Inv.typed_new {s : St} (I : Inv s) {f : List UInt32 → UInt32} {args : List Nat} {n : Nat}
    (h : ∀ d ∈ args, Clean s d ∧ (s.size d = n ∨ s.size d = 1)) :
    Typed (grown s (.op f args) n false s.mem s.top) s.next := by
  have hn : (grown s (.op f args) n false s.mem s.top).kind s.next = .op f args := by unfold St.kind; rw [grown_new]
  unfold Typed
  rw [hn]
  intro d hd
  obtain ⟨⟨h1, h2, h3⟩, h4⟩ := h d hd
  have hne : d ≠ s.next := by have := (I.bound d h1).2; omega
  refine ⟨⟨?_, ?_, ?_⟩, ?_⟩
  · unfold St.alive; rw [grown_old hne]; exact h1
  · unfold St.kind; rw [grown_old hne]; exact h2
  · intro a o hk hdd
    unfold St.kind at hk
    rw [grown_old hne] at hk
    apply h3 a o hk
    obtain ⟨j, b, k1, k2⟩ := hdd
    by_cases hj : j = s.next
    · subst hj; rw [hn] at k2; cases k2
    · refine ⟨j, b, ?_, ?_⟩
      · unfold St.alive at k1 ⊢; rw [grown_old hj] at k1; exact k1
      · unfold St.kind at k2 ⊢; rw [grown_old hj] at k2; exact k2
  · unfold St.size
    rw [grown_old hne, grown_new]
    exact h4

/-- A new operation on arrays without pending writes. -/
theorem Mid.newOp {cfg : Cfg} (ok : CfgOK cfg) {pend : List (Option ROp)} {r : Refs} {s : St} (M : Mid cfg pend r s)
    {f : List UInt32 → UInt32} {args : List Nat} {n : Nat}
    (h : ∀ d ∈ args, Held s d ∧ ¬ Dirty s d ∧ (s.size d = n ∨ s.size d = 1)) :
    ∃ s' j, new cfg s (.op f args) n = (s', j) ∧
      Sim cfg (pend ++ [none]) (r ++ [some ((List.range n).map fun l => f ((args.map (value s)).map (entry · l)))]) (s'.give j).collect := by
  obtain ⟨h1, h2, h3, h4, h5, h6, h7, h8, h9⟩ := M.inv.new ok (k := .op f args) (n := n)
    (by
      intro d hd
      simp only [Kind.deps, Kind.depsSe, List.not_mem_nil, or_false] at hd
      exact ((h d hd).1.alive M.inv).1)
    (by intro a o h; cases h) (by intro a t h; cases h)
    (M.inv.typed_new fun d hd => ⟨(h d hd).1.clean M.inv (h d hd).2.1, (h d hd).2.2⟩)
  generalize Scatter.new cfg s (.op f args) n = w at h1 h2 h3 h4 h5 h6 h7 h8 h9
  obtain ⟨s', j⟩ := w
  dsimp only at h1 h2 h3 h4 h5 h6 h7 h8 h9
  refine ⟨s', j, rfl, ?_⟩
  have hj0 := (h1.bound j h5).1
  have := (M.same h1 h2 h8).done j none (fun _ => ⟨h5, by rw [h6]; rfl⟩) (fun _ hd => by
    obtain ⟨-, a, hk⟩ := h1.dirty_data hd
    rw [h6] at hk; cases hk)
  unfold refVal at this
  rw [if_neg (by omega), h1.value_op h5 h6, h7] at this
  have e : args.map (value s') = args.map (value s) := by
    apply List.map_congr_left
    intro d hd
    exact ((h d hd).1.keep M.inv h1 h2).2.2
  rw [e] at this
  exact this

end Verif.Scatter
