import Verif.Scatter.Grow

/-
Scatter operations (C48): parts of calls.
-/

namespace Verif.Scatter

/-! ### Values of variables -/

@[simp] theorem value_length (s : St) (i : Nat) : (value s i).length = s.size i := contents_length _ _ _

theorem Inv.value_lit {s : St} {i : Nat} {c : UInt32} (hk : s.kind i = .lit c) :
    value s i = List.replicate (s.size i) c := by
  unfold value contents
  rw [List.eq_replicate_iff]
  refine ⟨by simp [St.size], ?_⟩
  intro x hx
  obtain ⟨l, -, rfl⟩ := List.mem_map.1 hx
  have hk : (s.vars i).kind = .lit c := hk
  rw [den, hk]

theorem lane_of {s : St} {d i l : Nat} (h : s.size d = s.size i ∨ s.size d = 1) (hl : l < s.size i) : Lane (s.size d) l := by
  rcases h with h | h
  · exact Or.inr (by omega)
  · exact Or.inl h

theorem Inv.value_op {s : St} (I : Inv s) {i : Nat} {f : List UInt32 → UInt32} {args : List Nat} (ha : s.alive i = true)
    (hk : s.kind i = .op f args) :
    value s i = (List.range (s.size i)).map fun l => f ((args.map (value s)).map (Scatter.entry · l)) := by
  have hk' : (s.vars i).kind = .op f args := hk
  show (List.range (s.size i)).map (den s.vars (fin s) (i + 1) i) = _
  apply List.map_congr_left
  intro l hl
  have hl : l < s.size i := by simpa using hl
  rw [den, hk']
  dsimp only
  rw [List.map_map]
  congr 1
  apply List.map_congr_left
  intro d hd
  have := I.typed_op ha hk d hd
  exact (I.entry (fin s) this.1.1 (lane_of this.2.1 hl) this.2.2).symm

theorem Inv.value_data {s : St} (I : Inv s) {i a : Nat} (ha : s.alive i = true) (hk : s.kind i = .data a 0) :
    value s i = fin s a ∧ (s.mem a).length = s.size i := by
  have := I.data_lt ha hk
  have h : (s.mem a).length = s.size i := this.2
  exact ⟨contents_data hk (by rw [fin_length]; exact h), h⟩

/-- An array without pending writes. -/
theorem Inv.value_mem {s : St} (I : Inv s) {i a : Nat} (ha : s.alive i = true) (hk : s.kind i = .data a 0) (hd : ¬ Dirty s i) :
    value s i = s.mem a := by
  rw [(I.value_data ha hk).1, I.agree_fin i a ha hk hd]

theorem Inv.value_gather {s : St} (I : Inv s) {i p idx msk a t : Nat} (ha : s.alive i = true)
    (hk : s.kind i = .gather p idx msk) (hp : s.kind p = .ptr a t false) :
    value s i = (List.range (s.size i)).map fun l =>
      if Scatter.entry (value s msk) l ≠ 0 then (value s t).getD (Scatter.entry (value s idx) l).toNat 0 else 0 := by
  have hk' : (s.vars i).kind = .gather p idx msk := hk
  have hp' : (s.vars p).kind = .ptr a t false := hp
  obtain ⟨⟨a', t', h1, h2, h3, h4⟩, h5⟩ := I.typed_gather ha hk
  rw [hp] at h1
  cases h1
  rw [(I.value_data h2.1 h3).1]
  show (List.range (s.size i)).map (den s.vars (fin s) (i + 1) i) = _
  apply List.map_congr_left
  intro l hl
  have hl : l < s.size i := by simpa using hl
  rw [den, hk']
  dsimp only
  rw [hp']
  dsimp only
  have e : ∀ d ∈ [idx, msk], den s.vars (fin s) i d l = Scatter.entry (value s d) l := by
    intro d hd
    have := h5 d hd
    exact (I.entry (fin s) this.1.1 (lane_of this.2.1 hl) this.2.2).symm
  rw [e idx (by simp), e msk (by simp)]

/-! ### References of the caller -/

/-- A variable that the caller refers to. -/
def Held (s : St) (i : Nat) : Prop := i ≠ 0 ∧ i ∈ s.hs

theorem Held.alive {s : St} (I : Inv s) {i : Nat} (h : Held s i) : s.alive i = true ∧ (s.kind i).isVal = true ∧ i < s.next :=
  ⟨(I.hs i h.2 h.1).1, (I.hs i h.2 h.1).2, (I.bound i (I.hs i h.2 h.1).1).2⟩

theorem Held.ext {s s' : St} (e : Ext s s') {i : Nat} (h : Held s i) : Held s' i := ⟨h.1, e.hs.subset h.2⟩

theorem Held.keep {s s' : St} (I : Inv s) (I' : Inv s') (e : Ext s s') {i : Nat} (h : Held s i) :
    s'.alive i = true ∧ s'.size i = s.size i ∧ value s' i = value s i := by
  have h1 := (h.ext e).alive I'
  have h2 := h.alive I
  have h3 := e.old i h2.2.2 h1.1
  exact ⟨h1.1, h3.2.1, (h3.2.2 h2.2.1).2⟩

theorem Held.clean {s : St} (I : Inv s) {i : Nat} (h : Held s i) (hd : ¬ Dirty s i) : Clean s i :=
  ⟨(h.alive I).1, (h.alive I).2.1, fun _ _ _ => hd⟩

theorem isVal_cases {k : Kind} (h : k.isVal = true) : (∃ c, k = .lit c) ∨ (∃ a o, k = .data a o) ∨ k.isNode = true := by
  cases k <;> simp_all [Kind.isVal, Kind.isNode]

/-- Changes of the references of the caller. -/
theorem Inv.rehs {s : St} (I : Inv s) (hs : List Nat) (h : ∀ i ∈ hs, i ≠ 0 → s.alive i = true ∧ (s.kind i).isVal = true) :
    Inv { s with hs := hs } :=
  ⟨I.bound, I.deps, h, I.queue, I.nodup, I.typed, I.inj, I.stash, I.conflict, I.pos⟩

theorem Inv.give {s : St} (I : Inv s) {i : Nat} (ha : s.alive i = true) (hv : (s.kind i).isVal = true) : Inv (s.give i) :=
  I.rehs _ (by
    intro j hj h0
    rcases List.mem_append.1 hj with h | h
    · exact I.hs j h h0
    · simp only [List.mem_singleton] at h; subst h; exact ⟨ha, hv⟩)

theorem ext_give (s : St) (i : Nat) : Ext s (s.give i) :=
  ⟨Nat.le_refl _, List.prefix_append _ _, fun _ _ h => ⟨h, rfl, fun h => ⟨h, rfl⟩⟩, fun _ _ h => h,
   fun _ h => ⟨h, fun _ => Iff.rfl, fun _ => Iff.rfl, fun _ _ => rfl⟩⟩

/-! ### Operands -/

theorem Inv.settle {cfg : Cfg} (ok : CfgOK cfg) {s : St} (I : Inv s) (l : List Nat) :
    Inv (settle cfg s l) ∧ Ext s (settle cfg s l) ∧ (settle cfg s l).hs = s.hs ∧
    ∀ i ∈ l, ¬ Dirty (settle cfg s l) i := by
  unfold Scatter.settle
  split
  · obtain ⟨h1, h2, h3, h4, h5, -⟩ := I.eval ok []
    exact ⟨h1, h2, h5, fun i _ => h3 i⟩
  · next h =>
    refine ⟨I, Ext.refl s, rfl, fun i hi hd => h ?_⟩
    exact List.any_eq_true.2 ⟨i, hi, (I.dirty_iff i).2 hd⟩

/-- `jitc_var_eval()` -/
theorem Inv.varEval {cfg : Cfg} (ok : CfgOK cfg) {s : St} (I : Inv s) {i : Nat} (h : Held s i) :
    Inv (varEval cfg s i) ∧ Ext s (varEval cfg s i) ∧ (varEval cfg s i).hs = s.hs ∧ ¬ Dirty (varEval cfg s i) i ∧
    ((∃ c, s.kind i = .lit c ∧ (varEval cfg s i).kind i = .lit c) ∨ ∃ a, (varEval cfg s i).kind i = .data a 0) := by
  have hal := h.alive I
  have hdata : ∀ a o, s.kind i = .data a o → o = 0 := by
    intro a o hk
    have := I.typed i hal.1
    simp only [Typed, hk] at this
    exact this.1
  unfold Scatter.varEval
  split
  · next hc =>
    obtain ⟨h1, h2, h3, h4, h5, h6, h7, h8, -⟩ := I.eval ok [i]
    have ha' := ((h.ext h2).alive h1).1
    refine ⟨h1, h2, h5, h3 i, ?_⟩
    rcases isVal_cases hal.2.1 with ⟨c, hk⟩ | ⟨a, o, hk⟩ | hn
    · rcases (h7 i ha').2 with h | h
      · exact Or.inl ⟨c, hk, h.trans hk⟩
      · exact Or.inr h
    · right
      rcases (h7 i ha').2 with h | h
      · rw [h, hk, hdata a o hk]; exact ⟨a, rfl⟩
      · exact h
    · exact Or.inr (h8 i (by simp) ha' hn)
  · next hc =>
    rw [Bool.or_eq_true, not_or] at hc
    refine ⟨I, Ext.refl s, rfl, fun hd => hc.2 ((I.dirty_iff i).2 hd), ?_⟩
    rcases isVal_cases hal.2.1 with ⟨c, hk⟩ | ⟨a, o, hk⟩ | hn
    · exact Or.inl ⟨c, hk, hk⟩
    · exact Or.inr ⟨a, by rw [hk, hdata a o hk]⟩
    · exact absurd hn hc.1

theorem Alone.eval {cfg : Cfg} (ok : CfgOK cfg) {s : St} (I : Inv s) (l : List Nat) {t : Nat} (h : Alone s t) : Alone (eval cfg s l) t := by
  obtain ⟨h1, h2, h3, h4, h5, h6, h7, -⟩ := I.eval ok l
  intro k hk hd
  obtain ⟨a1, a2 | ⟨a, a2⟩⟩ := h7 k hk
  · rw [a2] at hd; exact h k a1 hd
  · rw [a2] at hd; simp [Kind.deps] at hd

/-- A variable in memory that has the contents of another one. -/
structure Got (s s' : St) (i j : Nat) : Prop where
  inv : Inv s'
  ext : Ext s s'
  alive : s'.alive j = true
  data : ∃ a, s'.kind j = .data a 0
  size : s'.size j = s.size i
  value : value s' j = value s i
  or : (j = i ∧ s'.hs = s.hs) ∨ (s.next ≤ j ∧ s'.hs = s.hs ++ [j] ∧ Alone s' j ∧ ¬ Dirty s' j)

theorem Got.held {s s' : St} {i j : Nat} (g : Got s s' i j) (h : Held s i) : Held s' j := by
  rcases g.or with ⟨rfl, e⟩ | ⟨h1, e, -⟩
  · exact h.ext g.ext
  · refine ⟨?_, by rw [e]; simp⟩
    have := (g.inv.bound j g.alive).1
    omega

theorem Inv.stored {s : St} (I : Inv s) {i : Nat} (h : Held s i) (x : Arr) (b : Bool) (hx : x = Scatter.value s i) :
    Got s ((s.store x b).1.give s.next) i s.next ∧ (((s.store x b).1.give s.next).vars s.next).expanded = b := by
  obtain ⟨h1, h2, h3, h4, h5, h6, h7, h8, h9, h10⟩ := I.store x b
  refine ⟨⟨h1.give h6 (by rw [h5]; rfl), h2.trans (ext_give _ _), h6, ⟨_, h5⟩, ?_, ?_, Or.inr ⟨Nat.le_refl _, rfl, h8, h9⟩⟩, h10⟩
  · show (s.store x b).1.size s.next = _
    have : (s.store x b).1.size s.next = x.length := by unfold St.store St.size; simp
    rw [this, hx, value_length]
  · exact h7.trans hx

theorem take_value {s : St} (I : Inv s) {i a : Nat} (ha : s.alive i = true) (hk : s.kind i = .data a 0) (hd : ¬ Dirty s i) :
    (s.mem a).take (s.size i) = value s i := by
  rw [I.value_mem ha hk hd, ← (I.value_data ha hk).2, List.take_length]

/-- `jitc_var_data()` -/
theorem Inv.dataFor {cfg : Cfg} (ok : CfgOK cfg) {s : St} (I : Inv s) {i : Nat} (h : Held s i) :
    Got s (dataFor cfg s i).1 i (dataFor cfg s i).2 ∧
    (Alone s i → Alone (dataFor cfg s i).1 (dataFor cfg s i).2) ∧
    (Dirty (dataFor cfg s i).1 (dataFor cfg s i).2 → (dataFor cfg s i).1 = s ∧ (dataFor cfg s i).2 = i) := by
  have hal := h.alive I
  unfold Scatter.dataFor
  split
  · next a o hk =>
    have := I.typed i hal.1
    simp only [Typed, hk] at this
    obtain ⟨rfl, -⟩ := this
    exact ⟨⟨I, Ext.refl s, hal.1, ⟨a, hk⟩, rfl, rfl, Or.inl ⟨rfl, rfl⟩⟩, fun h => h, fun _ => ⟨rfl, rfl⟩⟩
  · next c hk =>
    have g := (I.stored h (List.replicate (s.size i) c) false (Inv.value_lit hk).symm).1
    rcases g.or with ⟨e, -⟩ | ⟨-, -, g1, g2⟩
    · omega
    · exact ⟨g, fun _ => g1, fun hd => absurd hd g2⟩
  · next h1 h2 =>
    have hn : (s.kind i).isNode = true := by
      rcases isVal_cases hal.2.1 with ⟨c, hk⟩ | ⟨a, o, hk⟩ | hn
      · exact absurd hk (h2 c)
      · exact absurd hk (h1 a o)
      · exact hn
    obtain ⟨e1, e2, e3, e4, e5, e6, e7, e8, -⟩ := I.eval ok [i]
    have hk := h.keep I e1 e2
    exact ⟨⟨e1, e2, hk.1, e8 i (by simp) hk.1 hn, hk.2.1, hk.2.2, Or.inl ⟨rfl, e5⟩⟩, fun h => Alone.eval ok I _ h,
      fun hd => absurd hd (e3 i)⟩

/-- `jitc_var_copy()` -/
theorem Inv.copyFor {cfg : Cfg} (ok : CfgOK cfg) {s : St} (I : Inv s) {i : Nat} (h : Held s i) (hd : ¬ Dirty s i) :
    Got s (copyFor cfg s i).1 i (copyFor cfg s i).2 ∧ s.next ≤ (copyFor cfg s i).2 := by
  have hal := h.alive I
  unfold Scatter.copyFor
  split
  · next a o hk =>
    have := I.typed i hal.1
    simp only [Typed, hk] at this
    obtain ⟨rfl, -⟩ := this
    exact ⟨(I.stored h _ false (take_value I hal.1 hk hd)).1, Nat.le_refl _⟩
  · next c hk => exact ⟨(I.stored h _ false (Inv.value_lit hk).symm).1, Nat.le_refl _⟩
  · next h1 h2 =>
    refine ⟨?_, Nat.le_refl _⟩
    dsimp only
    have e : (s.fresh (.op (fun l => l.getD 0 0) [i]) (s.size i)).1 =
      grown s (.op (fun l => l.getD 0 0) [i]) (s.size i) false s.mem s.top := rfl
    rw [e]
    obtain ⟨g1, g2, g3, g4⟩ := I.grow_ext (k := .op (fun l => l.getD 0 0) [i]) (n := s.size i) (b := false) (mem := s.mem)
      (top := s.top) (Nat.le_refl _) (fun _ _ => rfl)
      (by intro d hd; simp [Kind.deps, Kind.depsSe] at hd; subst hd; exact hal.1)
      (by
        unfold Typed St.kind St.size
        rw [grown_new]
        intro d hd
        simp only [List.mem_singleton] at hd
        subst hd
        have hne : d ≠ s.next := by omega
        have hc : Clean (grown s (.op (fun l => l.getD 0 0) [d]) (s.vars d).size false s.mem s.top) d := by
          refine ⟨?_, ?_, ?_⟩
          · unfold St.alive; rw [grown_old hne]; exact hal.1
          · unfold St.kind; rw [grown_old hne]; exact hal.2.1
          · intro a o hk
            unfold St.kind at hk
            rw [grown_old hne] at hk
            exact absurd hk (h1 a o)
        exact ⟨hc, Or.inl (by rw [grown_old hne])⟩)
      (by intro a h; cases h) (by intro a t h; cases h)
    generalize hG : grown s (.op (fun l => l.getD 0 0) [i]) (s.size i) false s.mem s.top = G at g1 g2 g3 g4
    have hkn : G.kind s.next = .op (fun l => l.getD 0 0) [i] := by unfold St.kind; rw [← hG, grown_new]
    have han : G.alive s.next = true := by unfold St.alive; rw [← hG, grown_new]
    have hsn : G.size s.next = s.size i := by rw [← hG]; show ((grown _ _ _ _ _ _).vars s.next).size = _; rw [grown_new]
    have hhs : G.hs = s.hs := by rw [← hG]; rfl
    have hnx : G.next = s.next + 1 := by rw [← hG]; rfl
    have g5 := g1.give (i := s.next) han (by rw [hkn]; rfl)
    have x5 := g2.trans (ext_give G s.next)
    obtain ⟨e1, e2, e3, e4, e5, e6, e7, e8, -⟩ := g5.eval ok [s.next]
    have hpos := I.pos
    have hh : Held (G.give s.next) s.next := ⟨by omega, by simp [St.give]⟩
    have hk := hh.keep g5 e1 e2
    have hv : value (G.give s.next) s.next = value s i := by
      show value G s.next = _
      rw [g1.value_op han hkn, hsn]
      have hvi := (h.keep I g1 g2).2.2
      apply List.ext_getElem
      · simp
      · intro l h1 h2
        simp only [List.getElem_map, List.getElem_range, List.map_cons, List.map_nil, List.getD_cons_zero, hvi]
        unfold Scatter.entry
        split
        · next hl =>
          have : l = 0 := by simp at h2 hl; omega
          subst this
          simp [List.getD_eq_getElem?_getD, List.getElem?_eq_getElem h2]
        · simp [List.getD_eq_getElem?_getD, List.getElem?_eq_getElem h2]
    refine ⟨e1, x5.trans e2, hk.1, e8 s.next (by simp) hk.1 (by show (G.kind s.next).isNode = true; rw [hkn]; rfl),
      hk.2.1.trans hsn, hk.2.2.trans hv, Or.inr ⟨Nat.le_refl _, by rw [e5]; show G.hs ++ [s.next] = _; rw [hhs], ?_, e3 _⟩⟩
    apply Alone.eval ok g5
    intro k hk hdm
    have b1 := (g5.deps k hk s.next (Or.inl hdm)).1
    have b2 : k < s.next + 1 := by have := (g5.bound k hk).2; simp only [St.give] at this; omega
    omega

end Verif.Scatter
