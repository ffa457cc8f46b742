import Verif.Scatter.Memory
import Mathlib.Data.List.Nodup

/-
Scatter operations (C48): evaluation and the release of variables do not change the values of
variables.
-/

namespace Verif.Scatter

/-- A later state, in which the variables that still exist have the same value. -/
structure Ext (s s' : St) : Prop where
  next : s.next ≤ s'.next
  hs : s.hs <+: s'.hs
  old : ∀ i, i < s.next → s'.alive i = true → s.alive i = true ∧ s'.size i = s.size i ∧
    ((s.kind i).isVal = true → (s'.kind i).isVal = true ∧ value s' i = value s i)
  dirty : ∀ t, t < s.next → Dirty s' t → Dirty s t
  queue : ∀ q ∈ s'.queue, q ∈ s.queue ∧ (∀ op, OpOf s' q op ↔ OpOf s q op) ∧ (∀ t, Target s' q t ↔ Target s q t) ∧
    ∀ t, Target s q t → (s'.vars t).expanded = (s.vars t).expanded

theorem Ext.refl (s : St) : Ext s s :=
  ⟨Nat.le_refl _, List.prefix_refl _, fun _ _ h => ⟨h, rfl, fun h => ⟨h, rfl⟩⟩, fun _ _ h => h, fun _ h => ⟨h, fun _ => Iff.rfl, fun _ => Iff.rfl, fun _ _ => rfl⟩⟩

theorem Ext.trans {s s1 s2 : St} (h : Ext s s1) (h' : Ext s1 s2) : Ext s s2 := by
  refine ⟨Nat.le_trans h.next h'.next, h.hs.trans h'.hs, ?_, ?_, ?_⟩
  · intro i hi ha
    obtain ⟨a1, a2, a3⟩ := h'.old i (Nat.lt_of_lt_of_le hi h.next) ha
    obtain ⟨b1, b2, b3⟩ := h.old i hi a1
    refine ⟨b1, a2.trans b2, fun hv => ?_⟩
    obtain ⟨b4, b5⟩ := b3 hv
    obtain ⟨a4, a5⟩ := a3 b4
    exact ⟨a4, a5.trans b5⟩
  · intro t ht hd
    exact h.dirty t ht (h'.dirty t (Nat.lt_of_lt_of_le ht h.next) hd)
  · intro q hq
    obtain ⟨a1, a2, a3, a4⟩ := h'.queue q hq
    obtain ⟨b1, b2, b3, b4⟩ := h.queue q a1
    exact ⟨b1, fun op => (a2 op).trans (b2 op), fun t => (a3 t).trans (b3 t), fun t ht => (a4 t ((b3 t).2 ht)).trans (b4 t ht)⟩

/-! ### Values only depend on kinds, sizes and memory -/

theorem den_congr {vars vars' : Nat → Var} (mem : Nat → Arr) (hk : ∀ i, (vars' i).kind = (vars i).kind)
    (hs : ∀ i, (vars' i).size = (vars i).size) : ∀ n i l, den vars' mem n i l = den vars mem n i l := by
  intro n
  induction n with
  | zero => intros; rfl
  | succ n ih =>
    intro i l
    rw [den, den, hk i, hs i]
    simp only [ih, hk]

theorem adr_congr {s s' : St} (hk : ∀ i, s'.kind i = s.kind i) : adr s' = adr s := by
  funext e
  cases e <;> simp only [adr, hk]

theorem fn_congr {s s' : St} (hk : ∀ i, s'.kind i = s.kind i) (hs : ∀ i, s'.size i = s.size i) (hm : s'.mem = s.mem) :
    fn s' = fn s := by
  funext e x
  have := den_congr (vars := s.vars) (vars' := s'.vars) s.mem hk hs
  cases e <;> simp only [fn, hk, hm, this]

theorem pend_congr {s s' : St} (hk : ∀ i, s'.kind i = s.kind i) (hq : s'.queue = s.queue) : pendEv s' = pendEv s := by
  have : lanesOf s' = lanesOf s := by funext q; simp only [lanesOf, hk]
  simp only [pendEv, hq, this]

theorem fin_congr {s s' : St} (hk : ∀ i, s'.kind i = s.kind i) (hs : ∀ i, s'.size i = s.size i) (hm : s'.mem = s.mem)
    (hq : s'.queue = s.queue) : fin s' = fin s := by
  funext b
  simp only [fin, runEv, adr_congr hk, fn_congr hk hs hm, pend_congr hk hq, hm]

theorem value_congr {s s' : St} (hk : ∀ i, s'.kind i = s.kind i) (hs : ∀ i, s'.size i = s.size i) (hm : s'.mem = s.mem)
    (hq : s'.queue = s.queue) (i : Nat) : value s' i = value s i := by
  unfold value
  rw [fin_congr hk hs hm hq]
  exact contents_congr (hs i) fun l _ => den_congr _ hk hs _ _ _

/-! ### References -/

/-- The variable is referenced. -/
def Refd (s : St) (i : Nat) : Prop :=
  i ∈ s.hs ∨ i ∈ s.queue ∨ ∃ j, s.alive j = true ∧ (i ∈ (s.kind j).deps ∨ i ∈ (s.kind j).depsSe)

theorem sum_zero {α : Type} (f : α → Nat) : ∀ (l : List α), (l.map f).sum = 0 → ∀ x ∈ l, f x = 0 := by
  intro l
  induction l with
  | nil => simp
  | cons a l ih =>
    intro h x hx
    simp only [List.map_cons, List.sum_cons] at h
    rcases List.mem_cons.1 hx with rfl | hx
    · omega
    · exact ih (by omega) x hx

theorem sum_pos {α : Type} (f : α → Nat) : ∀ (l : List α), (l.map f).sum ≠ 0 → ∃ x ∈ l, f x ≠ 0 := by
  intro l h
  by_contra hc
  apply h
  clear h
  induction l with
  | nil => rfl
  | cons a l ih =>
    simp only [List.map_cons, List.sum_cons]
    have h1 : f a = 0 := by by_contra h; exact hc ⟨a, by simp, h⟩
    have h2 := ih (by rintro ⟨x, hx, h⟩; exact hc ⟨x, by simp [hx], h⟩)
    omega

theorem Inv.dirty_iff {s : St} (I : Inv s) (t : Nat) : s.dirty t = true ↔ Dirty s t := by
  unfold St.dirty St.refsSe
  simp only [bne_iff_ne, ne_eq]
  constructor
  · intro h
    obtain ⟨j, -, hj⟩ := sum_pos _ _ h
    split at hj
    · next ha =>
      have : t ∈ (s.kind j).depsSe := List.count_pos_iff.1 (by omega)
      cases hk : s.kind j with
      | ptr a t' w =>
        rw [hk] at this
        cases w
        · simp [Kind.depsSe] at this
        · simp [Kind.depsSe] at this
          subst this
          exact ⟨j, a, ha, hk⟩
      | _ => rw [hk] at this; simp [Kind.depsSe] at this
    · exact absurd rfl hj
  · rintro ⟨j, a, ha, hk⟩ h
    have := sum_zero _ _ h j (by simpa using (I.bound j ha).2)
    rw [if_pos ha, hk] at this
    simp [Kind.depsSe] at this

theorem Inv.refd_iff {s : St} (I : Inv s) (i : Nat) : (s.refs i ≠ 0 ∨ s.refsSe i ≠ 0) ↔ Refd s i := by
  constructor
  · intro h
    by_cases h1 : s.hs.count i = 0
    · by_cases h2 : s.queue.count i = 0
      · have : ∃ j, s.alive j = true ∧ (i ∈ (s.kind j).deps ∨ i ∈ (s.kind j).depsSe) := by
          rcases h with h | h
          · have h3 : ((List.range s.next).map fun j => if s.alive j then (s.kind j).deps.count i else 0).sum ≠ 0 := by
              unfold St.refs at h; omega
            obtain ⟨j, -, hj⟩ := sum_pos _ _ h3
            split at hj
            · next ha => exact ⟨j, ha, Or.inl (List.count_pos_iff.1 (by omega))⟩
            · exact absurd rfl hj
          · obtain ⟨j, -, hj⟩ := sum_pos _ _ h
            split at hj
            · next ha => exact ⟨j, ha, Or.inr (List.count_pos_iff.1 (by omega))⟩
            · exact absurd rfl hj
        exact Or.inr (Or.inr this)
      · exact Or.inr (Or.inl (List.count_pos_iff.1 (by omega)))
    · exact Or.inl (List.count_pos_iff.1 (by omega))
  · intro h
    by_contra hc
    push Not at hc
    obtain ⟨hr, hs⟩ := hc
    unfold St.refs at hr
    rcases h with h | h | ⟨j, ha, h | h⟩
    · have := List.count_pos_iff.2 h; omega
    · have := List.count_pos_iff.2 h; omega
    · have h3 : ((List.range s.next).map fun j => if s.alive j then (s.kind j).deps.count i else 0).sum = 0 := by omega
      have := sum_zero _ _ h3 j (by simpa using (I.bound j ha).2)
      rw [if_pos ha] at this
      have := List.count_pos_iff.2 h
      omega
    · have := sum_zero _ _ hs j (by simpa using (I.bound j ha).2)
      rw [if_pos ha] at this
      have := List.count_pos_iff.2 h
      omega

/-! ### The release of variables -/

theorem Dirty.of_kind {s s' : St} (ha : ∀ i, s'.alive i = true → s.alive i = true) (hk : ∀ i, s'.kind i = s.kind i) {t : Nat}
    (h : Dirty s' t) : Dirty s t := by
  obtain ⟨j, a, h1, h2⟩ := h
  exact ⟨j, a, ha j h1, by rw [← hk]; exact h2⟩

/-- A state in which some of the variables are no longer alive. -/
structure Fewer (s s' : St) : Prop where
  alive : ∀ i, s'.alive i = true → s.alive i = true
  kind : ∀ i, s'.kind i = s.kind i
  size : ∀ i, s'.size i = s.size i
  stash : ∀ i, (s'.vars i).stash = (s.vars i).stash
  expanded : ∀ i, (s'.vars i).expanded = (s.vars i).expanded
  mem : s'.mem = s.mem
  queue : s'.queue = s.queue
  hs : s'.hs = s.hs
  next : s'.next = s.next
  top : s'.top = s.top
  keep : ∀ i, s.alive i = true → Refd s' i → s'.alive i = true

theorem Fewer.ext {s s' : St} (h : Fewer s s') : Ext s s' := by
  refine ⟨h.next ▸ Nat.le_refl _, h.hs ▸ List.prefix_refl _, ?_, ?_, ?_⟩
  · intro i _ ha
    exact ⟨h.alive i ha, h.size i, fun hv => ⟨h.kind i ▸ hv, value_congr h.kind h.size h.mem h.queue i⟩⟩
  · intro t _ hd
    exact hd.of_kind h.alive h.kind
  · intro q hq
    exact ⟨h.queue ▸ hq, fun op => by simp only [OpOf, h.kind], fun t => by simp only [Target, h.kind], fun t _ => h.expanded t⟩

theorem Fewer.inv {s s' : St} (h : Fewer s s') (I : Inv s) : Inv s' := by
  have hdep : ∀ i, s'.alive i = true → ∀ d, d ∈ (s'.kind i).deps ∨ d ∈ (s'.kind i).depsSe → d < i ∧ s'.alive d = true := by
    intro i ha d hd
    have := I.deps i (h.alive i ha) d (h.kind i ▸ hd)
    exact ⟨this.1, h.keep d this.2 (Or.inr (Or.inr ⟨i, ha, hd⟩))⟩
  have hclean : ∀ i, s'.alive i = true → Clean s i → Clean s' i := by
    rintro i ha ⟨h1, h2, h3⟩
    exact ⟨ha, h.kind i ▸ h2, fun a o hk hd => h3 a o (h.kind i ▸ hk) (hd.of_kind h.alive h.kind)⟩
  refine ⟨?_, hdep, ?_, ?_, ?_, ?_, ?_, ?_, ?_, ?_⟩
  · intro i ha
    rw [h.next]
    exact I.bound i (h.alive i ha)
  · intro i hi h0
    rw [h.hs] at hi
    have := I.hs i hi h0
    exact ⟨h.keep i this.1 (Or.inl (h.hs ▸ hi)), h.kind i ▸ this.2⟩
  · intro q hq
    rw [h.queue] at hq
    have := I.queue q hq
    refine ⟨h.keep q this.1 (Or.inr (Or.inl (h.queue ▸ hq))), ?_⟩
    simpa only [OpOf, h.kind] using this.2
  · rw [h.queue]; exact I.nodup
  · intro i ha
    have ht := I.typed i (h.alive i ha)
    have hd := hdep i ha
    unfold Typed at ht ⊢
    rw [h.kind i] at hd ⊢
    cases hk : s.kind i with
    | lit c => trivial
    | data a o => rw [hk] at ht; simp only at ht ⊢; rw [h.top, h.mem, h.size]; exact ht
    | op f args =>
      rw [hk] at ht hd
      simp only at ht ⊢
      intro d hdm
      rw [h.size, h.size]
      exact ⟨hclean d (hd d (Or.inl hdm)).2 (ht d hdm).1, (ht d hdm).2⟩
    | gather p idx msk =>
      rw [hk] at ht hd
      simp only at ht ⊢
      obtain ⟨⟨a, t, h1, h2⟩, h3⟩ := ht
      refine ⟨⟨a, t, by rw [h.kind]; exact h1, ?_⟩, ?_⟩
      · apply hclean t _ h2
        have hp := hd p (Or.inl (by simp [Kind.deps]))
        exact (hdep p hp.2 t (Or.inl (by rw [h.kind, h1]; simp [Kind.deps]))).2
      · intro d hdm
        rw [h.size, h.size]
        refine ⟨hclean d (hd d (Or.inl ?_)).2 (h3 d hdm).1, (h3 d hdm).2⟩
        simp [Kind.deps] at hdm ⊢; omega
    | ptr a t w => rw [hk] at ht; simp only at ht ⊢; rw [h.kind]; exact ht
    | scatter op ord p val idx msk =>
      rw [hk] at ht hd
      simp only at ht ⊢
      obtain ⟨⟨a, t, h1⟩, h2, h3⟩ := ht
      refine ⟨⟨a, t, by rw [h.kind]; exact h1⟩, by rw [h.size]; exact h2, ?_⟩
      intro d hdm
      rw [h.size, h.size]
      refine ⟨hclean d (hd d (Or.inl ?_)).2 (h3 d hdm).1, (h3 d hdm).2⟩
      simp [Kind.deps] at hdm ⊢; omega
  · intro i j a hi hj h1 h2
    rw [h.kind] at h1 h2
    exact I.inj i j a (h.alive i hi) (h.alive j hj) h1 h2
  · intro i; rw [h.stash]; exact I.stash i
  · intro q q' t hq hq' ht ht' hne
    rw [h.queue] at hq hq'
    simp only [Target, OpOf, h.kind] at ht ht' ⊢
    exact I.conflict q q' t hq hq' ht ht' hne
  · rw [h.next]; exact I.pos

theorem Fewer.refl (s : St) : Fewer s s :=
  ⟨fun _ h => h, fun _ => rfl, fun _ => rfl, fun _ => rfl, fun _ => rfl, rfl, rfl, rfl, rfl, rfl, fun _ h _ => h⟩

theorem Refd.of_fewer {s s' : St} (h : Fewer s s') {i : Nat} (hr : Refd s' i) : Refd s i := by
  unfold Refd at hr ⊢
  rw [h.hs, h.queue] at hr
  rcases hr with hr | hr | ⟨j, h1, h2⟩
  · exact Or.inl hr
  · exact Or.inr (Or.inl hr)
  · exact Or.inr (Or.inr ⟨j, h.alive j h1, h.kind j ▸ h2⟩)

theorem Fewer.trans {s s1 s2 : St} (h : Fewer s s1) (h' : Fewer s1 s2) : Fewer s s2 :=
  ⟨fun i hi => h.alive i (h'.alive i hi), fun i => (h'.kind i).trans (h.kind i), fun i => (h'.size i).trans (h.size i),
   fun i => (h'.stash i).trans (h.stash i), fun i => (h'.expanded i).trans (h.expanded i), h'.mem.trans h.mem, h'.queue.trans h.queue, h'.hs.trans h.hs,
   h'.next.trans h.next, h'.top.trans h.top,
   fun i hi hr => h'.keep i (h.keep i hi (hr.of_fewer h')) hr⟩

theorem release_alive (s : St) (n i : Nat) : (release s n).alive i = true → s.alive i = true := by
  unfold release
  split
  · unfold St.alive set
    dsimp only
    split
    · simp
    · exact id
  · exact id

theorem Inv.release {s : St} (I : Inv s) (n : Nat) :
    Fewer s (release s n) ∧ ((Scatter.release s n).alive n = true → Refd s n) := by
  unfold Scatter.release
  split
  · next h =>
    simp only [Bool.and_eq_true, beq_iff_eq] at h
    obtain ⟨⟨ha, h1⟩, h2⟩ := h
    have hnr : ¬ Refd s n := by rw [← I.refd_iff]; omega
    have hk : ∀ i, (set s.vars n { s.vars n with alive := false } i).kind = (s.vars i).kind := by
      intro i; unfold set; split
      · next h => rw [h]
      · rfl
    have hsz : ∀ i, (set s.vars n { s.vars n with alive := false } i).size = (s.vars i).size := by
      intro i; unfold set; split
      · next h => rw [h]
      · rfl
    have hst : ∀ i, (set s.vars n { s.vars n with alive := false } i).stash = (s.vars i).stash := by
      intro i; unfold set; split
      · next h => rw [h]
      · rfl
    have hex : ∀ i, (set s.vars n { s.vars n with alive := false } i).expanded = (s.vars i).expanded := by
      intro i; unfold set; split
      · next h => rw [h]
      · rfl
    have hal : ∀ i, (set s.vars n { s.vars n with alive := false } i).alive = true → (s.vars i).alive = true := by
      intro i; unfold set; split
      · simp
      · exact id
    refine ⟨⟨hal, hk, hsz, hst, hex, rfl, rfl, rfl, rfl, rfl, ?_⟩, ?_⟩
    · intro i hi hr
      by_cases hin : i = n
      · subst hin
        exfalso
        apply hnr
        rcases hr with hr | hr | ⟨j, hj, hr⟩
        · exact Or.inl hr
        · exact Or.inr (Or.inl hr)
        · refine Or.inr (Or.inr ⟨j, hal j hj, ?_⟩)
          have hkj := hk j
          unfold St.kind at hr ⊢
          rw [← hkj]
          exact hr
      · unfold St.alive
        dsimp only
        rw [set_other _ _ hin]
        exact hi
    · intro h
      unfold St.alive at h
      dsimp only at h
      rw [set_same] at h
      simp at h
  · next h =>
    refine ⟨Fewer.refl s, fun ha => ?_⟩
    rw [← I.refd_iff]
    simp only [ha, Bool.true_and, Bool.and_eq_true, beq_iff_eq] at h
    omega

theorem collect_fewer : ∀ (n : Nat) (s : St), Inv s → (∀ i, n ≤ i → s.alive i = true → Refd s i) →
    Fewer s (collect n s) ∧ ∀ i, (collect n s).alive i = true → Refd (collect n s) i := by
  intro n
  induction n with
  | zero => intro s I h; exact ⟨Fewer.refl s, fun i => h i (Nat.zero_le i)⟩
  | succ n ih =>
    intro s I h
    obtain ⟨h1, h2⟩ := I.release n
    have hpre : ∀ i, n ≤ i → (release s n).alive i = true → Refd (release s n) i := by
      intro i hi ha
      have hr : Refd s i := by
        by_cases hin : i = n
        · subst hin; exact h2 ha
        · exact h i (by omega) (h1.alive i ha)
      rcases hr with hr | hr | ⟨j, hj, hr⟩
      · exact Or.inl (h1.hs ▸ hr)
      · exact Or.inr (Or.inl (h1.queue ▸ hr))
      · have hlt := (I.deps j hj i hr).1
        refine Or.inr (Or.inr ⟨j, ?_, by rw [h1.kind]; exact hr⟩)
        have hjn : j ≠ n := by omega
        unfold release
        split
        · unfold St.alive
          dsimp only
          rw [set_other _ _ hjn]
          exact hj
        · exact hj
    obtain ⟨h3, h4⟩ := ih (release s n) (h1.inv I) hpre
    exact ⟨h1.trans h3, h4⟩

theorem Inv.collect {s : St} (I : Inv s) : Fewer s s.collect ∧ ∀ i, s.collect.alive i = true → Refd s.collect i := by
  apply collect_fewer _ _ I
  intro i hi ha
  have := (I.bound i ha).2
  omega

/-- Variables that only scatters use do not outlive them. -/
theorem Inv.dep_kind {s : St} (I : Inv s) {k j : Nat} (ha : s.alive k = true) (h : j ∈ (s.kind k).deps ∨ j ∈ (s.kind k).depsSe) :
    (s.kind j).isVal = true ∨ ∃ a t w, s.kind j = .ptr a t w ∧ (w = true → ∃ op, OpOf s k op) := by
  have ht := I.typed k ha
  unfold Typed at ht
  cases hk : s.kind k with
  | lit c => rw [hk] at h; simp [Kind.deps, Kind.depsSe] at h
  | data a o => rw [hk] at h ht; simp only at ht; rw [ht.1] at h; simp [Kind.deps, Kind.depsSe] at h
  | op f args =>
    rw [hk] at h ht; simp only [Kind.deps, Kind.depsSe, List.not_mem_nil, or_false] at h ht
    exact Or.inl (ht j h).1.2.1
  | gather p idx msk =>
    rw [hk] at h ht
    simp only [Kind.deps, Kind.depsSe, List.not_mem_nil, or_false, List.mem_cons] at h ht
    obtain ⟨⟨a, t, h1, -⟩, h2⟩ := ht
    rcases h with rfl | rfl | rfl
    · exact Or.inr ⟨a, t, false, h1, by simp⟩
    · exact Or.inl (h2 _ (Or.inl rfl)).1.2.1
    · exact Or.inl (h2 _ (Or.inr rfl)).1.2.1
  | ptr a t w =>
    rw [hk] at h ht
    simp only at ht
    have : j = t := by cases w <;> simpa [Kind.deps, Kind.depsSe] using h
    subst this
    left; rw [ht]; rfl
  | scatter op ord p val idx msk =>
    rw [hk] at h ht
    simp only [Kind.deps, Kind.depsSe, List.not_mem_nil, or_false, List.mem_cons] at h ht
    obtain ⟨⟨a, t, h1⟩, -, h2⟩ := ht
    rcases h with rfl | rfl | rfl | rfl
    · exact Or.inr ⟨a, t, true, h1, fun _ => ⟨op, ord, _, _, _, _, hk⟩⟩
    · exact Or.inl (h2 _ (Or.inl rfl)).1.2.1
    · exact Or.inl (h2 _ (Or.inr (Or.inl rfl))).1.2.1
    · exact Or.inl (h2 _ (Or.inr (Or.inr rfl))).1.2.1

theorem Inv.no_dirty {s : St} (I : Inv s) (hq : s.queue = []) (hr : ∀ i, s.alive i = true → Refd s i) (t : Nat) : ¬ Dirty s t := by
  have hnos : ∀ k op, s.alive k = true → ¬ OpOf s k op := by
    rintro k op ha ⟨ord, p, v, i, m, hk⟩
    rcases hr k ha with h | h | ⟨j, hj, h⟩
    · have h0 := (I.bound k ha).1
      have := (I.hs k h (by omega)).2
      rw [hk] at this; simp [Kind.isVal] at this
    · rw [hq] at h; simp at h
    · rcases I.dep_kind hj h with h | ⟨a, t, w, h, -⟩
      · rw [hk] at h; simp [Kind.isVal] at h
      · rw [hk] at h; simp at h
  rintro ⟨j, a, ha, hk⟩
  rcases hr j ha with h | h | ⟨i, hi, h⟩
  · have h0 := (I.bound j ha).1
    have := (I.hs j h (by omega)).2
    rw [hk] at this; simp [Kind.isVal] at this
  · rw [hq] at h; simp at h
  · rcases I.dep_kind hi h with h | ⟨a, t, w, h, h'⟩
    · rw [hk] at h; simp [Kind.isVal] at h
    · rw [hk] at h
      cases h
      obtain ⟨op, ho⟩ := h' rfl
      exact hnos i op hi ho

/-! ### Evaluation -/

theorem nodup_eraseDups : ∀ (n : Nat) (l : List Nat), l.length ≤ n → l.eraseDups.Nodup := by
  intro n
  induction n with
  | zero => intro l h; have h := List.length_eq_zero_iff.1 (Nat.le_zero.1 h); rw [h]; simp
  | succ n ih =>
    intro l h
    cases l with
    | nil => simp
    | cons a l =>
      rw [List.eraseDups_cons, List.nodup_cons]
      refine ⟨?_, ih _ ?_⟩
      · rw [List.mem_eraseDups]; simp
      · have := List.length_filter_le (fun b => !b == a) l
        simp only [List.length_cons] at h
        omega

theorem zip_map (o : List Nat) (n : Nat) : (o.zip (List.range' n o.length)).map Prod.fst = o ∧
    (o.zip (List.range' n o.length)).map Prod.snd = List.range' n o.length := by
  constructor
  · rw [List.map_fst_zip]; simp
  · rw [List.map_snd_zip]; simp

theorem outputs_length (s : St) (l : List Nat) :
    (outputs s l).length = (l.filter fun i => s.alive i && (s.kind i).isNode).eraseDups.length := by
  simp [outputs]

theorem outputs_ok (s : St) (l : List Nat) : Outs s (outputs s l) := by
  have hz := zip_map (l.filter fun i => s.alive i && (s.kind i).isNode).eraseDups s.top
  refine ⟨?_, ?_, ?_⟩
  · unfold outputs; dsimp only; rw [hz.1]; exact nodup_eraseDups _ _ (Nat.le_refl _)
  · unfold outputs; dsimp only; rw [hz.2]; exact List.nodup_range'
  · rintro ⟨i, a⟩ ho
    have h1 : i ∈ (outputs s l).map Prod.fst := List.mem_map.2 ⟨_, ho, rfl⟩
    have h2 : a ∈ (outputs s l).map Prod.snd := List.mem_map.2 ⟨_, ho, rfl⟩
    rw [outputs_length]
    unfold outputs at h1 h2
    dsimp only at h1 h2
    rw [hz.1, List.mem_eraseDups, List.mem_filter, Bool.and_eq_true] at h1
    rw [hz.2, List.mem_range'_1] at h2
    exact ⟨h1.2.1, h1.2.2, h2.1, h2.2⟩

theorem lookup_mem {l : List (Nat × Nat)} {i a : Nat} (h : l.lookup i = some a) : (i, a) ∈ l := by
  rw [List.lookup_eq_some_iff] at h
  obtain ⟨l1, l2, rfl, -⟩ := h
  simp

theorem lookup_of_mem {l : List (Nat × Nat)} {i : Nat} (h : i ∈ l.map Prod.fst) : ∃ a, l.lookup i = some a := by
  cases hl : l.lookup i with
  | some a => exact ⟨a, rfl⟩
  | none =>
    rw [List.lookup_eq_none_iff] at hl
    obtain ⟨p, hp, rfl⟩ := List.mem_map.1 h
    have := hl p hp
    simp at this

/-- The state after an evaluation, before variables are released. -/
def ran (cfg : Cfg) (s : St) (l : List Nat) : St :=
  { s with
    mem := (cfg.sched s (outputs s l)).foldl (exec s.vars) (alloc s (outputs s l))
    vars := become s (outputs s l)
    top := s.top + (outputs s l).length
    queue := [] }

theorem eval_eq (cfg : Cfg) (s : St) (l : List Nat) : eval cfg s l = (ran cfg s l).collect := rfl

theorem ran_kind (cfg : Cfg) (s : St) (l : List Nat) (i : Nat) :
    (ran cfg s l).kind i = match (outputs s l).lookup i with | some a => .data a 0 | none => s.kind i := by
  unfold ran St.kind become
  dsimp only
  cases (outputs s l).lookup i <;> rfl

theorem ran_size (cfg : Cfg) (s : St) (l : List Nat) (i : Nat) : (ran cfg s l).size i = s.size i := by
  unfold ran St.size become
  dsimp only

theorem ran_alive (cfg : Cfg) (s : St) (l : List Nat) (i : Nat) : (ran cfg s l).alive i = s.alive i := by
  unfold ran St.alive become
  dsimp only

theorem ran_stash (cfg : Cfg) (s : St) (l : List Nat) (i : Nat) : ((ran cfg s l).vars i).stash = (s.vars i).stash := by
  unfold ran become
  dsimp only

theorem alloc_old {s : St} {outs : List (Nat × Nat)} {b : Nat} (h : ∀ o ∈ outs, o.2 ≠ b) : alloc s outs b = s.mem b := by
  unfold alloc
  generalize s.mem = m
  induction outs generalizing m with
  | nil => rfl
  | cons o outs ih =>
    rw [List.foldl_cons, ih (fun o ho => h o (by simp [ho])), set_other]
    exact (h o (by simp)).symm

theorem alloc_new {s : St} {outs : List (Nat × Nat)} {i b : Nat} (hn : (outs.map Prod.snd).Nodup) (h : (i, b) ∈ outs) :
    alloc s outs b = List.replicate (s.size i) 0 := by
  unfold alloc
  generalize s.mem = m
  induction outs generalizing m with
  | nil => simp at h
  | cons o outs ih =>
    rw [List.map_cons, List.nodup_cons] at hn
    rw [List.foldl_cons]
    rcases List.mem_cons.1 h with h' | h'
    · subst h'
      have := alloc_old (s := { s with mem := set m b (List.replicate (s.size i) 0) }) (outs := outs) (b := b)
        (by rintro o ho rfl; exact hn.1 (List.mem_map.2 ⟨o, ho, rfl⟩))
      unfold alloc at this
      dsimp only at this
      rw [set_same] at this
      exact this
    · exact ih hn.2 h' _

theorem Inv.ran_mem {cfg : Cfg} (ok : CfgOK cfg) {s : St} (I : Inv s) (l : List Nat) :
    (∀ b, b < s.top → (ran cfg s l).mem b = fin s b) ∧
    ∀ i b, (i, b) ∈ outputs s l → (ran cfg s l).mem b = contents s.vars s.mem i := by
  have ho := outputs_ok s l
  have hag : Agree s (alloc s (outputs s l)) := by
    intro t a ha hk _
    apply alloc_old
    intro o h1 h2
    have := (I.data_lt ha hk).1
    have := (ho.2.2 o h1).2.2.1
    omega
  have hstep : ∀ e ∈ cfg.sched s (outputs s l), IsStep s e := fun e he => isStep_of ho ((ok.sched s _).mem_iff.1 he)
  have hrun := I.run _ _ hag hstep
  constructor
  · intro b hb
    change ((cfg.sched s (outputs s l)).foldl (exec s.vars) (alloc s (outputs s l))) b = _
    rw [hrun b, alloc_old, I.run_old ok ho hb]
    intro o h1 h2
    have := (ho.2.2 o h1).2.2.1
    omega
  · intro i b hb
    change ((cfg.sched s (outputs s l)).foldl (exec s.vars) (alloc s (outputs s l))) b = _
    rw [hrun b, alloc_new ho.2.1 hb, I.run_new ok ho hb]

theorem Inv.agree_fin {s : St} (I : Inv s) : Agree s (fin s) := by
  intro t a ha hk hd
  unfold fin
  have : (pendEv s).filter (fun e => adr s e == a) = [] := by
    rw [List.filter_eq_nil_iff]
    intro e he h
    have : adr s e = a := by simpa using h
    exact hd (I.adr_dirty (pend_step he) ha (this ▸ hk))
  rw [this]
  rfl

theorem fin_length (s : St) (b : Nat) : (fin s b).length = (s.mem b).length := runEv_length _ _ _

theorem fin_empty {s : St} (h : s.queue = []) : fin s = s.mem := by
  funext b
  simp [fin, pendEv, h, runEv]

/-- What was looked up is a node. -/
theorem outputs_node {s : St} {l : List Nat} {i a : Nat} (h : (outputs s l).lookup i = some a) :
    s.alive i = true ∧ (s.kind i).isNode = true ∧ s.top ≤ a ∧ a < s.top + (outputs s l).length ∧ (i, a) ∈ outputs s l := by
  have hm := lookup_mem h
  obtain ⟨h1, h2, h3, h4⟩ := (outputs_ok s l).2.2 _ hm
  exact ⟨h1, h2, h3, h4, hm⟩

theorem ran_kind_same (cfg : Cfg) {s : St} (l : List Nat) {i : Nat} (h : (s.kind i).isNode = false) :
    (ran cfg s l).kind i = s.kind i := by
  rw [ran_kind]
  cases hl : (outputs s l).lookup i with
  | none => rfl
  | some a => have := (outputs_node hl).2.1; rw [h] at this; simp at this

theorem ran_dirty {cfg : Cfg} {s : St} {l : List Nat} {t : Nat} (h : Dirty (ran cfg s l) t) : Dirty s t := by
  obtain ⟨j, a, h1, h2⟩ := h
  rw [ran_kind] at h2
  rw [ran_alive] at h1
  cases hl : (outputs s l).lookup j with
  | none => rw [hl] at h2; exact ⟨j, a, h1, h2⟩
  | some a => rw [hl] at h2; simp at h2

theorem Inv.ran_clean {cfg : Cfg} {s : St} (I : Inv s) {l : List Nat} {i : Nat} (h : Clean s i) : Clean (ran cfg s l) i := by
  obtain ⟨h1, h2, h3⟩ := h
  refine ⟨by rw [ran_alive]; exact h1, ?_, ?_⟩
  · rw [ran_kind]
    split
    · rfl
    · exact h2
  · intro a o hk hd
    have hd := ran_dirty hd
    obtain ⟨j, b, hj, hkj⟩ := hd
    have ht := I.typed j hj
    simp only [Typed, hkj] at ht
    exact h3 b 0 ht ⟨j, b, hj, hkj⟩

theorem Inv.ran {cfg : Cfg} (ok : CfgOK cfg) {s : St} (I : Inv s) (l : List Nat) : Inv (ran cfg s l) := by
  have hmem := I.ran_mem ok l
  refine ⟨?_, ?_, ?_, ?_, ?_, ?_, ?_, ?_, ?_, ?_⟩
  · intro i ha
    rw [ran_alive] at ha
    exact I.bound i ha
  · intro i ha d hd
    rw [ran_alive] at ha ⊢
    rw [ran_kind] at hd
    split at hd
    · simp [Kind.deps, Kind.depsSe] at hd
    · exact I.deps i ha d hd
  · intro i hi h0
    have := I.hs i hi h0
    rw [ran_alive, ran_kind]
    refine ⟨this.1, ?_⟩
    split
    · rfl
    · exact this.2
  · intro q hq; exact absurd hq (by simp [Scatter.ran])
  · exact List.nodup_nil
  · intro i ha
    rw [ran_alive] at ha
    have ht := I.typed i ha
    unfold Typed
    rw [ran_kind]
    cases hl : (outputs s l).lookup i with
    | some a =>
      obtain ⟨h1, h2, h3, h4, h5⟩ := outputs_node hl
      simp only
      refine ⟨trivial, h4, ?_⟩
      rw [hmem.2 i a h5, contents_length, ran_size]
      rfl
    | none =>
      simp only
      unfold Typed at ht
      cases hk : s.kind i with
      | lit c => trivial
      | data a o =>
        rw [hk] at ht
        simp only at ht ⊢
        obtain ⟨h1, h2, h3⟩ := ht
        refine ⟨h1, Nat.lt_of_lt_of_le h2 (Nat.le_add_right _ _), ?_⟩
        rw [hmem.1 a h2, fin_length, h3, ran_size]
      | op f args =>
        rw [hk] at ht
        simp only at ht ⊢
        intro d hd
        rw [ran_size, ran_size]
        exact ⟨I.ran_clean (ht d hd).1, (ht d hd).2⟩
      | gather p idx msk =>
        rw [hk] at ht
        simp only at ht ⊢
        obtain ⟨⟨a, t, h1, h2⟩, h3⟩ := ht
        refine ⟨⟨a, t, ?_, I.ran_clean h2⟩, fun d hd => ?_⟩
        · rw [ran_kind_same _ _ (by rw [h1]; rfl)]; exact h1
        · rw [ran_size, ran_size]
          exact ⟨I.ran_clean (h3 d hd).1, (h3 d hd).2⟩
      | ptr a t w =>
        rw [hk] at ht
        simp only at ht ⊢
        rw [ran_kind_same _ _ (by rw [ht]; rfl)]; exact ht
      | scatter op ord p val idx msk =>
        rw [hk] at ht
        simp only at ht ⊢
        obtain ⟨⟨a, t, h1⟩, h2, h3⟩ := ht
        refine ⟨⟨a, t, ?_⟩, ?_, fun d hd => ?_⟩
        · rw [ran_kind_same _ _ (by rw [h1]; rfl)]; exact h1
        · rw [ran_size]; exact h2
        · rw [ran_size, ran_size]
          exact ⟨I.ran_clean (h3 d hd).1, (h3 d hd).2⟩
  · intro i j a hi hj h1 h2
    rw [ran_alive] at hi hj
    rw [ran_kind] at h1 h2
    cases hl : (outputs s l).lookup i with
    | some b =>
      rw [hl] at h1
      obtain ⟨n1, n2, n3, n4, n5⟩ := outputs_node hl
      cases hl' : (outputs s l).lookup j with
      | some b' =>
        rw [hl'] at h2
        obtain ⟨m1, m2, m3, m4, m5⟩ := outputs_node hl'
        cases h1; cases h2
        have := List.inj_on_of_nodup_map (outputs_ok s l).2.1 n5 m5 rfl
        exact congrArg Prod.fst this
      | none =>
        rw [hl'] at h2
        have := (I.data_lt hj h2).1
        cases h1
        omega
    | none =>
      rw [hl] at h1
      cases hl' : (outputs s l).lookup j with
      | some b' =>
        rw [hl'] at h2
        obtain ⟨m1, m2, m3, m4, m5⟩ := outputs_node hl'
        have := (I.data_lt hi h1).1
        cases h2
        omega
      | none =>
        rw [hl'] at h2
        exact I.inj i j a hi hj h1 h2
  · intro i; rw [ran_stash]; exact I.stash i
  · intro q q' t hq; exact absurd hq (by simp [Scatter.ran])
  · exact I.pos

theorem Inv.ran_value {cfg : Cfg} (ok : CfgOK cfg) {s : St} (I : Inv s) (l : List Nat) {i : Nat} (ha : s.alive i = true)
    (hv : (s.kind i).isVal = true) : value (Scatter.ran cfg s l) i = value s i := by
  have hmem := I.ran_mem ok l
  unfold value
  rw [fin_empty (s := Scatter.ran cfg s l) rfl]
  apply contents_congr (ran_size cfg s l i)
  intro n hn
  refine den_sim s.vars (Scatter.ran cfg s l).vars (fin s) (Scatter.ran cfg s l).mem
    (fun i => s.alive i = true ∧ (s.kind i).isVal = true) ?_ i ⟨ha, hv⟩ _ _ (Nat.lt_succ_self i) (Nat.lt_succ_self i) n (Or.inr hn)
  clear hn n ha hv i
  rintro i ⟨ha, hv⟩
  refine ⟨ran_size cfg s l i, ?_⟩
  have hk := ran_kind cfg s l i
  cases hl : (outputs s l).lookup i with
  | some a =>
    rw [hl] at hk
    obtain ⟨h1, h2, h3, h4, h5⟩ := outputs_node hl
    left
    refine ⟨a, 0, hk, ?_⟩
    intro n hn m hm
    rw [hmem.2 i a h5, I.clean I.agree_fin (clean_node h1 h2) hn hm, ← I.entry s.mem ha hn hm]
    unfold Scatter.entry
    rw [contents_length]
  | none =>
    rw [hl] at hk
    right
    refine ⟨hk, ?_⟩
    split
    · rename_i a o hk'
      have hk' : s.kind i = .data a o := hk'
      have ht := I.typed i ha
      simp only [Typed, hk'] at ht
      exact hmem.1 a ht.2.1
    · rename_i f args hk'
      intro d hd
      have := I.typed_op ha hk' d hd
      exact ⟨⟨this.1.1, this.1.2.1⟩, this.2.2, this.2.1⟩
    · rename_i p idx msk hk'
      obtain ⟨⟨a, t, h1, h2, h3, h4⟩, h5⟩ := I.typed_gather ha hk'
      refine ⟨⟨a, t, false, h1, ?_, hmem.1 a (I.data_lt h2.1 h3).1⟩, fun d hd => ?_⟩
      · have := ran_kind_same cfg (s := s) l (i := p) (by rw [h1]; rfl)
        exact this.trans h1
      · have := h5 d hd
        exact ⟨⟨this.1.1, this.1.2.1⟩, this.2.2, this.2.1⟩
    · trivial

theorem Inv.ran_ext {cfg : Cfg} (ok : CfgOK cfg) {s : St} (I : Inv s) (l : List Nat) : Ext s (Scatter.ran cfg s l) := by
  refine ⟨Nat.le_refl _, List.prefix_refl _, ?_, fun t _ h => ran_dirty h, fun q hq => absurd hq (by simp [Scatter.ran])⟩
  intro i _ ha
  rw [ran_alive] at ha
  refine ⟨ha, ran_size _ _ _ _, fun hv => ⟨?_, I.ran_value ok l ha hv⟩⟩
  rw [ran_kind]
  split
  · rfl
  · exact hv

/-- An evaluation. -/
theorem Inv.eval {cfg : Cfg} (ok : CfgOK cfg) {s : St} (I : Inv s) (l : List Nat) :
    Inv (eval cfg s l) ∧ Ext s (eval cfg s l) ∧ (∀ t, ¬ Dirty (eval cfg s l) t) ∧ (eval cfg s l).queue = [] ∧
    (eval cfg s l).hs = s.hs ∧ (eval cfg s l).next = s.next ∧
    (∀ i, (eval cfg s l).alive i = true → s.alive i = true ∧
      ((eval cfg s l).kind i = s.kind i ∨ ∃ a, (eval cfg s l).kind i = .data a 0)) ∧
    (∀ i ∈ l, (eval cfg s l).alive i = true → (s.kind i).isNode = true → ∃ a, (eval cfg s l).kind i = .data a 0) ∧
    (∀ i, ¬ Dirty s i → ((eval cfg s l).vars i).expanded = (s.vars i).expanded) := by
  have I1 := I.ran ok l
  obtain ⟨hf, hr⟩ := I1.collect
  rw [eval_eq]
  have I2 := hf.inv I1
  refine ⟨I2, (I.ran_ext ok l).trans hf.ext, I2.no_dirty hf.queue hr, hf.queue, hf.hs, hf.next, ?_, ?_, ?_⟩
  · intro i ha
    have ha := hf.alive i ha
    rw [ran_alive] at ha
    refine ⟨ha, ?_⟩
    rw [hf.kind, ran_kind]
    split
    · exact Or.inr ⟨_, rfl⟩
    · exact Or.inl rfl
  · intro i hi ha hn
    have ha := hf.alive i ha
    rw [ran_alive] at ha
    have : i ∈ (outputs s l).map Prod.fst := by
      unfold outputs
      dsimp only
      rw [(zip_map _ _).1, List.mem_eraseDups, List.mem_filter]
      exact ⟨hi, by simp [ha, hn]⟩
    obtain ⟨a, h⟩ := lookup_of_mem this
    refine ⟨a, ?_⟩
    rw [hf.kind, ran_kind, h]
  · intro i hi
    rw [hf.expanded]
    show ((s.vars i).expanded && !s.isTarget i) = _
    have : s.isTarget i = false := by
      rw [Bool.eq_false_iff]
      intro h
      unfold St.isTarget at h
      obtain ⟨q, hq, h⟩ := List.any_eq_true.1 h
      obtain ⟨ha, op, ord, p, v, j, m, hk⟩ := I.queue q hq
      obtain ⟨⟨a, t, h1, h2, h3, h4, h5⟩, -⟩ := I.typed_scat ha hk
      rw [hk] at h
      simp only [h1, beq_iff_eq] at h
      subst h
      exact hi h5
    rw [this]
    simp

end Verif.Scatter
