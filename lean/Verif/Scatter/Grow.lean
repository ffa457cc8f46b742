import Verif.Scatter.Eval

/-
Scatter operations (C48): new variables.
-/

namespace Verif.Scatter

/-- No variable reads the array of a variable. -/
def Alone (s : St) (t : Nat) : Prop := ∀ k, s.alive k = true → t ∉ (s.kind k).deps

/-- Entries of variables that do not depend on what has changed. -/
theorem Inv.den_keep {s s1 : St} (I : Inv s) (X : Nat → Prop) (mem0 mem1 : Nat → Arr)
    (hk : ∀ i, s.alive i = true → s1.kind i = s.kind i ∧ s1.size i = s.size i)
    (hX : ∀ i, s.alive i = true → ∀ d ∈ (s.kind i).deps, ¬ X d)
    (hm : ∀ t a, s.alive t = true → s.kind t = .data a 0 → ¬ X t → mem1 a = mem0 a) :
    ∀ i, s.alive i = true → (s.kind i).isVal = true → ¬ X i → ∀ n l, i < n → Lane (s.size i) l →
      den s1.vars mem1 n i l = den s.vars mem0 n i l := by
  intro i ha hv hx n l hn hl
  refine den_sim s.vars s1.vars mem0 mem1 (fun i => s.alive i = true ∧ (s.kind i).isVal = true ∧ ¬ X i) ?_ i
    ⟨ha, hv, hx⟩ n n hn hn l hl
  clear hl hn hx hv ha l n i
  rintro i ⟨ha, hv, hx⟩
  refine ⟨(hk i ha).2, Or.inr ⟨(hk i ha).1, ?_⟩⟩
  split
  · rename_i a o hk'
    have hk' : s.kind i = .data a o := hk'
    have ht := I.typed i ha
    simp only [Typed, hk'] at ht
    obtain ⟨rfl, -⟩ := ht
    exact hm i a ha hk' hx
  · rename_i f args hk'
    have hk' : s.kind i = .op f args := hk'
    intro d hd
    have := I.typed_op ha hk' d hd
    exact ⟨⟨this.1.1, this.1.2.1, hX i ha d (by rw [hk']; exact hd)⟩, this.2.2, this.2.1⟩
  · rename_i p idx msk hk'
    have hk' : s.kind i = .gather p idx msk := hk'
    obtain ⟨⟨a, t, h1, h2, h3, h4⟩, h5⟩ := I.typed_gather ha hk'
    refine ⟨⟨a, t, false, h1, (hk p h4).1.trans h1, ?_⟩, fun d hd => ?_⟩
    · exact hm t a h2.1 h3 (hX p h4 t (by rw [h1]; simp [Kind.deps]))
    · have := h5 d hd
      refine ⟨⟨this.1.1, this.1.2.1, hX i ha d ?_⟩, this.2.2, this.2.1⟩
      rw [hk']; simp [Kind.deps] at hd ⊢; omega
  · trivial

/-- Arrays to which pending scatters do the same as before. -/
theorem Inv.fin_keep {s s1 : St} (I : Inv s) (X : Nat → Prop)
    (hk : ∀ i, s.alive i = true → s1.kind i = s.kind i ∧ s1.size i = s.size i)
    (hX : ∀ i, s.alive i = true → ∀ d ∈ (s.kind i).deps, ¬ X d)
    (hm : ∀ t a, s.alive t = true → s.kind t = .data a 0 → ¬ X t → s1.mem a = s.mem a) (hq : s1.queue = s.queue)
    {b : Nat} (hb : s1.mem b = s.mem b) : fin s1 b = fin s b := by
  have hden := I.den_keep X s.mem s1.mem hk hX hm
  have hl : ∀ q ∈ s.queue, lanesOf s1 q = lanesOf s q := by
    intro q hq; simp only [lanesOf, (hk q (I.queue q hq).1).1]
  have hp : pendEv s1 = pendEv s := by
    unfold pendEv
    rw [hq]
    exact List.flatMap_congr hl
  have had : ∀ e ∈ pendEv s, adr s1 e = adr s e := by
    intro e he
    have hs := pend_step he
    cases e with
    | out i a l => rfl
    | scat q l =>
      obtain ⟨hq, op, ord, p, v, i, m, hk', hl⟩ := hs
      obtain ⟨⟨a, t, h1, h2, h3, h4, h5⟩, h6, h7⟩ := I.typed_scat (I.queue q hq).1 hk'
      simp only [adr, (hk q (I.queue q hq).1).1, hk', (hk p h4).1]
  have hfn : ∀ e ∈ pendEv s, ∀ x, fn s1 e x = fn s e x := by
    intro e he x
    have hs := pend_step he
    cases e with
    | out i a l =>
      exfalso
      have : ∃ q ∈ s.queue, Ev.out i a l ∈ lanesOf s q := by simpa [pendEv] using he
      obtain ⟨q, -, h⟩ := this
      unfold lanesOf at h
      split at h <;> simp at h
    | scat q l =>
      obtain ⟨hq, op, ord, p, v, i, m, hk', hl⟩ := hs
      have ha := (I.queue q hq).1
      obtain ⟨⟨a, t, h1, h2, h3, h4, h5⟩, h6, h7⟩ := I.typed_scat ha hk'
      have hop : ∀ d ∈ [v, i, m], den s1.vars s1.mem q d l = den s.vars s.mem q d l := by
        intro d hd
        obtain ⟨c1, c2, c3⟩ := h7 d hd
        refine hden d c1.1 c1.2.1 (hX q ha d ?_) q l c3 ?_
        · rw [hk']; simp [Kind.deps] at hd ⊢; omega
        · rcases c2 with c2 | c2
          · right; rw [c2]; exact h6 l hl
          · exact Or.inl c2
      simp only [fn, (hk q ha).1, hk']
      rw [hop m (by simp), hop i (by simp), hop v (by simp)]
  unfold fin runEv
  rw [hp, hb, List.filter_congr (q := fun e => adr s e == b) (fun e he => by rw [had e he])]
  generalize s.mem b = x
  have : ∀ e ∈ (pendEv s).filter (fun e => adr s e == b), ∀ x, fn s1 e x = fn s e x :=
    fun e he => hfn e (List.mem_filter.1 he).1
  revert this x
  generalize (pendEv s).filter (fun e => adr s e == b) = l
  induction l with
  | nil => intros; rfl
  | cons e l ih =>
    intro x h
    rw [List.foldl_cons, List.foldl_cons, h e (by simp), ih _ fun e he => h e (by simp [he])]

/-- The state with one more variable. -/
def grown (s : St) (k : Kind) (n : Nat) (b : Bool) (mem : Nat → Arr) (top : Nat) : St :=
  { s with vars := set s.vars s.next ⟨k, n, true, 0, b⟩, next := s.next + 1, mem, top }

theorem grown_old {s : St} {k : Kind} {n : Nat} {b : Bool} {mem : Nat → Arr} {top i : Nat} (h : i ≠ s.next) :
    (grown s k n b mem top).vars i = s.vars i := set_other _ _ h

theorem grown_new (s : St) (k : Kind) (n : Nat) (b : Bool) (mem : Nat → Arr) (top : Nat) :
    (grown s k n b mem top).vars s.next = ⟨k, n, true, 0, b⟩ := set_same _ _ _

theorem Inv.dirty_data {s : St} (I : Inv s) {t : Nat} (h : Dirty s t) : s.alive t = true ∧ ∃ a, s.kind t = .data a 0 := by
  obtain ⟨j, a, h1, h2⟩ := h
  have := I.typed j h1
  simp only [Typed, h2] at this
  exact ⟨(I.deps j h1 t (Or.inr (by rw [h2]; simp [Kind.depsSe]))).2, a, this⟩

/-- A new variable. -/
theorem Inv.grow {s : St} (I : Inv s) {k : Kind} {n : Nat} {b : Bool} {mem : Nat → Arr} {top : Nat}
    (htop : s.top ≤ top) (hmem : ∀ a, a < s.top → mem a = s.mem a)
    (hdeps : ∀ d, d ∈ k.deps ∨ d ∈ k.depsSe → s.alive d = true)
    (htyped : Typed (grown s k n b mem top) s.next) (hinj : ∀ a, k = .data a 0 → s.top ≤ a)
    (hptr : ∀ a t, k = .ptr a t true → Alone s t) :
    Inv (grown s k n b mem top) ∧
    (∀ i, s.alive i = true → (grown s k n b mem top).alive i = true ∧ (grown s k n b mem top).kind i = s.kind i ∧
      (grown s k n b mem top).size i = s.size i ∧ i ≠ s.next) ∧
    (∀ i, s.alive i = true → (s.kind i).isVal = true → value (grown s k n b mem top) i = value s i) ∧
    (∀ t, Dirty (grown s k n b mem top) t → Dirty s t ∨ ∃ a, k = .ptr a t true) := by
  have hne : ∀ i, s.alive i = true → i ≠ s.next := fun i ha => by have := (I.bound i ha).2; omega
  have hk : ∀ i, s.alive i = true → (grown s k n b mem top).alive i = true ∧ (grown s k n b mem top).kind i = s.kind i ∧
      (grown s k n b mem top).size i = s.size i ∧ i ≠ s.next := by
    intro i ha
    unfold St.alive St.kind St.size
    rw [grown_old (hne i ha)]
    exact ⟨ha, rfl, rfl, hne i ha⟩
  have halive : ∀ i, (grown s k n b mem top).alive i = true → i = s.next ∨ s.alive i = true := by
    intro i h
    by_cases hi : i = s.next
    · exact Or.inl hi
    · unfold St.alive at h
      rw [grown_old hi] at h
      exact Or.inr h
  have hnew : (grown s k n b mem top).kind s.next = k := by unfold St.kind; rw [grown_new]
  have hdirty : ∀ t, Dirty (grown s k n b mem top) t → Dirty s t ∨ ∃ a, k = .ptr a t true := by
    rintro t ⟨j, a, h1, h2⟩
    rcases halive j h1 with rfl | h
    · rw [hnew] at h2; exact Or.inr ⟨a, h2⟩
    · rw [(hk j h).2.1] at h2; exact Or.inl ⟨j, a, h, h2⟩
  have hclean : ∀ j d, s.alive j = true → d ∈ (s.kind j).deps → Clean s d → Clean (grown s k n b mem top) d := by
    rintro j d hj hd ⟨h1, h2, h3⟩
    refine ⟨(hk d h1).1, by rw [(hk d h1).2.1]; exact h2, fun a o hkd hdt => ?_⟩
    rw [(hk d h1).2.1] at hkd
    rcases hdirty d hdt with h | ⟨a, h⟩
    · exact h3 a o hkd h
    · exact hptr a d h j hj hd
  have hkind : ∀ i, s.alive i = true → (grown s k n b mem top).kind i = s.kind i ∧ (grown s k n b mem top).size i = s.size i :=
    fun i ha => ⟨(hk i ha).2.1, (hk i ha).2.2.1⟩
  have hm : ∀ t a, s.alive t = true → s.kind t = .data a 0 → ¬ False → (grown s k n b mem top).mem a = s.mem a :=
    fun t a ha hkt _ => hmem a (I.data_lt ha hkt).1
  have hfin : ∀ a, a < s.top → fin (grown s k n b mem top) a = fin s a := fun a ha =>
    I.fin_keep (fun _ => False) hkind (fun _ _ _ _ h => h) hm rfl (hmem a ha)
  refine ⟨⟨?_, ?_, ?_, ?_, I.nodup, ?_, ?_, ?_, ?_, ?_⟩, hk, ?_, hdirty⟩
  · intro i ha
    rcases halive i ha with rfl | h
    · exact ⟨I.pos, Nat.lt_succ_self _⟩
    · have := I.bound i h
      exact ⟨this.1, Nat.lt_succ_of_lt this.2⟩
  · intro i ha d hd
    rcases halive i ha with rfl | h
    · rw [hnew] at hd
      have := hdeps d hd
      exact ⟨(I.bound d this).2, (hk d this).1⟩
    · rw [(hk i h).2.1] at hd
      have := I.deps i h d hd
      exact ⟨this.1, (hk d this.2).1⟩
  · intro i hi h0
    have := I.hs i hi h0
    exact ⟨(hk i this.1).1, by rw [(hk i this.1).2.1]; exact this.2⟩
  · intro q hq
    obtain ⟨h1, op, ord, p, v, i, m, h2⟩ := I.queue q hq
    exact ⟨(hk q h1).1, op, ord, p, v, i, m, (hk q h1).2.1.trans h2⟩
  · intro i ha
    rcases halive i ha with rfl | h
    · exact htyped
    · have ht := I.typed i h
      have hd := I.deps i h
      have hc := hclean i
      unfold Typed at ht ⊢
      rw [(hk i h).2.1]
      cases hki : s.kind i with
      | lit c => trivial
      | data a o =>
        rw [hki] at ht
        simp only at ht ⊢
        rw [(hk i h).2.2.1]
        refine ⟨ht.1, Nat.lt_of_lt_of_le ht.2.1 htop, ?_⟩
        rw [show (grown s k n b mem top).mem a = s.mem a from hmem a ht.2.1]
        exact ht.2.2
      | op f args =>
        rw [hki] at ht hd hc
        simp only at ht ⊢
        intro d hdm
        have := (ht d hdm).1
        rw [(hk i h).2.2.1, (hk d this.1).2.2.1]
        exact ⟨hc d h hdm this, (ht d hdm).2⟩
      | gather p idx msk =>
        rw [hki] at ht hd hc
        simp only at ht ⊢
        obtain ⟨⟨a, t, h1, h2⟩, h3⟩ := ht
        have hp := (hd p (Or.inl (by simp [Kind.deps]))).2
        refine ⟨⟨a, t, (hk p hp).2.1.trans h1, hclean p t hp (by rw [h1]; simp [Kind.deps]) h2⟩, fun d hdm => ?_⟩
        have := (h3 d hdm).1
        rw [(hk i h).2.2.1, (hk d this.1).2.2.1]
        refine ⟨hc d h ?_ this, (h3 d hdm).2⟩
        simp [Kind.deps] at hdm ⊢; omega
      | ptr a t w =>
        rw [hki] at ht hd
        simp only at ht ⊢
        have hta : s.alive t = true := (hd t (by cases w <;> simp [Kind.deps, Kind.depsSe])).2
        rw [(hk t hta).2.1]; exact ht
      | scatter op ord p val idx msk =>
        rw [hki] at ht hd hc
        simp only at ht ⊢
        obtain ⟨⟨a, t, h1⟩, h2, h3⟩ := ht
        have hp := (hd p (Or.inl (by simp [Kind.deps]))).2
        refine ⟨⟨a, t, (hk p hp).2.1.trans h1⟩, by rw [(hk i h).2.2.1]; exact h2, fun d hdm => ?_⟩
        have := (h3 d hdm).1
        rw [(hk i h).2.2.1, (hk d this.1).2.2.1]
        refine ⟨hc d h ?_ this, (h3 d hdm).2⟩
        simp [Kind.deps] at hdm ⊢; omega
  · intro i j a hi hj h1 h2
    rcases halive i hi with rfl | h
    · rcases halive j hj with rfl | h'
      · rfl
      · rw [hnew] at h1
        rw [(hk j h').2.1] at h2
        have := hinj a h1
        have := (I.data_lt h' h2).1
        omega
    · rw [(hk i h).2.1] at h1
      rcases halive j hj with rfl | h'
      · rw [hnew] at h2
        have := hinj a h2
        have := (I.data_lt h h1).1
        omega
      · rw [(hk j h').2.1] at h2
        exact I.inj i j a h h' h1 h2
  · intro i
    by_cases hi : i = s.next
    · rw [hi, grown_new]
    · rw [grown_old hi]; exact I.stash i
  · have htgt : ∀ q t, q ∈ s.queue → Target (grown s k n b mem top) q t → Target s q t := by
      rintro q t hq ⟨op, ord, p, v, i, m, a, h1, h2⟩
      have hqa := (I.queue q hq).1
      rw [(hk q hqa).2.1] at h1
      have hp := (I.deps q hqa p (Or.inl (by rw [h1]; simp [Kind.deps]))).2
      rw [(hk p hp).2.1] at h2
      exact ⟨op, ord, p, v, i, m, a, h1, h2⟩
    intro q q' t hq hq' ht ht' hne'
    obtain ⟨op, h1, h2, h3⟩ := I.conflict q q' t hq hq' (htgt q t hq ht) (htgt q' t hq' ht') hne'
    refine ⟨op, ?_, ?_, h3⟩
    · simp only [OpOf, (hk q (I.queue q hq).1).2.1]; exact h1
    · simp only [OpOf, (hk q' (I.queue q' hq').1).2.1]; exact h2
  · exact Nat.succ_pos _
  · intro i ha hv
    unfold value
    apply contents_congr (hkind i ha).2
    intro l hl
    refine I.den_keep (fun _ => False) (fin s) (fin (grown s k n b mem top)) hkind (fun _ _ _ _ h => h) ?_ i ha hv (fun h => h) _ l
      (Nat.lt_succ_self i) (Or.inr hl)
    intro t a hta hkt _
    exact hfin a (I.data_lt hta hkt).1

theorem Inv.grow_ext {s : St} (I : Inv s) {k : Kind} {n : Nat} {b : Bool} {mem : Nat → Arr} {top : Nat}
    (htop : s.top ≤ top) (hmem : ∀ a, a < s.top → mem a = s.mem a)
    (hdeps : ∀ d, d ∈ k.deps ∨ d ∈ k.depsSe → s.alive d = true)
    (htyped : Typed (grown s k n b mem top) s.next) (hinj : ∀ a, k = .data a 0 → s.top ≤ a)
    (hptr : ∀ a t, k ≠ .ptr a t true) :
    Inv (grown s k n b mem top) ∧ Ext s (grown s k n b mem top) ∧
    (∀ i, s.alive i = true → (grown s k n b mem top).alive i = true ∧ (grown s k n b mem top).kind i = s.kind i ∧
      (grown s k n b mem top).size i = s.size i ∧ i ≠ s.next) ∧
    (∀ t, Dirty (grown s k n b mem top) t → Dirty s t) := by
  obtain ⟨h1, h2, h3, h4⟩ := I.grow htop hmem hdeps htyped hinj (fun a t h => absurd h (hptr a t))
  have hd : ∀ t, Dirty (grown s k n b mem top) t → Dirty s t := by
    intro t h
    rcases h4 t h with h | ⟨a, h⟩
    · exact h
    · exact absurd h (hptr a t)
  refine ⟨h1, ⟨Nat.le_succ _, List.prefix_refl _, ?_, fun t _ => hd t, ?_⟩, h2, hd⟩
  · intro i hi ha
    have : s.alive i = true := by
      unfold St.alive at ha ⊢
      rw [grown_old (by omega)] at ha
      exact ha
    exact ⟨this, (h2 i this).2.2.1, fun hv => ⟨by rw [(h2 i this).2.1]; exact hv, h3 i this hv⟩⟩
  · intro q hq
    have hq : q ∈ s.queue := hq
    have hqa := (I.queue q hq).1
    refine ⟨hq, fun op => by simp only [OpOf, (h2 q hqa).2.1], fun t => ?_, fun t ht => ?_⟩
    · constructor
      · rintro ⟨op, ord, p, v, i, m, a, k1, k2⟩
        rw [(h2 q hqa).2.1] at k1
        have hp := (I.deps q hqa p (Or.inl (by rw [k1]; simp [Kind.deps]))).2
        rw [(h2 p hp).2.1] at k2
        exact ⟨op, ord, p, v, i, m, a, k1, k2⟩
      · rintro ⟨op, ord, p, v, i, m, a, k1, k2⟩
        have hp := (I.deps q hqa p (Or.inl (by rw [k1]; simp [Kind.deps]))).2
        exact ⟨op, ord, p, v, i, m, a, (h2 q hqa).2.1.trans k1, (h2 p hp).2.1.trans k2⟩
    · obtain ⟨op, ord, p, v, i, m, a, k1, k2⟩ := ht
      have hp := (I.deps q hqa p (Or.inl (by rw [k1]; simp [Kind.deps]))).2
      have hta := (I.deps p hp t (Or.inr (by rw [k2]; simp [Kind.depsSe]))).2
      rw [grown_old (h2 t hta).2.2.2]

/-- A new array. -/
theorem Inv.store {s : St} (I : Inv s) (x : Arr) (b : Bool) :
    Inv (s.store x b).1 ∧ Ext s (s.store x b).1 ∧
    (∀ i, s.alive i = true → (s.store x b).1.alive i = true ∧ (s.store x b).1.kind i = s.kind i ∧
      (s.store x b).1.size i = s.size i ∧ i ≠ s.next) ∧
    (∀ t, Dirty (s.store x b).1 t → Dirty s t) ∧
    (s.store x b).1.kind s.next = .data s.top 0 ∧ (s.store x b).1.alive s.next = true ∧
    value (s.store x b).1 s.next = x ∧ Alone (s.store x b).1 s.next ∧ ¬ Dirty (s.store x b).1 s.next ∧
    ((s.store x b).1.vars s.next).expanded = b := by
  have e : (s.store x b).1 = grown s (.data s.top 0) x.length b (set s.mem s.top x) (s.top + 1) := rfl
  rw [e]
  have hnd : ¬ s.alive s.next = true := fun h => by have := (I.bound _ h).2; omega
  obtain ⟨h1, h2, h3, h4⟩ := I.grow_ext (k := .data s.top 0) (n := x.length) (b := b) (mem := set s.mem s.top x) (top := s.top + 1)
    (Nat.le_succ _) (fun a ha => set_other _ _ (by omega)) (by intro d hd; simp [Kind.deps, Kind.depsSe] at hd)
    (by
      unfold Typed St.kind St.size
      rw [grown_new]
      exact ⟨rfl, Nat.lt_succ_self _, by simp [grown]⟩)
    (by intro a h; cases h; exact Nat.le_refl _) (by intro a t h; cases h)
  refine ⟨h1, h2, h3, h4, ?_, ?_, ?_, ?_, ?_, ?_⟩
  · unfold St.kind; rw [grown_new]
  · unfold St.alive; rw [grown_new]
  · have hm : (grown s (.data s.top 0) x.length b (set s.mem s.top x) (s.top + 1)).mem s.top = x := by simp [grown]
    have hf : fin (grown s (.data s.top 0) x.length b (set s.mem s.top x) (s.top + 1)) s.top = x := by
      rw [h1.agree_fin s.next s.top ?_ ?_ ?_, hm]
      · unfold St.alive; rw [grown_new]
      · unfold St.kind; rw [grown_new]
      · intro h
        exact hnd (I.dirty_data (h4 _ h)).1
    unfold value
    rw [contents_data (a := s.top) (o := 0) (by rw [grown_new]) (by rw [hf, grown_new]), hf]
  · intro k hk hmem
    have := h1.deps k hk s.next (Or.inl hmem)
    have := (h1.bound k hk).2
    simp only [grown] at this
    omega
  · intro h
    exact hnd (I.dirty_data (h4 _ h)).1
  · rw [grown_new]

/-- A new expression. -/
theorem Inv.new {cfg : Cfg} (ok : CfgOK cfg) {s : St} (I : Inv s) {k : Kind} {n : Nat}
    (hdeps : ∀ d, d ∈ k.deps ∨ d ∈ k.depsSe → s.alive d = true)
    (hdata : ∀ a o, k ≠ .data a o) (hptr : ∀ a t, k ≠ .ptr a t true)
    (htyped : Typed (grown s k n false s.mem s.top) s.next) :
    Inv (new cfg s k n).1 ∧ Ext s (new cfg s k n).1 ∧
    (∀ i, s.alive i = true → (new cfg s k n).1.alive i = true ∧ (new cfg s k n).1.kind i = s.kind i ∧
      (new cfg s k n).1.size i = s.size i) ∧
    (∀ t, Dirty (new cfg s k n).1 t → Dirty s t) ∧
    (new cfg s k n).1.alive (new cfg s k n).2 = true ∧ (new cfg s k n).1.kind (new cfg s k n).2 = k ∧
    (new cfg s k n).1.size (new cfg s k n).2 = n ∧ (new cfg s k n).1.hs = s.hs ∧ (new cfg s k n).1.queue = s.queue := by
  unfold Scatter.new
  cases h : cfg.lvn s k n with
  | some i =>
    obtain ⟨h1, h2, h3⟩ := ok.lvn s k n i h
    exact ⟨I, Ext.refl s, fun i hi => ⟨hi, rfl, rfl⟩, fun t h => h, h1, h2, h3, rfl, rfl⟩
  | none =>
    have e : (s.fresh k n).1 = grown s k n false s.mem s.top := rfl
    dsimp only
    rw [e]
    obtain ⟨h1, h2, h3, h4⟩ := I.grow_ext (k := k) (n := n) (b := false) (mem := s.mem) (top := s.top)
      (Nat.le_refl _) (fun _ _ => rfl) hdeps htyped (fun a h => absurd h (hdata a 0)) hptr
    refine ⟨h1, h2, fun i hi => ⟨(h3 i hi).1, (h3 i hi).2.1, (h3 i hi).2.2.1⟩, h4, ?_, ?_, ?_, rfl, rfl⟩
    · show (grown s k n false s.mem s.top).alive s.next = true
      unfold St.alive; rw [grown_new]
    · show (grown s k n false s.mem s.top).kind s.next = k
      unfold St.kind; rw [grown_new]
    · show (grown s k n false s.mem s.top).size s.next = n
      unfold St.size; rw [grown_new]

end Verif.Scatter
