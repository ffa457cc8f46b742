import Verif.Scatter.Calls

/-
Scatter operations (C48): changes of arrays in place.
-/

namespace Verif.Scatter

/-- Change the memory of an array to which nothing else refers. -/
theorem Inv.poke {s : St} (I : Inv s) {t a : Nat} {x : Arr} (ha : s.alive t = true) (hk : s.kind t = .data a 0)
    (hd : ¬ Dirty s t) (hal : Alone s t) (hx : x.length = s.size t) :
    Inv { s with mem := set s.mem a x } ∧ value { s with mem := set s.mem a x } t = x ∧
    ∀ i, s.alive i = true → (s.kind i).isVal = true → i ≠ t → value { s with mem := set s.mem a x } i = value s i := by
  have hne : ∀ i b, s.alive i = true → s.kind i = .data b 0 → i ≠ t → b ≠ a := by
    rintro i b h1 h2 h3 rfl
    exact h3 (I.inj i t b h1 ha h2 hk)
  have I' : Inv { s with mem := set s.mem a x } := by
    refine ⟨I.bound, I.deps, I.hs, I.queue, I.nodup, ?_, I.inj, I.stash, I.conflict, I.pos⟩
    intro i hi
    have hi : s.alive i = true := hi
    have ht := I.typed i hi
    unfold Typed at ht ⊢
    rw [show ({ s with mem := set s.mem a x } : St).kind i = s.kind i from rfl]
    cases hki : s.kind i with
    | data b o =>
      rw [hki] at ht
      simp only at ht ⊢
      obtain ⟨rfl, h1, h2⟩ := ht
      refine ⟨rfl, h1, ?_⟩
      by_cases hit : i = t
      · subst hit
        rw [hk] at hki
        cases hki
        rw [set_same]; exact hx
      · rw [set_other _ _ (hne i b hi hki hit)]; exact h2
    | lit c => trivial
    | op f args => rw [hki] at ht; exact ht
    | gather p idx msk => rw [hki] at ht; exact ht
    | ptr b t w => rw [hki] at ht; exact ht
    | scatter op ord p val idx msk => rw [hki] at ht; exact ht
  have hm : ∀ t' b, s.alive t' = true → s.kind t' = .data b 0 → ¬ t' = t → ({ s with mem := set s.mem a x } : St).mem b = s.mem b :=
    fun t' b h1 h2 h3 => set_other _ _ (hne t' b h1 h2 h3)
  have hX : ∀ i, s.alive i = true → ∀ d ∈ (s.kind i).deps, ¬ d = t := by
    rintro i hi d hd' rfl
    exact hal i hi hd'
  refine ⟨I', ?_, ?_⟩
  · rw [I'.value_mem ha hk hd]; exact set_same _ _ _
  · intro i h1 h2 h3
    unfold value
    apply contents_congr rfl
    intro l hl
    refine I.den_keep (s1 := { s with mem := set s.mem a x }) (fun d => d = t) _ _ (fun _ _ => ⟨rfl, rfl⟩) hX ?_ i h1 h2 h3 _ l
      (Nat.lt_succ_self i) (Or.inr hl)
    intro t' b h4 h5 h6
    exact I.fin_keep (s1 := { s with mem := set s.mem a x }) (fun d => d = t) (fun _ _ => ⟨rfl, rfl⟩) hX hm rfl (hm t' b h4 h5 h6)

theorem fn_eq (s : St) (q : List Nat) : fn { s with queue := q } = fn s := by
  funext e x; cases e <;> rfl

theorem adr_eq (s : St) (q : List Nat) : adr { s with queue := q } = adr s := by
  funext e; cases e <;> rfl

/-- A scatter is added to the queue. -/
theorem Inv.enqueue {s : St} (I : Inv s) {j p v i m a t : Nat} {op : ROp} {ord : List Nat} (hj : s.alive j = true)
    (hk : s.kind j = .scatter op ord p v i m) (hp : s.kind p = .ptr a t true) (hn : j ∉ s.queue) (hal : Alone s t)
    (hc : ∀ q ∈ s.queue, Target s q t → OpOf s q op ∧ op.Comm) :
    Inv { s with queue := s.queue ++ [j] } ∧
    value { s with queue := s.queue ++ [j] } t = scat op ord (value s t) (value s v) (value s i) (value s m) ∧
    ∀ k, s.alive k = true → (s.kind k).isVal = true → k ≠ t → value { s with queue := s.queue ++ [j] } k = value s k := by
  obtain ⟨⟨a', t', h1, h2, h3, h4, h5⟩, h6, h7⟩ := I.typed_scat hj hk
  rw [hp] at h1
  cases h1
  have hop : OpOf s j op := ⟨ord, p, v, i, m, hk⟩
  have htj : ∀ t', Target s j t' → t' = t := by
    rintro t' ⟨op', ord', p', v', i', m', a', k1, k2⟩
    rw [hk] at k1
    cases k1
    rw [hp] at k2
    cases k2
    rfl
  have I' : Inv { s with queue := s.queue ++ [j] } := by
    refine ⟨I.bound, I.deps, I.hs, ?_, ?_, I.typed, I.inj, I.stash, ?_, I.pos⟩
    · intro q hq
      rcases List.mem_append.1 hq with h | h
      · exact I.queue q h
      · simp only [List.mem_singleton] at h; subst h; exact ⟨hj, op, hop⟩
    · exact List.nodup_append'.2 ⟨I.nodup, by simp, by
      intro x hx hx'
      simp only [List.mem_singleton] at hx'
      exact hn (hx' ▸ hx)⟩
    · intro q q' t' hq hq' ht ht' hne
      have ht : Target s q t' := ht
      have ht' : Target s q' t' := ht'
      rcases List.mem_append.1 hq with h | h <;> rcases List.mem_append.1 hq' with h' | h'
      · exact I.conflict q q' t' h h' ht ht' hne
      · simp only [List.mem_singleton] at h'
        subst h'
        have := htj t' ht'
        subst this
        exact ⟨op, (hc q h ht).1, hop, (hc q h ht).2⟩
      · simp only [List.mem_singleton] at h
        subst h
        have := htj t' ht
        subst this
        exact ⟨op, hop, (hc q' h' ht').1, (hc q' h' ht').2⟩
      · simp only [List.mem_singleton] at h h'
        omega
  have hpe : pendEv { s with queue := s.queue ++ [j] } = pendEv s ++ ord.map (Ev.scat j) := by
    have : lanesOf s j = ord.map (Ev.scat j) := by simp only [lanesOf, hk]
    show (s.queue ++ [j]).flatMap (lanesOf s) = _
    rw [List.flatMap_append, List.flatMap_cons, List.flatMap_nil, List.append_nil, this]
    rfl
  have had : ∀ l, adr s (Ev.scat j l) = a := by intro l; simp only [adr, hk, hp]
  have hfin : ∀ b, b ≠ a → fin { s with queue := s.queue ++ [j] } b = fin s b := by
    intro b hb
    have : (ord.map (Ev.scat j)).filter (fun e => adr s e == b) = [] := by
      rw [List.filter_eq_nil_iff]
      intro e he
      obtain ⟨l, -, rfl⟩ := List.mem_map.1 he
      rw [had]
      simpa using fun h => hb h.symm
    unfold fin runEv
    rw [hpe, adr_eq, fn_eq, List.filter_append, this, List.append_nil]
  have hfa : fin { s with queue := s.queue ++ [j] } a = scat op ord (value s t) (value s v) (value s i) (value s m) := by
    have hfil : (ord.map (Ev.scat j)).filter (fun e => adr s e == a) = ord.map (Ev.scat j) := by
      rw [List.filter_eq_self]
      intro e he
      obtain ⟨l, -, rfl⟩ := List.mem_map.1 he
      simp [had]
    have : fin { s with queue := s.queue ++ [j] } a = (ord.map (Ev.scat j)).foldl (fun x e => fn s e x) (fin s a) := by
      unfold fin runEv
      rw [hpe, adr_eq, fn_eq, List.filter_append, hfil, List.foldl_append]
    rw [this, (I.value_data h3 h2).1]
    unfold scat
    rw [List.foldl_map]
    have hf : ∀ l ∈ ord, ∀ x, fn s (Ev.scat j l) x =
        if Scatter.entry (value s m) l ≠ 0 then put op x (Scatter.entry (value s i) l).toNat (Scatter.entry (value s v) l) else x := by
      intro l hl x
      have e : ∀ d ∈ [v, i, m], den s.vars s.mem j d l = Scatter.entry (value s d) l := by
        intro d hd
        obtain ⟨c1, c2, c3⟩ := h7 d hd
        have hln : Lane (s.size d) l := lane_of c2 (h6 l hl)
        unfold value
        rw [I.entry (fin s) c1.1 hln c3, I.clean I.agree_fin c1 hln c3]
      simp only [fn, hk]
      rw [e v (by simp), e i (by simp), e m (by simp)]
    clear this hfil had hpe hfin h6 I' hop htj hk
    generalize fin s a = x
    induction ord generalizing x with
    | nil => rfl
    | cons l ord ih =>
      rw [List.foldl_cons, List.foldl_cons, hf l (by simp), ih fun l hl => hf l (by simp [hl])]
  refine ⟨I', ?_, ?_⟩
  · rw [(I'.value_data h3 h2).1]; exact hfa
  · intro k k1 k2 k3
    unfold value
    apply contents_congr rfl
    intro l hl
    refine I.den_keep (s1 := { s with queue := s.queue ++ [j] }) (fun d => d = t) _ _ (fun _ _ => ⟨rfl, rfl⟩) ?_ ?_ k k1 k2 k3 _ l
      (Nat.lt_succ_self k) (Or.inr hl)
    · rintro i hi d hd' rfl
      exact hal i hi hd'
    · intro t' b h4 h5 h6
      apply hfin
      rintro rfl
      exact h6 (I.inj t' t b h4 h3 h5 h2)

/-- What stays as it was. -/
structure Same (s s' : St) (t : Nat) : Prop where
  next : s.next ≤ s'.next
  hs : s'.hs = s.hs
  old : ∀ i, s.alive i = true → s'.alive i = true ∧ s'.kind i = s.kind i ∧ s'.size i = s.size i ∧
    (s'.vars i).expanded = (s.vars i).expanded
  value : ∀ i, s.alive i = true → (s.kind i).isVal = true → i ≠ t → value s' i = value s i
  dirty : ∀ t', Dirty s' t' → Dirty s t' ∨ t' = t

/-- A pointer to an array to which nothing else refers. -/
theorem Inv.pointer {cfg : Cfg} (ok : CfgOK cfg) {s : St} (I : Inv s) {t a : Nat} (ha : s.alive t = true) (hk : s.kind t = .data a 0)
    (hal : Alone s t) :
    Inv (Scatter.new cfg s (.ptr a t true) 1).1 ∧ Same s (Scatter.new cfg s (.ptr a t true) 1).1 t ∧
    (Scatter.new cfg s (.ptr a t true) 1).1.alive (Scatter.new cfg s (.ptr a t true) 1).2 = true ∧
    (Scatter.new cfg s (.ptr a t true) 1).1.kind (Scatter.new cfg s (.ptr a t true) 1).2 = .ptr a t true ∧
    value (Scatter.new cfg s (.ptr a t true) 1).1 t = value s t ∧ Alone (Scatter.new cfg s (.ptr a t true) 1).1 t ∧
    (Scatter.new cfg s (.ptr a t true) 1).1.queue = s.queue := by
  unfold Scatter.new
  cases h : cfg.lvn s (.ptr a t true) 1 with
  | some i =>
    obtain ⟨h1, h2, h3⟩ := ok.lvn _ _ _ _ h
    exact ⟨I, ⟨Nat.le_refl _, rfl, fun i hi => ⟨hi, rfl, rfl, rfl⟩, fun i _ _ _ => rfl, fun t' h => Or.inl h⟩, h1, h2, rfl, hal, rfl⟩
  | none =>
    dsimp only
    have e : (s.fresh (.ptr a t true) 1).1 = grown s (.ptr a t true) 1 false s.mem s.top := rfl
    have e2 : (s.fresh (.ptr a t true) 1).2 = s.next := rfl
    have ht := I.bound t ha
    rw [e, e2]
    obtain ⟨h1, h2, h3, h4⟩ := I.grow (k := .ptr a t true) (n := 1) (b := false) (mem := s.mem) (top := s.top)
      (Nat.le_refl _) (fun _ _ => rfl)
      (by intro d hd; simp [Kind.deps, Kind.depsSe] at hd; subst hd; exact ha)
      (by
        unfold Typed
        have : (grown s (.ptr a t true) 1 false s.mem s.top).kind s.next = .ptr a t true := by unfold St.kind; rw [grown_new]
        rw [this]
        show (grown s (.ptr a t true) 1 false s.mem s.top).kind t = _
        unfold St.kind
        rw [grown_old (by omega)]; exact hk)
      (by intro a h; cases h) (by intro a t h; cases h; exact hal)
    have hn : (grown s (.ptr a t true) 1 false s.mem s.top).kind s.next = .ptr a t true := by unfold St.kind; rw [grown_new]
    refine ⟨h1, ⟨Nat.le_succ _, rfl, fun i hi => ⟨(h2 i hi).1, (h2 i hi).2.1, (h2 i hi).2.2.1, ?_⟩, fun i k1 k2 _ => h3 i k1 k2,
      fun t' hd => ?_⟩, ?_, hn, h3 t ha (by rw [hk]; rfl), ?_, rfl⟩
    · rw [grown_old (h2 i hi).2.2.2]
    · rcases h4 t' hd with h | ⟨a', h⟩
      · exact Or.inl h
      · cases h; exact Or.inr rfl
    · unfold St.alive; rw [grown_new]
    · intro k hk' hd
      by_cases hkn : k = s.next
      · subst hkn; rw [hn] at hd; simp [Kind.deps] at hd
      · have : s.alive k = true := by unfold St.alive at hk' ⊢; rw [grown_old hkn] at hk'; exact hk'
        rw [(h2 k this).2.1] at hd
        exact hal k this hd

/-- The state after a scatter was added. -/
def pushed (cfg : Cfg) (s : St) (op : ROp) (ord : List Nat) (t val idx msk n : Nat) : St :=
  { ((new cfg s (.ptr (s.addr t) t true) 1).1.fresh (.scatter op ord (new cfg s (.ptr (s.addr t) t true) 1).2 val idx msk) n).1 with
    queue := s.queue ++ [(new cfg s (.ptr (s.addr t) t true) 1).1.next] }

theorem Inv.push {cfg : Cfg} (ok : CfgOK cfg) {s : St} (I : Inv s) {t val idx msk n : Nat} {op : ROp} {ord : List Nat}
    (ha : s.alive t = true) (hk : ∃ a, s.kind t = .data a 0) (hal : Alone s t)
    (hops : ∀ d ∈ [val, idx, msk], Clean s d ∧ d ≠ t ∧ (s.size d = n ∨ s.size d = 1)) (hord : ∀ l ∈ ord, l < n)
    (hc : ∀ q ∈ s.queue, Target s q t → OpOf s q op ∧ op.Comm) :
    Inv (pushed cfg s op ord t val idx msk n) ∧ Same s (pushed cfg s op ord t val idx msk n) t ∧
    value (pushed cfg s op ord t val idx msk n) t = scat op ord (value s t) (value s val) (value s idx) (value s msk) ∧
    (∀ q ∈ (pushed cfg s op ord t val idx msk n).queue,
      (q ∈ s.queue ∧ (∀ o, OpOf (pushed cfg s op ord t val idx msk n) q o → OpOf s q o) ∧
        (∀ o, OpOf s q o → OpOf (pushed cfg s op ord t val idx msk n) q o) ∧
        (∀ t', Target (pushed cfg s op ord t val idx msk n) q t' → Target s q t')) ∨
      ((∀ o, OpOf (pushed cfg s op ord t val idx msk n) q o ↔ o = op) ∧
        ∀ t', Target (pushed cfg s op ord t val idx msk n) q t' → t' = t)) := by
  obtain ⟨a, hk⟩ := hk
  have had : s.addr t = a := by simp only [St.addr, hk]
  obtain ⟨p1, p2, p3, p4, p5, p6, p7⟩ := I.pointer ok ha hk hal
  unfold pushed
  rw [had]
  generalize Scatter.new cfg s (.ptr a t true) 1 = w at p1 p2 p3 p4 p5 p6 p7
  obtain ⟨s4, p⟩ := w
  dsimp only at p1 p2 p3 p4 p5 p6 p7 ⊢
  have e : (s4.fresh (.scatter op ord p val idx msk) n).1 = grown s4 (.scatter op ord p val idx msk) n false s4.mem s4.top := rfl
  have hcl : ∀ d ∈ [val, idx, msk], Clean s4 d := by
    intro d hd
    obtain ⟨⟨c1, c2, c3⟩, c4, -⟩ := hops d hd
    refine ⟨(p2.old d c1).1, by rw [(p2.old d c1).2.1]; exact c2, fun b o hb hdd => ?_⟩
    rw [(p2.old d c1).2.1] at hb
    rcases p2.dirty d hdd with h | h
    · exact c3 b o hb h
    · exact c4 h
  obtain ⟨g1, g2, g3, g4⟩ := p1.grow_ext (k := .scatter op ord p val idx msk) (n := n) (b := false) (mem := s4.mem) (top := s4.top)
    (Nat.le_refl _) (fun _ _ => rfl)
    (by
      intro d hd
      simp only [Kind.deps, Kind.depsSe, List.mem_cons, List.not_mem_nil, or_false] at hd
      rcases hd with rfl | h
      · exact p3
      · exact (hcl d (by simpa using h)).1)
    (by
      have hn : (grown s4 (.scatter op ord p val idx msk) n false s4.mem s4.top).kind s4.next = .scatter op ord p val idx msk := by
        unfold St.kind; rw [grown_new]
      have hns : (grown s4 (.scatter op ord p val idx msk) n false s4.mem s4.top).size s4.next = n := by
        show ((grown _ _ _ _ _ _).vars s4.next).size = _; rw [grown_new]
      have hold : ∀ d, s4.alive d = true → (grown s4 (.scatter op ord p val idx msk) n false s4.mem s4.top).vars d = s4.vars d := by
        intro d hd; exact grown_old (by have := (p1.bound d hd).2; omega)
      unfold Typed
      rw [hn]
      dsimp only
      rw [hns]
      refine ⟨⟨a, t, ?_⟩, hord, fun d hd => ⟨⟨?_, ?_, ?_⟩, ?_⟩⟩
      · unfold St.kind; rw [hold p p3]; exact p4
      · unfold St.alive; rw [hold d (hcl d hd).1]; exact (hcl d hd).1
      · unfold St.kind; rw [hold d (hcl d hd).1]; exact (hcl d hd).2.1
      · intro b o hb hdd
        unfold St.kind at hb
        rw [hold d (hcl d hd).1] at hb
        apply (hcl d hd).2.2 b o hb
        obtain ⟨j, b, h1, h2⟩ := hdd
        by_cases hj : j = s4.next
        · subst hj; rw [hn] at h2; cases h2
        · refine ⟨j, b, ?_, ?_⟩
          · unfold St.alive at h1 ⊢; rw [grown_old hj] at h1; exact h1
          · unfold St.kind at h2 ⊢; rw [grown_old hj] at h2; exact h2
      · unfold St.size
        rw [hold d (hcl d hd).1]
        have := (p2.old d (hops d hd).1.1).2.2.1
        unfold St.size at this
        rw [this]
        exact (hops d hd).2.2)
    (by intro a h; cases h) (by intro a t h; cases h)
  rw [e]
  have hn : (grown s4 (.scatter op ord p val idx msk) n false s4.mem s4.top).kind s4.next = .scatter op ord p val idx msk := by
    unfold St.kind; rw [grown_new]
  have han : (grown s4 (.scatter op ord p val idx msk) n false s4.mem s4.top).alive s4.next = true := by
    unfold St.alive; rw [grown_new]
  have hq : (grown s4 (.scatter op ord p val idx msk) n false s4.mem s4.top).queue = s.queue := p7
  have hh : (grown s4 (.scatter op ord p val idx msk) n false s4.mem s4.top).hs = s.hs := p2.hs
  have hnx : (grown s4 (.scatter op ord p val idx msk) n false s4.mem s4.top).next = s4.next + 1 := rfl
  have hgal : Alone (grown s4 (.scatter op ord p val idx msk) n false s4.mem s4.top) t := by
    intro k hk' hd
    by_cases hkn : k = s4.next
    · subst hkn
      rw [hn] at hd
      simp only [Kind.deps, List.mem_cons, List.not_mem_nil, or_false] at hd
      rcases hd with rfl | h
      · have := (p2.old t ha).2.1
        rw [this, hk] at p4; cases p4
      · exact (hops t (by simpa using h)).2.1 rfl
    · have : s4.alive k = true := by unfold St.alive at hk' ⊢; rw [grown_old hkn] at hk'; exact hk'
      rw [(g3 k this).2.1] at hd
      exact p6 k this hd
  have hexp : ∀ i, s4.alive i = true → ((grown s4 (.scatter op ord p val idx msk) n false s4.mem s4.top).vars i).expanded = (s4.vars i).expanded := by
    intro i hi; rw [grown_old (g3 i hi).2.2.2]
  generalize grown s4 (.scatter op ord p val idx msk) n false s4.mem s4.top = G at g1 g2 g3 g4 hn han hq hh hnx hgal hexp
  have hpk : G.kind p = .ptr a t true := (g3 p p3).2.1.trans p4
  have hqn : s4.next ∉ G.queue := by
    rw [hq, ← p7]
    intro h
    have := (p1.bound _ (p1.queue _ h).1).2
    omega
  have hold : ∀ i, s.alive i = true → s4.alive i = true ∧ G.alive i = true ∧ G.kind i = s.kind i ∧ G.size i = s.size i ∧
      (G.vars i).expanded = (s.vars i).expanded := by
    intro i hi
    obtain ⟨a1, a2, a3, a4⟩ := p2.old i hi
    obtain ⟨b1, b2, b3, -⟩ := g3 i a1
    exact ⟨a1, b1, b2.trans a2, b3.trans a3, (hexp i a1).trans a4⟩
  have hval : ∀ i, s.alive i = true → (s.kind i).isVal = true → value G i = value s i := by
    intro i hi hv
    obtain ⟨a1, a2, a3, -⟩ := hold i hi
    have hv4 : (s4.kind i).isVal = true := by rw [(p2.old i hi).2.1]; exact hv
    have b1 := ((g2.old i (p1.bound i a1).2 a2).2.2 hv4).2
    rw [b1]
    by_cases hit : i = t
    · rw [hit]; exact p5
    · exact p2.value i hi hv hit
  have hop : ∀ q ∈ s.queue, (∀ o, OpOf G q o ↔ OpOf s q o) ∧ ∀ t', Target G q t' → Target s q t' := by
    intro q hq'
    have hqa := (I.queue q hq').1
    refine ⟨fun o => by simp only [OpOf, (hold q hqa).2.2.1], ?_⟩
    rintro t' ⟨op', ord', p', v', i', m', a', k1, k2⟩
    rw [(hold q hqa).2.2.1] at k1
    have hp := (I.deps q hqa p' (Or.inl (by rw [k1]; simp [Kind.deps]))).2
    rw [(hold p' hp).2.2.1] at k2
    exact ⟨op', ord', p', v', i', m', a', k1, k2⟩
  obtain ⟨q1, q2, q3⟩ := g1.enqueue han hn hpk hqn hgal (by
    intro q hq' ht
    rw [hq] at hq'
    have := hc q hq' ((hop q hq').2 t ht)
    exact ⟨((hop q hq').1 op).2 this.1, this.2⟩)
  rw [hq] at q1 q2 q3
  refine ⟨q1, ⟨?_, hh, ?_, ?_, ?_⟩, ?_, ?_⟩
  · show s.next ≤ G.next
    have := p2.next
    omega
  · intro i hi
    obtain ⟨-, b1, b2, b3, b4⟩ := hold i hi
    exact ⟨b1, b2, b3, b4⟩
  · intro i hi hv hit
    obtain ⟨-, b1, b2, b3, b4⟩ := hold i hi
    rw [q3 i b1 (by rw [b2]; exact hv) hit]
    exact hval i hi hv
  · intro t' hd
    exact p2.dirty t' (g4 t' hd)
  · rw [q2, hval t ha (by rw [hk]; rfl)]
    rw [hval val (hops val (by simp)).1.1 (hops val (by simp)).1.2.1, hval idx (hops idx (by simp)).1.1 (hops idx (by simp)).1.2.1,
      hval msk (hops msk (by simp)).1.1 (hops msk (by simp)).1.2.1]
  · intro q hq'
    rcases List.mem_append.1 hq' with h | h
    · exact Or.inl ⟨h, fun o => ((hop q h).1 o).1, fun o => ((hop q h).1 o).2, (hop q h).2⟩
    · right
      simp only [List.mem_singleton] at h
      subst h
      refine ⟨fun o => ⟨?_, ?_⟩, ?_⟩
      · rintro ⟨ord', p', v', i', m', k1⟩
        change G.kind s4.next = _ at k1
        rw [hn] at k1; cases k1; rfl
      · rintro rfl
        exact ⟨ord, p, val, idx, msk, hn⟩
      · rintro t' ⟨op', ord', p', v', i', m', a', k1, k2⟩
        change G.kind s4.next = _ at k1
        rw [hn] at k1
        cases k1
        change G.kind p = _ at k2
        rw [hpk] at k2
        cases k2
        rfl

end Verif.Scatter
