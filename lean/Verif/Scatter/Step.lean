import Verif.Scatter.Sim

/-
Scatter operations (C48): scatters and writes preserve the simulation.
-/

namespace Verif.Scatter

@[simp] theorem refVal_zero (s : St) : refVal s 0 = none := rfl

theorem isIdentity_iff {op : ROp} : op.isIdentity = true ↔ op = .identity := by cases op <;> simp [ROp.isIdentity]

theorem isIdentity_false {op : ROp} : op.isIdentity = false ↔ op ≠ .identity := by cases op <;> simp [ROp.isIdentity]

/-- What the restrictions say about a scatter. -/
def May (llvm : Bool) (pend : List (Option ROp)) (h val idx msk : Nat) (op : ROp) (free : Bool) : Prop :=
  (op = .identity ∧ free = false) ∨ pend[h]?.join = none ∨
    (pend[h]?.join = some op ∧ op ≠ .identity ∧ op.Comm ∧ (llvm = true → ∀ d ∈ [val, idx, msk], pend[d]?.join = none))

theorem join_set {pend : List (Option ROp)} {h k : Nat} (o : Option ROp) (hk : k < pend.length) :
    (pend.set h o)[k]?.join = if k = h then o else pend[k]?.join := by
  rw [List.getElem?_set]
  split
  · next e => subst e; simp [hk]
  · next e => rw [if_neg (by omega)]

theorem Mid.pendSet {cfg : Cfg} {pend : List (Option ROp)} {r : Refs} {s : St} (M : Mid cfg pend r s) {h val idx msk : Nat} {op : ROp} {free : Bool}
    (A : May cfg.llvm pend h val idx msk op free) : Mid cfg (pend.set h (some op)) r s := by
  refine ⟨M.inv, M.exp, M.refs, by rw [List.length_set]; exact M.len, ?_⟩
  intro k i hk h0
  have hlt : k < pend.length := by rw [M.len]; exact (List.getElem?_eq_some_iff.1 hk).1
  rw [join_set _ hlt]
  split
  · next e =>
    subst e
    intro hd
    obtain ⟨o, h1, h2⟩ := M.pend k i hk h0 hd
    refine ⟨op, rfl, fun hop => ?_⟩
    rcases A with ⟨a1, -⟩ | a1 | ⟨a1, -⟩
    · exact absurd a1 hop
    · rw [a1] at h1; cases h1
    · rw [a1] at h1; cases h1; exact h2 hop
  · exact M.pend k i hk h0

theorem foldl_id {α β : Type} (f : α → β → α) (a : α) : ∀ (l : List β), (∀ b ∈ l, f a b = a) → l.foldl f a = a := by
  intro l
  induction l with
  | nil => intro _; rfl
  | cons b l ih =>
    intro h
    rw [List.foldl_cons, h b (by simp), ih fun b hb => h b (by simp [hb])]

theorem entry_replicate {k n l : Nat} {c : UInt32} (h : k = n ∨ k = 1) (hl : l < n) : entry (List.replicate k c) l = c := by
  unfold entry
  rw [List.length_replicate]
  rw [List.getD_eq_getElem?_getD, List.getElem?_replicate, if_pos (by split <;> omega)]
  rfl

theorem entry_zero (k l : Nat) : entry (List.replicate k 0) l = 0 := by
  unfold entry
  rw [List.length_replicate, List.getD_eq_getElem?_getD, List.getElem?_replicate]
  by_cases h : (if k = 1 then 0 else l) < k
  · rw [if_pos h]; rfl
  · rw [if_neg h]; rfl

theorem scat_skipped {s : St} {t val idx msk n : Nat} {op : ROp} {lanes : List Nat} (hl : ∀ l ∈ lanes, l < n)
    (hv : s.size val = n ∨ s.size val = 1) (h : skipped s t val msk op = true) :
    scat op lanes (value s t) (value s val) (value s idx) (value s msk) = value s t := by
  have hlit : ∀ i c, s.literal i = some c → value s i = List.replicate (s.size i) c := by
    intro i c h
    unfold St.literal at h
    split at h
    · next c' hk => cases h; exact Inv.value_lit hk
    · cases h
  unfold skipped at h
  simp only [Bool.or_eq_true, Bool.and_eq_true, beq_iff_eq] at h
  unfold scat
  apply foldl_id
  intro l hlm
  rcases h with (⟨⟨h1, h2⟩, h3⟩ | h) | ⟨h1, h2⟩
  · rw [isIdentity_iff] at h3
    subst h3
    obtain ⟨c, hc⟩ := Option.isSome_iff_exists.1 h1
    rw [hc] at h2
    split
    · unfold put ROp.apply
      rw [hlit t c hc, hlit val c h2.symm, entry_replicate hv (hl l hlm)]
      apply List.ext_getElem
      · simp
      · intro k h1 h2
        simp [List.getElem_set]
    · rfl
  · rw [hlit msk 0 h, entry_zero]; simp
  · have : op = .add := by cases op <;> simp_all [ROp.isAdd]
    subst this
    split
    · unfold put ROp.apply
      rw [hlit val 0 h1, entry_zero]
      dsimp only
      apply List.ext_getElem
      · simp
      · intro k h1 h2
        rw [List.getElem_set]
        split
        · next e => subst e; simp [List.getD_eq_getElem?_getD, List.getElem?_eq_getElem h2]
        · rfl
    · rfl

theorem set_get {r : Refs} {h : Nat} {a : Arr} (hg : get r h = some a) : r.set h (some a) = r := by
  unfold Scatter.get at hg
  apply List.ext_getElem?
  intro k
  rw [List.getElem?_set]
  split
  · next e =>
    subst e
    cases hk : r[h]? with
    | none => rw [hk] at hg; simp at hg
    | some x =>
      rw [hk] at hg
      have : x = some a := by simpa using hg
      subst this
      rw [if_pos (List.getElem?_eq_some_iff.1 hk).1]
  · rfl

/-- A call replaces the array of one reference. -/
theorem replace {s s' : St} {r : Refs} {h t t' : Nat} {x : Arr} {hs' : List Nat} (hr : r = s.hs.map (refVal s))
    (hh : s.hs[h]? = some t) (h0 : t' ≠ 0) (hhs : hs' = s.hs.set h t') (hx : value s' t' = x)
    (hv : ∀ k i, s.hs[k]? = some i → k ≠ h → i ≠ 0 → value s' i = value s i) :
    r.set h (some x) = hs'.map (refVal s') := by
  subst hr hhs
  apply List.ext_getElem?
  intro k
  rw [List.getElem?_set, List.getElem?_map, List.getElem?_map, List.getElem?_set, List.length_map]
  have hlt := (List.getElem?_eq_some_iff.1 hh).1
  by_cases e : h = k
  · subst e
    rw [if_pos rfl, if_pos rfl, if_pos hlt, if_pos hlt]
    simp [refVal, h0, hx]
  · rw [if_neg e, if_neg e]
    cases hk : s.hs[k]? with
    | none => rfl
    | some i =>
      simp only [Option.map_some, refVal]
      split
      · rfl
      · next hi => rw [hv k i hk (by omega) hi]

theorem count_other {s : St} {h t t' k i : Nat} (I : Inv s) (hh : s.hs[h]? = some t) (ht : t' = t ∧ s.hs.count t = 1 ∨ s.next ≤ t')
    (hk : s.hs[k]? = some i) (hne : k ≠ h) (h0 : i ≠ 0) : i ≠ t' := by
  rintro rfl
  rcases ht with ⟨rfl, hc⟩ | hn
  · exact hne (count_handle hc hk hh)
  · have : Held s i := ⟨h0, List.mem_of_getElem? hk⟩
    have := (this.alive I).2.2
    omega

theorem Sim.scatter {cfg : Cfg} (ok : CfgOK cfg) {pend : List (Option ROp)} {r : Refs} {s : St} (S : Sim cfg pend r s)
    {h hv hi hm t val idx msk : Nat} {op : ROp} {free : Bool} (ht : s.ref h = some t) (hval : s.ref hv = some val)
    (hidx : s.ref hi = some idx) (hmsk : s.ref hm = some msk) (A : May cfg.llvm pend h hv hi hm op free)
    (A2 : cfg.llvm = true ∨ hm ≠ h) :
    ∃ r', Effect (cfg.lanes r.length) r (.scatter h hv hi hm op free) r' (scatter cfg s h t val idx msk op free).2 ∧
      Sim cfg (pend.set h (some op) ++ [none]) r' ((Scatter.scatter cfg s h t val idx msk op free).1.give 0).collect := by
  have M := S.toMid
  have I := M.inv
  have hth := ref_iff.1 ht
  have hvh := ref_iff.1 hval
  have hih := ref_iff.1 hidx
  have hmh := ref_iff.1 hmsk
  have Ht : Held s t := M.held hth.1 hth.2
  have Hv : Held s val := M.held hvh.1 hvh.2
  have Hi : Held s idx := M.held hih.1 hih.2
  have Hm : Held s msk := M.held hmh.1 hmh.2
  have hlen : r.length = s.hs.length := by rw [M.refs]; simp
  have hstep : step (cfg.lanes r.length) r (.scatter h hv hi hm op free) =
      (common [s.size val, s.size idx, s.size msk]).map fun n =>
        (r.set h (some (scat op (cfg.lanes s.hs.length n) (value s t) (value s val) (value s idx) (value s msk))), none, none) := by
    show ((get r h).bind fun a => (get r hv).bind fun v => (get r hi).bind fun i => (get r hm).bind fun m =>
        (common [v.length, i.length, m.length]).map fun n =>
          (r.set h (some (scat op (cfg.lanes r.length n) a v i m)), none, none)) = _
    rw [M.get, M.get, M.get, M.get, ht, hval, hidx, hmsk, hlen]
    simp
  unfold Scatter.scatter
  cases hcm : common [s.size val, s.size idx, s.size msk] with
  | none =>
    rw [hcm] at hstep
    exact ⟨_, ⟨Or.inl hstep, rfl⟩, (M.pendSet A).done 0 none (by simp) (by simp)⟩
  | some n =>
    rw [hcm] at hstep
    obtain ⟨hn0, hsz⟩ := common_spec hcm
    have hlanes : ∀ l ∈ cfg.lanes s.hs.length n, l < n := by
      intro l hl
      have := (ok.lanes s.hs.length n).mem_iff.1 hl
      simpa using this
    dsimp only
    split
    · next hsk =>
      refine ⟨r ++ [none], ⟨r, none, ?_, rfl⟩, (M.pendSet A).done 0 none (by simp) (by simp)⟩
      rw [hstep]
      simp only [Option.map_some]
      rw [scat_skipped hlanes (hsz _ (by simp)) hsk, set_get (by rw [M.get, ht]; rfl)]
    · obtain ⟨o1, o2, o3, o4⟩ := I.ownTarget ok (idx := idx) Ht op free
      generalize Scatter.ownTarget cfg s t idx op free = w at o1 o2 o3 o4
      obtain ⟨s1, t1⟩ := w
      dsimp only at o1 o2 o3 o4 ⊢
      have hpend : Dirty s1 t1 → s1 = s ∧ t1 = t ∧ op ≠ .identity ∧ op.Comm ∧ pend[h]?.join = some op ∧
          (cfg.llvm = true → ∀ d ∈ [hv, hi, hm], pend[d]?.join = none) := by
        intro hd
        obtain ⟨e1, e2, e3⟩ := o4 hd
        subst e1 e2
        obtain ⟨o, p1, p2⟩ := M.pend h t1 hth.1 hth.2 hd
        rcases A with ⟨a1, a2⟩ | a1 | ⟨a1, a2, a3, a4⟩
        · have := e3 (isIdentity_iff.2 a1)
          rw [a2] at this; cases this
        · rw [a1] at p1; cases p1
        · exact ⟨rfl, rfl, a2, a3, a1, a4⟩
      have hexpd : op.isIdentity = false → cfg.expand (s1.size t1) = true → (s1.vars t1).expanded = false → ¬ Dirty s1 t1 := by
        intro x1 x2 x3 hd
        obtain ⟨e1, e2, -, -, e3, -⟩ := hpend hd
        subst e1 e2
        obtain ⟨q, hq, hqt⟩ := S.dirty_queue hd
        obtain ⟨o, p1, p2⟩ := M.pend h t1 hth.1 hth.2 hd
        rw [e3] at p1
        cases p1
        have := M.exp q hq t1 op hqt (p2 (isIdentity_false.1 x1) q hq hqt) x1 x2
        rw [x3] at this; cases this
      have Ht1 : Held s1 t1 := o1.held Ht
      obtain ⟨g1, g2, g3, g4⟩ := o1.inv.expandFor Ht1 o1.data o2 op hexpd
      generalize Scatter.expandFor cfg s1 t1 op = w at g1 g2 g3 g4
      obtain ⟨s2, t2⟩ := w
      dsimp only at g1 g2 g3 g4 ⊢
      have e2 : Ext s s2 := o1.ext.trans g1.ext
      have hvt : value s2 t2 = value s t := g1.value.trans o1.value
      have hst : s2.size t2 = s.size t := g1.size.trans o1.size
      have Ht2 : Held s2 t2 := g1.held Ht1
      have hplace : (t2 = t ∧ s.hs.count t = 1 ∧ idx ≠ t) ∨ s.next ≤ t2 := by
        have hmono := o1.ext.next
        rcases g4 with g4 | g4
        · cases g4
          rcases o1.or with ⟨rfl, -⟩ | ⟨k, -⟩
          · exact Or.inl ⟨rfl, o3 rfl⟩
          · exact Or.inr k
        · right; omega
      have hplace' : t2 = t ∧ s.hs.count t = 1 ∨ s.next ≤ t2 := by
        rcases hplace with ⟨k1, k2, -⟩ | k
        · exact Or.inl ⟨k1, k2⟩
        · exact Or.inr k
      -- pending side effects
      have h3 : ∃ s3, (if ([val, idx, msk].any fun i => s2.dirty i || i == t2) = true then Scatter.eval cfg s2 [] else s2) = s3 ∧
          Inv s3 ∧ Ext s2 s3 ∧ s3.hs = s2.hs ∧ Alone s3 t2 ∧ (∃ a, s3.kind t2 = .data a 0) ∧
          (∀ d ∈ [val, idx, msk], ¬ Dirty s3 d) ∧ (Dirty s3 t2 → s3 = s2) ∧
          (s3 ≠ s2 → ¬ Dirty s2 t2 → (s3.vars t2).expanded = (s2.vars t2).expanded) ∧
          (([val, idx, msk].any fun i => s2.dirty i || i == t2) = false → s3 = s2) := by
        refine ⟨_, rfl, ?_⟩
        split
        · next hc =>
          obtain ⟨k1, k2, k3, k4, k5, k6, k7, k8, k9⟩ := g1.inv.eval ok []
          refine ⟨k1, k2, k5, g2.eval ok g1.inv [], ?_, fun d _ => k3 d, fun hd => absurd hd (k3 t2), fun _ hd => k9 t2 hd, fun hf => ?_⟩
          · obtain ⟨a, hk⟩ := g1.data
            rcases (k7 t2 ((Ht2.ext k2).alive k1).1).2 with hh | hh
            · exact ⟨a, hh.trans hk⟩
            · exact hh
          · rw [hf] at hc; cases hc
        · next hc =>
          refine ⟨g1.inv, Ext.refl _, rfl, g2, g1.data, ?_, fun _ => rfl, fun h => absurd rfl h, fun _ => rfl⟩
          intro d hd hdd
          apply hc
          refine List.any_eq_true.2 ⟨d, hd, ?_⟩
          rw [(g1.inv.dirty_iff d).2 hdd]; rfl
      obtain ⟨s3, h3e, I3, e3, hh3, al3, dat3, cl3, dt3, ex3, nv3⟩ := h3
      rw [h3e]
      have e03 : Ext s s3 := e2.trans e3
      have hpre : s3.hs.take s.hs.length = s.hs := (List.prefix_iff_eq_take.1 e03.hs).symm
      have hmask : msk = t2 → cfg.llvm = true ∧ hm = h := by
        rintro rfl
        rcases hplace with ⟨k1, k2, -⟩ | k
        · subst k1
          have := count_handle k2 hmh.1 hth.1
          rcases A2 with a | a
          · exact ⟨a, this⟩
          · exact absurd this a
        · have := (Hm.alive I).2.2; omega
      split
      · next hraise =>
        have hrt : (Cmd.scatter h hv hi hm op free).readsTarget := by
          rcases hraise with rfl | ⟨-, hm'⟩
          · left
            rcases hplace with ⟨k1, k2, -⟩ | k
            · subst k1; exact count_handle k2 hvh.1 hth.1
            · have := (Hv.alive I).2.2; omega
          · exact Or.inr (hmask hm').2
        dsimp only
        rw [hpre]
        exact ⟨r ++ [none], ⟨Or.inr hrt, rfl⟩, ((M.ext I3 e03).pendSet A).done 0 none (by simp) (by simp)⟩
      · next hraise =>
        rw [not_or] at hraise
        have hvne : val ≠ t2 := hraise.1
        have hmne : msk ≠ t2 := fun hm' => hraise.2 ⟨(hmask hm').1, hm'⟩
        have hine : idx ≠ t2 := by
          rcases hplace with ⟨k1, k2, k3⟩ | k
          · rw [k1]; exact k3
          · have := (Hi.alive I).2.2; omega
        -- an operand with pending writes
        have hexp3 : op.isIdentity = false → cfg.expand (s3.size t2) = true → (s3.vars t2).expanded = true := by
          intro x2 x3
          have hs3 : s3.size t2 = s1.size t1 := ((Ht2.keep g1.inv I3 e3).2.1).trans g1.size
          rw [hs3] at x3
          have hex := g3 x2 x3
          by_cases heq : s3 = s2
          · rw [heq]; exact hex
          · by_cases hd : Dirty s2 t2
            · exfalso
              have hst : s2 = s1 ∧ t2 = t1 := by
                rcases g4 with g4 | g4
                · cases g4; exact ⟨rfl, rfl⟩
                · rcases g1.or with ⟨k, -⟩ | ⟨-, -, -, k⟩
                  · have := (Ht1.alive o1.inv).2.2; omega
                  · exact absurd hd k
              rw [hst.1, hst.2] at hd
              obtain ⟨k1, k2, -, -, -, k5⟩ := hpend hd
              have x1 : ([val, idx, msk].any fun i => s2.dirty i || i == t2) = true := by
                cases hx : ([val, idx, msk].any fun i => s2.dirty i || i == t2) with
                | true => rfl
                | false => exact absurd (nv3 hx) heq
              obtain ⟨d, hdm, hdd⟩ := List.any_eq_true.1 x1
              have hdt : d ≠ t2 := by
                simp only [List.mem_cons, List.not_mem_nil, or_false] at hdm
                rcases hdm with rfl | rfl | rfl
                · exact hvne
                · exact hine
                · exact hmne
              simp only [Bool.or_eq_true, beq_iff_eq, hdt, or_false] at hdd
              have hdd := (g1.inv.dirty_iff d).1 hdd
              have hpn := k5 (ok.expand _ x3)
              have key : ∀ hd' : Nat, hd' ∈ [hv, hi, hm] → s.hs[hd']? = some d → d ≠ 0 → False := by
                intro hd' hm1 hm2 hm3
                have hds := e2.dirty d ((M.held hm2 hm3).alive I).2.2 hdd
                obtain ⟨o, p1, -⟩ := M.pend hd' d hm2 hm3 hds
                rw [hpn hd' hm1] at p1; cases p1
              simp only [List.mem_cons, List.not_mem_nil, or_false] at hdm
              rcases hdm with rfl | rfl | rfl
              · exact key hv (by simp) hvh.1 hvh.2
              · exact key hi (by simp) hih.1 hih.2
              · exact key hm (by simp) hmh.1 hmh.2
            · rw [ex3 heq hd]; exact hex
        split
        · next hlost =>
          exfalso
          simp only [Bool.and_eq_true, Bool.not_eq_true'] at hlost
          have := hexp3 hlost.1.1 hlost.1.2
          rw [hlost.2] at this; cases this
        · have Kv := Hv.keep I I3 e03
          have Ki := Hi.keep I I3 e03
          have Km := Hm.keep I I3 e03
          have hd3 : Dirty s3 t2 → t2 = t ∧ Dirty s t ∧ op ≠ .identity ∧ op.Comm ∧ pend[h]?.join = some op := by
            intro hd
            rw [dt3 hd] at hd
            have hst : s2 = s1 ∧ t2 = t1 := by
              rcases g4 with g4 | g4
              · cases g4; exact ⟨rfl, rfl⟩
              · rcases g1.or with ⟨k, -⟩ | ⟨-, -, -, k⟩
                · have := (Ht1.alive o1.inv).2.2; omega
                · exact absurd hd k
            rw [hst.1, hst.2] at hd
            obtain ⟨k1, k2, k3, k4, k5, -⟩ := hpend hd
            rw [k1, k2] at hd
            exact ⟨hst.2.trans k2, hd, k3, k4, k5⟩
          have hconf : ∀ q ∈ s3.queue, Target s3 q t2 → OpOf s3 q op ∧ op.Comm := by
            intro q hq hqt
            obtain ⟨k1, k2, k3, k4, k5⟩ := hd3 (target_alive I3 hq hqt).2
            subst k1
            obtain ⟨o, p1, p2⟩ := M.pend h t2 hth.1 hth.2 k2
            rw [k5] at p1
            cases p1
            obtain ⟨q1, q2, q3, -⟩ := e03.queue q hq
            exact ⟨(q2 op).2 (p2 k3 q q1 ((q3 t2).1 hqt)), k4⟩
          have hlane : ∀ l ∈ cfg.lanes s.hs.length n, l < n := hlanes
          have hops : ∀ d ∈ [val, idx, msk], Clean s3 d ∧ d ≠ t2 ∧ (s3.size d = n ∨ s3.size d = 1) := by
            intro d hd
            have hc := cl3 d hd
            simp only [List.mem_cons, List.not_mem_nil, or_false] at hd
            rcases hd with rfl | rfl | rfl
            · exact ⟨(Hv.ext e03).clean I3 hc, hvne, by rw [Kv.2.1]; exact hsz _ (by simp)⟩
            · exact ⟨(Hi.ext e03).clean I3 hc, hine, by rw [Ki.2.1]; exact hsz _ (by simp)⟩
            · exact ⟨(Hm.ext e03).clean I3 hc, hmne, by rw [Km.2.1]; exact hsz _ (by simp)⟩
          have Ht3 : Held s3 t2 := Ht2.ext e3
          obtain ⟨P1, P2, P3, P4⟩ := I3.push ok (Ht3.alive I3).1 dat3 al3 hops hlane hconf
          have hq4 : ∀ k w, Scatter.new cfg s3 (.ptr k t2 true) 1 = w → w.1.queue = s3.queue := by
            rintro k w rfl
            unfold Scatter.new
            cases cfg.lvn s3 (.ptr k t2 true) 1 <;> rfl
          have hpush : ({ ((Scatter.new cfg s3 (.ptr (s3.addr t2) t2 true) 1).1.fresh (.scatter op (cfg.lanes s.hs.length n) (Scatter.new cfg s3 (.ptr (s3.addr t2) t2 true) 1).2 val idx msk) n).1 with
              queue := ((Scatter.new cfg s3 (.ptr (s3.addr t2) t2 true) 1).1.fresh (.scatter op (cfg.lanes s.hs.length n) (Scatter.new cfg s3 (.ptr (s3.addr t2) t2 true) 1).2 val idx msk) n).1.queue ++ [(Scatter.new cfg s3 (.ptr (s3.addr t2) t2 true) 1).1.next] } : St) =
              pushed cfg s3 op (cfg.lanes s.hs.length n) t2 val idx msk n := by
            unfold pushed
            have := hq4 (s3.addr t2) _ rfl
            rw [← this]
            rfl
          dsimp only
          change ∃ r', _ ∧ Sim cfg _ r' ((St.finish ({ ((Scatter.new cfg s3 (.ptr (s3.addr t2) t2 true) 1).1.fresh (.scatter op (cfg.lanes s.hs.length n) (Scatter.new cfg s3 (.ptr (s3.addr t2) t2 true) 1).2 val idx msk) n).1 with
              queue := ((Scatter.new cfg s3 (.ptr (s3.addr t2) t2 true) 1).1.fresh (.scatter op (cfg.lanes s.hs.length n) (Scatter.new cfg s3 (.ptr (s3.addr t2) t2 true) 1).2 val idx msk) n).1.queue ++ [(Scatter.new cfg s3 (.ptr (s3.addr t2) t2 true) 1).1.next] } : St) s.hs.length h t2).give 0).collect
          rw [hpush]
          generalize pushed cfg s3 op (cfg.lanes s.hs.length n) t2 val idx msk n = s5 at P1 P2 P3 P4
          have ht20 : t2 ≠ 0 := Ht2.1
          have hhs5 : s5.hs.take s.hs.length = s.hs := by rw [P2.hs]; exact hpre
          have hother : ∀ (k i : Nat), s.hs[k]? = some i → k ≠ h → i ≠ 0 → i ≠ t2 := fun k i hk hne h0 => count_other I hth.1 hplace' hk hne h0
          have hval5 : ∀ (k i : Nat), s.hs[k]? = some i → k ≠ h → i ≠ 0 → value s5 i = value s i := by
            intro k i hk hne h0
            have Hk := M.held hk h0
            have a1 := Hk.keep I I3 e03
            have a2 := (Hk.ext e03).alive I3
            rw [P2.value i a2.1 a2.2.1 (hother k i hk hne h0)]
            exact a1.2.2
          refine ⟨r.set h (some (scat op (cfg.lanes s.hs.length n) (value s t) (value s val) (value s idx) (value s msk))) ++ [none],
            ⟨_, _, hstep, rfl⟩, ?_⟩
          have I5 : Inv (s5.finish s.hs.length h t2) := by
            apply P1.rehs
            intro i hi' h0
            rw [hhs5] at hi'
            have : i ∈ s.hs ∨ i = t2 := List.mem_or_eq_of_mem_set hi'
            have : i ∈ s3.hs := by
              rcases this with k | rfl
              · exact e03.hs.subset k
              · exact Ht3.2
            rw [← P2.hs] at this
            exact P1.hs i this h0
          have M5 : Mid cfg (pend.set h (some op)) (r.set h (some (scat op (cfg.lanes s.hs.length n) (value s t) (value s val) (value s idx) (value s msk))))
              (s5.finish s.hs.length h t2) := by
            refine ⟨I5, ?_, ?_, ?_, ?_⟩
            · intro q hq t' o hqt hqo x1 x2
              change (s5.vars t').expanded = true
              have hqt : Target s5 q t' := hqt
              have hqo : OpOf s5 q o := hqo
              have x2 : cfg.expand (s5.size t') = true := x2
              rcases P4 q hq with ⟨k1, k2, k3, k4⟩ | ⟨k1, k2⟩
              · have hta := target_alive I3 k1 (k4 t' hqt)
                obtain ⟨b1, b2, b3, b4⟩ := P2.old t' hta.1
                rw [b4]
                rw [b3] at x2
                have M3 := M.ext I3 e03
                exact M3.exp q k1 t' o (k4 t' hqt) (k2 o hqo) x1 x2
              · have := k2 t' hqt
                subst this
                have hqo := (k1 o).1 hqo
                subst hqo
                obtain ⟨b1, b2, b3, b4⟩ := P2.old t' (Ht3.alive I3).1
                have x2 : cfg.expand (s5.size t') = true := x2
                rw [b4]
                rw [b3] at x2
                exact hexp3 x1 x2
            · refine replace M.refs hth.1 ht20 (show (s5.hs.take s.hs.length).set h t2 = _ by rw [hhs5]) ?_ hval5
              show value s5 t2 = _
              rw [P3, (Ht2.keep g1.inv I3 e3).2.2, hvt, Kv.2.2, Ki.2.2, Km.2.2]
            · show (pend.set h (some op)).length = ((s5.hs.take s.hs.length).set h t2).length
              rw [hhs5, List.length_set, List.length_set]
              exact M.len
            · intro k i hk h0
              change ((s5.hs.take s.hs.length).set h t2)[k]? = some i at hk
              rw [hhs5] at hk
              have hlt : k < s.hs.length := by
                have := (List.getElem?_eq_some_iff.1 hk).1
                simpa using this
              rw [join_set _ (by rw [M.len]; exact hlt)]
              intro hd
              have hd : Dirty s5 i := hd
              rw [List.getElem?_set] at hk
              by_cases hkh : k = h
              · subst hkh
                rw [if_pos rfl, if_pos hlt] at hk
                cases hk
                rw [if_pos rfl]
                refine ⟨op, rfl, fun hop q hq hqt => ?_⟩
                have hqt : Target s5 q t2 := hqt
                rcases P4 q hq with ⟨k1, k2, k3, k4⟩ | ⟨k1, k2⟩
                · exact k3 op (hconf q k1 (k4 t2 hqt)).1
                · exact (k1 op).2 rfl
              · rw [if_neg (by omega)] at hk
                rw [if_neg hkh]
                have hit := hother k i hk hkh h0
                have hd3' : Dirty s3 i := by
                  rcases P2.dirty i hd with k | k
                  · exact k
                  · exact absurd k hit
                have M3 := M.ext I3 e03
                obtain ⟨o, p1, p2⟩ := M3.pend k i hk h0 hd3'
                refine ⟨o, p1, fun ho q hq hqt => ?_⟩
                have hqt : Target s5 q i := hqt
                rcases P4 q hq with ⟨k1, k2, k3, k4⟩ | ⟨k1, k2⟩
                · exact k3 o (p2 ho q k1 (k4 i hqt))
                · exact absurd (k2 i hqt) hit
          exact M5.done 0 none (by simp) (by simp)

end Verif.Scatter
