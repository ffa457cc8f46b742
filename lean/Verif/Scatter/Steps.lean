import Verif.Scatter.Step

/-
Scatter operations (C48): all calls preserve the simulation.
-/

namespace Verif.Scatter

theorem Sim.write {cfg : Cfg} (ok : CfgOK cfg) {pend : List (Option ROp)} {r : Refs} {s : St} (S : Sim cfg pend r s)
    {h i pos : Nat} {x : UInt32} (hr : s.ref h = some i) :
    ∃ r', Effect (cfg.lanes r.length) r (.write h pos x) r' (write cfg s h i pos x).2 ∧
      Sim cfg (pend ++ [none]) r' ((Scatter.write cfg s h i pos x).1.give 0).collect := by
  have M := S.toMid
  have I := M.inv
  have hh := ref_iff.1 hr
  have H : Held s i := M.held hh.1 hh.2
  have hstep : step (cfg.lanes r.length) r (.write h pos x) =
      if pos < s.size i then some (r.set h (some ((value s i).set pos x)), none, none) else none := by
    show ((get r h).bind fun a => if pos < a.length then some (r.set h (some (a.set pos x)), none, none) else none) = _
    rw [M.get, hr]
    simp
  unfold Scatter.write
  split
  · next hp =>
    rw [if_neg (by omega)] at hstep
    exact ⟨_, ⟨Or.inl hstep, rfl⟩, M.done 0 none (by simp) (by simp)⟩
  · next hp =>
    rw [if_pos (by omega)] at hstep
    obtain ⟨v1, v2, v3, v4, v5⟩ := I.varEval ok H
    generalize Scatter.varEval cfg s i = s1 at v1 v2 v3 v4 v5
    dsimp only
    have H1 : Held s1 i := H.ext v2
    have key : ∃ w, (if s1.refs i > 1 then copyFor cfg s1 i else dataFor cfg s1 i) = w ∧ Got s1 w.1 i w.2 ∧ Alone w.1 w.2 ∧
        ¬ Dirty w.1 w.2 ∧ (w.2 = i ∧ s1.hs.count i = 1 ∨ s1.next ≤ w.2) := by
      refine ⟨_, rfl, ?_⟩
      split
      · obtain ⟨g, gn⟩ := v1.copyFor ok H1 v4
        have hlt := (H1.alive v1).2.2
        rcases g.or with ⟨e, -⟩ | ⟨-, -, a1, a2⟩
        · omega
        · exact ⟨g, a1, a2, Or.inr gn⟩
      · next hc =>
        obtain ⟨c1, c2⟩ := alone_of_refs v1 H1 (by omega)
        obtain ⟨g, ga, gd⟩ := v1.dataFor ok H1
        refine ⟨g, ga c2, fun hd => ?_, ?_⟩
        · obtain ⟨k1, k2⟩ := gd hd
          rw [k1, k2] at hd
          exact v4 hd
        · rcases g.or with ⟨e, -⟩ | ⟨e, -⟩
          · exact Or.inl ⟨e, c1⟩
          · exact Or.inr e
    obtain ⟨w, hw, g, al, nd, pl⟩ := key
    rw [hw]
    obtain ⟨s2, j⟩ := w
    dsimp only at g al nd pl ⊢
    have e02 : Ext s s2 := v2.trans g.ext
    have K1 := H.keep I v1 v2
    have hvj : value s2 j = value s i := g.value.trans K1.2.2
    have hsj : s2.size j = s.size i := g.size.trans K1.2.1
    obtain ⟨a, hk⟩ := g.data
    have had : s2.addr j = a := by simp only [St.addr, hk]
    have hmem : s2.mem a = value s i := by rw [← g.inv.value_mem g.alive hk nd, hvj]
    obtain ⟨p1, p2, p3⟩ := g.inv.poke (x := (s2.mem a).set pos x) g.alive hk nd al
      (by rw [List.length_set, hmem, value_length, hsj])
    rw [had]
    have hplace : j = i ∧ s.hs.count i = 1 ∨ s.next ≤ j := by
      have := v2.next
      rw [v3] at pl
      rcases pl with k | k
      · exact Or.inl k
      · right; omega
    have hj0 : j ≠ 0 := (g.held H1).1
    have hpre : s2.hs.take s.hs.length = s.hs := (List.prefix_iff_eq_take.1 e02.hs).symm
    have hother : ∀ (k i' : Nat), s.hs[k]? = some i' → k ≠ h → i' ≠ 0 → i' ≠ j := fun k i' hk hne h0 => count_other I hh.1 hplace hk hne h0
    have M2 := M.ext g.inv e02
    refine ⟨r.set h (some ((value s i).set pos x)) ++ [none], ⟨_, _, hstep, rfl⟩, ?_⟩
    have M3 : Mid cfg pend (r.set h (some ((value s i).set pos x)))
        (({ s2 with mem := set s2.mem a ((s2.mem a).set pos x) } : St).finish s.hs.length h j) := by
      refine ⟨?_, M2.exp, ?_, ?_, ?_⟩
      · apply p1.rehs
        intro i' hi' h0
        have hi' : i' ∈ (s2.hs.take s.hs.length).set h j := hi'
        rw [hpre] at hi'
        have : i' ∈ s2.hs := by
          rcases List.mem_or_eq_of_mem_set hi' with k | rfl
          · exact e02.hs.subset k
          · exact (g.held H1).2
        exact g.inv.hs i' this h0
      · refine replace M.refs hh.1 hj0 (show (s2.hs.take s.hs.length).set h j = _ by rw [hpre]) ?_ ?_
        · show value { s2 with mem := set s2.mem a ((s2.mem a).set pos x) } j = _
          rw [p2, hmem]
        · intro k i' hk' hne h0
          have Hk := M.held hk' h0
          have a1 := (Hk.ext e02).alive g.inv
          show value { s2 with mem := set s2.mem a ((s2.mem a).set pos x) } i' = _
          rw [p3 i' a1.1 a1.2.1 (hother k i' hk' hne h0)]
          exact (Hk.keep I g.inv e02).2.2
      · show pend.length = ((s2.hs.take s.hs.length).set h j).length
        rw [hpre, List.length_set]
        exact M.len
      · intro k i' hk' h0
        change ((s2.hs.take s.hs.length).set h j)[k]? = some i' at hk'
        rw [hpre, List.getElem?_set] at hk'
        by_cases hkh : h = k
        · rw [if_pos hkh] at hk'
          split at hk'
          · cases hk'
            intro hd
            exact absurd hd nd
          · cases hk'
        · rw [if_neg hkh] at hk'
          exact M2.pend k i' hk' h0
    exact M3.done 0 none (by simp) (by simp)

theorem Sim.read {cfg : Cfg} (ok : CfgOK cfg) {pend : List (Option ROp)} {r : Refs} {s : St} (S : Sim cfg pend r s)
    {h i pos : Nat} (hr : s.ref h = some i) :
    ∃ r', Effect (cfg.lanes r.length) r (.read h pos) r' (read cfg s i pos).2 ∧
      Sim cfg (pend ++ [none]) r' ((Scatter.read cfg s i pos).1.give 0).collect := by
  have M := S.toMid
  have I := M.inv
  have hh := ref_iff.1 hr
  have H : Held s i := M.held hh.1 hh.2
  have hstep : step (cfg.lanes r.length) r (.read h pos) =
      if s.size i = 1 ∨ pos < s.size i then some (r, none, some (entry (value s i) pos)) else none := by
    show ((get r h).bind fun a => if a.length = 1 ∨ pos < a.length then some (r, none, some (Scatter.entry a pos)) else none) = _
    rw [M.get, hr]
    simp
  unfold Scatter.read
  obtain ⟨v1, v2, v3, v4, v5⟩ := I.varEval ok H
  have M1 := M.same v1 v2 v3
  have K := H.keep I v1 v2
  generalize Scatter.varEval cfg s i = s1 at v1 v2 v3 v4 v5 M1 K
  dsimp only
  rw [K.2.1]
  have D := M1.done 0 none (by simp) (by simp)
  generalize hx : (if s.size i = 1 then 0 else pos) = x
  split
  · next hp =>
    rw [if_neg (by split at hx <;> omega)] at hstep
    exact ⟨_, ⟨Or.inl hstep, rfl⟩, D⟩
  · next hp =>
    rw [if_pos (by split at hx <;> omega)] at hstep
    have hent : ∀ c, Scatter.entry (value s i) pos = c → ∃ r', Effect (cfg.lanes r.length) r (.read h pos) r' (.ok (some c)) ∧
        Sim cfg (pend ++ [none]) r' (s1.give 0).collect := by
      rintro c rfl
      exact ⟨_, ⟨_, _, hstep, rfl⟩, D⟩
    rcases v5 with ⟨c, hk0, hk⟩ | ⟨a, hk⟩
    · rw [hk]
      apply hent
      rw [Inv.value_lit hk0]
      unfold Scatter.entry
      rw [List.length_replicate, List.getD_eq_getElem?_getD, List.getElem?_replicate, if_pos (by omega)]
      rfl
    · rw [hk]
      apply hent
      rw [← K.2.2]
      unfold Scatter.entry
      rw [value_length, K.2.1, v1.value_mem K.1 hk v4, hx]

theorem Mid.newLit {cfg : Cfg} (ok : CfgOK cfg) {pend : List (Option ROp)} {r : Refs} {s : St} (M : Mid cfg pend r s) (c : UInt32) (n : Nat) :
    ∃ s' j, new cfg s (.lit c) n = (s', j) ∧ Sim cfg (pend ++ [none]) (r ++ [some (List.replicate n c)]) (s'.give j).collect := by
  obtain ⟨h1, h2, h3, h4, h5, h6, h7, h8, h9⟩ := M.inv.new ok (k := .lit c) (n := n)
    (by intro d hd; simp [Kind.deps, Kind.depsSe] at hd)
    (by intro a o h; cases h) (by intro a t h; cases h)
    (by
      have hn : (grown s (.lit c) n false s.mem s.top).kind s.next = .lit c := by unfold St.kind; rw [grown_new]
      unfold Typed; rw [hn]; trivial)
  generalize Scatter.new cfg s (.lit c) n = w at h1 h2 h3 h4 h5 h6 h7 h8 h9
  obtain ⟨s', j⟩ := w
  dsimp only at h1 h2 h3 h4 h5 h6 h7 h8 h9
  refine ⟨s', j, rfl, ?_⟩
  have hj0 := (h1.bound j h5).1
  have := (M.same h1 h2 h8).done j none (fun _ => ⟨h5, by rw [h6]; rfl⟩) (fun _ hd => by
    obtain ⟨-, a, hk⟩ := h1.dirty_data hd
    rw [h6] at hk; cases hk)
  unfold refVal at this
  rw [if_neg (by omega), Inv.value_lit h6, h7] at this
  exact this

theorem Mid.newGather {cfg : Cfg} (ok : CfgOK cfg) {pend : List (Option ROp)} {r : Refs} {s : St} (M : Mid cfg pend r s)
    {src idx msk n : Nat} (hs : Held s src) (hd : ¬ Dirty s src) (hk : ∃ a, s.kind src = .data a 0)
    (h : ∀ d ∈ [idx, msk], Held s d ∧ ¬ Dirty s d ∧ (s.size d = n ∨ s.size d = 1)) :
    Sim cfg (pend ++ [none]) (r ++ [some ((List.range n).map fun l =>
        if entry (value s msk) l ≠ 0 then (value s src).getD (entry (value s idx) l).toNat 0 else 0)])
      (((new cfg (new cfg s (.ptr (s.addr src) src false) 1).1 (.gather (new cfg s (.ptr (s.addr src) src false) 1).2 idx msk) n).1.give
        (new cfg (new cfg s (.ptr (s.addr src) src false) 1).1 (.gather (new cfg s (.ptr (s.addr src) src false) 1).2 idx msk) n).2).collect) := by
  obtain ⟨a, hk⟩ := hk
  have had : s.addr src = a := by simp only [St.addr, hk]
  rw [had]
  have hsa := hs.alive M.inv
  obtain ⟨h1, h2, h3, h4, h5, h6, h7, h8, h9⟩ := M.inv.new ok (k := .ptr a src false) (n := 1)
    (by intro d hd; simp [Kind.deps, Kind.depsSe] at hd; subst hd; exact hsa.1)
    (by intro a o h; cases h) (by intro a t h; cases h)
    (by
      have hn : (grown s (.ptr a src false) 1 false s.mem s.top).kind s.next = .ptr a src false := by unfold St.kind; rw [grown_new]
      unfold Typed; rw [hn]
      show (grown s (.ptr a src false) 1 false s.mem s.top).kind src = .data a 0
      unfold St.kind
      rw [grown_old (by omega)]
      exact hk)
  have M1 := M.same h1 h2 h8
  generalize Scatter.new cfg s (.ptr a src false) 1 = w at h1 h2 h3 h4 h5 h6 h7 h8 h9 M1
  obtain ⟨s1, p⟩ := w
  dsimp only at h1 h2 h3 h4 h5 h6 h7 h8 h9 M1 ⊢
  have hcs : Clean s1 src := (hs.ext h2).clean h1 fun hdd => hd (h4 src hdd)
  have hc : ∀ d ∈ [idx, msk], Clean s1 d ∧ (s1.size d = n ∨ s1.size d = 1) := by
    intro d hd
    obtain ⟨a1, a2, a3⟩ := h d hd
    exact ⟨(a1.ext h2).clean h1 fun hdd => a2 (h4 d hdd), by rw [(a1.keep M.inv h1 h2).2.1]; exact a3⟩
  obtain ⟨b1, b2, b3, b4, b5, b6, b7, b8, b9⟩ := h1.new ok (k := .gather p idx msk) (n := n)
    (by
      intro d hd
      simp only [Kind.deps, Kind.depsSe, List.mem_cons, List.not_mem_nil, or_false] at hd
      rcases hd with rfl | h
      · exact h5
      · exact (hc d (by simpa using h)).1.1)
    (by intro a o h; cases h) (by intro a t h; cases h)
    (by
      have hn : (grown s1 (.gather p idx msk) n false s1.mem s1.top).kind s1.next = .gather p idx msk := by unfold St.kind; rw [grown_new]
      have hns : (grown s1 (.gather p idx msk) n false s1.mem s1.top).size s1.next = n := by
        show ((grown _ _ _ _ _ _).vars s1.next).size = _; rw [grown_new]
      have hold : ∀ d, s1.alive d = true → (grown s1 (.gather p idx msk) n false s1.mem s1.top).vars d = s1.vars d := by
        intro d hd; exact grown_old (by have := (h1.bound d hd).2; omega)
      have hcl : ∀ d, Clean s1 d → Clean (grown s1 (.gather p idx msk) n false s1.mem s1.top) d := by
        rintro d ⟨c1, c2, c3⟩
        refine ⟨?_, ?_, ?_⟩
        · unfold St.alive; rw [hold d c1]; exact c1
        · unfold St.kind; rw [hold d c1]; exact c2
        · intro b o hb hdd
          unfold St.kind at hb
          rw [hold d c1] at hb
          apply c3 b o hb
          obtain ⟨j, b, k1, k2⟩ := hdd
          by_cases hj : j = s1.next
          · subst hj; rw [hn] at k2; cases k2
          · refine ⟨j, b, ?_, ?_⟩
            · unfold St.alive at k1 ⊢; rw [grown_old hj] at k1; exact k1
            · unfold St.kind at k2 ⊢; rw [grown_old hj] at k2; exact k2
      unfold Typed
      rw [hn]
      dsimp only
      rw [hns]
      refine ⟨⟨a, src, ?_, hcl src hcs⟩, fun d hd => ⟨hcl d (hc d hd).1, ?_⟩⟩
      · unfold St.kind; rw [hold p h5]; exact h6
      · unfold St.size; rw [hold d (hc d hd).1.1]; exact (hc d hd).2)
  have M2 := M1.same b1 b2 b8
  generalize Scatter.new cfg s1 (.gather p idx msk) n = w at b1 b2 b3 b4 b5 b6 b7 b8 b9 M2
  obtain ⟨s2, j⟩ := w
  dsimp only at b1 b2 b3 b4 b5 b6 b7 b8 b9 M2 ⊢
  have hj0 := (b1.bound j b5).1
  have := M2.done j none (fun _ => ⟨b5, by rw [b6]; rfl⟩) (fun _ hd => by
    obtain ⟨-, a, hk⟩ := b1.dirty_data hd
    rw [b6] at hk; cases hk)
  have hp2 : s2.kind p = .ptr a src false := (b3 p h5).2.1.trans h6
  have e02 := h2.trans b2
  unfold refVal at this
  rw [if_neg (by omega), b1.value_gather b5 b6 hp2, b7, (hs.keep M.inv b1 e02).2.2, ((h idx (by simp)).1.keep M.inv b1 e02).2.2,
    ((h msk (by simp)).1.keep M.inv b1 e02).2.2] at this
  exact this

theorem Sim.gather {cfg : Cfg} (ok : CfgOK cfg) {pend : List (Option ROp)} {r : Refs} {s : St} (S : Sim cfg pend r s)
    {h hi hm src idx msk : Nat} (hs : s.ref h = some src) (hidx : s.ref hi = some idx) (hmsk : s.ref hm = some msk)
    (hb : ¬ OutOfBounds r (.gather h hi hm)) :
    ∃ r', Effect (cfg.lanes r.length) r (.gather h hi hm) r' (gather cfg s src idx msk).2.2 ∧
      Sim cfg (pend ++ [none]) r' ((Scatter.gather cfg s src idx msk).1.give (Scatter.gather cfg s src idx msk).2.1).collect := by
  have M := S.toMid
  have I := M.inv
  have hsh := ref_iff.1 hs
  have hih := ref_iff.1 hidx
  have hmh := ref_iff.1 hmsk
  have Hs : Held s src := M.held hsh.1 hsh.2
  have Hi : Held s idx := M.held hih.1 hih.2
  have Hm : Held s msk := M.held hmh.1 hmh.2
  have hstep : step (cfg.lanes r.length) r (.gather h hi hm) =
      (common [s.size idx, s.size msk]).map fun n =>
        (r, some ((List.range n).map fun l => if entry (value s msk) l ≠ 0 then Scatter.entry (value s src) (Scatter.entry (value s idx) l).toNat else 0), none) := by
    show ((get r h).bind fun a => (get r hi).bind fun i => (get r hm).bind fun m =>
      (common [i.length, m.length]).map fun n =>
        (r, some ((List.range n).map fun l => if Scatter.entry m l ≠ 0 then Scatter.entry a (Scatter.entry i l).toNat else 0), none)) = _
    rw [M.get, M.get, M.get, hs, hidx, hmsk]
    simp
  have hb : s.size src = 1 ∨ ∀ l, Scatter.entry (value s msk) l ≠ 0 → (Scatter.entry (value s idx) l).toNat < s.size src := by
    by_contra hc
    rw [not_or] at hc
    apply hb
    refine ⟨value s src, value s idx, value s msk, by rw [M.get, hs]; rfl, by rw [M.get, hidx]; rfl, by rw [M.get, hmsk]; rfl,
      by rw [value_length]; exact hc.1, ?_⟩
    have := hc.2
    simp only [not_forall, Nat.not_lt] at this
    obtain ⟨l, h1, h2⟩ := this
    exact ⟨l, h1, by rw [value_length]; exact h2⟩
  unfold Scatter.gather
  cases hcm : common [s.size idx, s.size msk] with
  | none =>
    rw [hcm] at hstep
    exact ⟨_, ⟨Or.inl hstep, rfl⟩, M.done 0 none (by simp) (by simp)⟩
  | some n =>
    rw [hcm] at hstep
    simp only [Option.map_some] at hstep
    obtain ⟨hn0, hsz⟩ := common_spec hcm
    dsimp only
    have fin : ∀ (x : Arr) (S' : St), x = ((List.range n).map fun l => if Scatter.entry (value s msk) l ≠ 0 then Scatter.entry (value s src) (Scatter.entry (value s idx) l).toNat else 0) →
        Sim cfg (pend ++ [none]) (r ++ [some x]) S' →
        ∃ r', Effect (cfg.lanes r.length) r (.gather h hi hm) r' (.ok none) ∧ Sim cfg (pend ++ [none]) r' S' := by
      rintro x S' rfl hS
      exact ⟨_, ⟨_, _, hstep, rfl⟩, hS⟩
    split
    · next hz =>
      obtain ⟨s', j, e, hS⟩ := M.newLit ok 0 n
      rw [e]
      apply fin _ _ _ hS
      have hv : value s msk = List.replicate (s.size msk) 0 := by
        unfold St.literal at hz
        split at hz
        · next c hk => cases hz; exact Inv.value_lit hk
        · cases hz
      rw [hv]
      simp only [entry_zero]
      symm
      rw [List.eq_replicate_iff]
      simp
    · obtain ⟨t1, t2, t3, t4⟩ := I.settle ok [src, idx, msk]
      have M1 := M.same t1 t2 t3
      have Ks := Hs.keep I t1 t2
      have Ki := Hi.keep I t1 t2
      have Km := Hm.keep I t1 t2
      generalize Scatter.settle cfg s [src, idx, msk] = s1 at t1 t2 t3 t4 M1 Ks Ki Km
      have Hs1 := Hs.ext t2
      have Hi1 := Hi.ext t2
      have Hm1 := Hm.ext t2
      cases hl : s1.literal src with
      | some c =>
        dsimp only
        have hk : s1.kind src = .lit c := by
          unfold St.literal at hl
          split at hl
          · next c' hk => cases hl; exact hk
          · cases hl
        obtain ⟨s', j, e, hS⟩ := M1.newOp ok (f := fun l => if l.getD 0 0 ≠ 0 then c else 0) (args := [msk, idx]) (n := n) (by
          intro d hd
          simp only [List.mem_cons, List.not_mem_nil, or_false] at hd
          rcases hd with rfl | rfl
          · exact ⟨Hm1, t4 _ (by simp), by rw [Km.2.1]; exact hsz _ (by simp)⟩
          · exact ⟨Hi1, t4 _ (by simp), by rw [Ki.2.1]; exact hsz _ (by simp)⟩)
        rw [e]
        apply fin _ _ _ hS
        apply List.map_congr_left
        intro l _
        simp only [List.map_cons, List.map_nil, List.getD_cons_zero, Km.2.2]
        split
        · next hne =>
          rw [← Ks.2.2, Inv.value_lit hk]
          rw [Scatter.entry, List.length_replicate, List.getD_eq_getElem?_getD, List.getElem?_replicate, if_pos]
          · rfl
          · rw [Ks.2.1]
            rcases hb with hb | hb
            · rw [if_pos hb, hb]; exact Nat.one_pos
            · have := hb l hne
              split <;> omega
        · rfl
      | none =>
        dsimp only
        split
        · next h1 =>
          obtain ⟨s', j, e, hS⟩ := M1.newOp ok (f := fun l => if l.getD 0 0 ≠ 0 then l.getD 2 0 else 0) (args := [msk, idx, src]) (n := n) (by
            intro d hd
            simp only [List.mem_cons, List.not_mem_nil, or_false] at hd
            rcases hd with rfl | rfl | rfl
            · exact ⟨Hm1, t4 _ (by simp), by rw [Km.2.1]; exact hsz _ (by simp)⟩
            · exact ⟨Hi1, t4 _ (by simp), by rw [Ki.2.1]; exact hsz _ (by simp)⟩
            · exact ⟨Hs1, t4 _ (by simp), Or.inr h1⟩)
          rw [e]
          apply fin _ _ _ hS
          apply List.map_congr_left
          intro l _
          simp only [List.map_cons, List.map_nil, List.getD_cons_zero, List.getD_cons_succ, Km.2.2, Ks.2.2]
          split
          · unfold Scatter.entry
            rw [value_length, ← Ks.2.1, if_pos h1, if_pos h1]
          · rfl
        · next h1 =>
          obtain ⟨v1, v2, v3, v4, v5⟩ := t1.varEval ok Hs1
          have M2 := M1.same v1 v2 v3
          have Ks2 := Hs1.keep t1 v1 v2
          have Ki2 := Hi1.keep t1 v1 v2
          have Km2 := Hm1.keep t1 v1 v2
          have hk : ∃ a, (Scatter.varEval cfg s1 src).kind src = .data a 0 := by
            rcases v5 with ⟨c, k, -⟩ | k
            · unfold St.literal at hl
              rw [k] at hl; cases hl
            · exact k
          generalize Scatter.varEval cfg s1 src = s2 at v1 v2 v3 v4 v5 M2 Ks2 Ki2 Km2 hk
          have hS := M2.newGather ok (n := n) (Hs1.ext v2) v4 hk (idx := idx) (msk := msk) (by
            intro d hd
            simp only [List.mem_cons, List.not_mem_nil, or_false] at hd
            rcases hd with rfl | rfl
            · exact ⟨Hi1.ext v2, fun hdd => t4 d (by simp) (v2.dirty d (Hi1.alive t1).2.2 hdd), by rw [Ki2.2.1, Ki.2.1]; exact hsz _ (by simp)⟩
            · exact ⟨Hm1.ext v2, fun hdd => t4 d (by simp) (v2.dirty d (Hm1.alive t1).2.2 hdd), by rw [Km2.2.1, Km.2.1]; exact hsz _ (by simp)⟩)
          apply fin _ _ _ hS
          apply List.map_congr_left
          intro l _
          rw [Km2.2.2, Km.2.2, Ki2.2.2, Ki.2.2, Ks2.2.2, Ks.2.2]
          have : Scatter.entry (value s src) (Scatter.entry (value s idx) l).toNat = (value s src).getD (Scatter.entry (value s idx) l).toNat 0 := by
            rw [Scatter.entry, value_length, if_neg (by rw [← Ks.2.1]; exact h1)]
          rw [this]

/-- Every call has the specified effect. -/
theorem Sim.call {cfg : Cfg} (ok : CfgOK cfg) {pend : List (Option ROp)} {r : Refs} {s : St} (S : Sim cfg pend r s) (c : Cmd)
    (A : Allowed cfg.llvm pend c) (hb : ¬ OutOfBounds r c) :
    ∃ r', Effect (cfg.lanes r.length) r c r' (call cfg s c).2.2 ∧
      Sim cfg (after pend c) r' ((Scatter.call cfg s c).1.give (Scatter.call cfg s c).2.1).collect := by
  have M := S.toMid
  have I := M.inv
  have bad : ∀ c, step (cfg.lanes r.length) r c = none → ∀ p, ∃ r', Effect (cfg.lanes r.length) r c r' .raise ∧
      Sim cfg (pend ++ [p]) r' (s.give 0).collect := fun c h p => ⟨_, ⟨Or.inl h, rfl⟩, M.done 0 p (by simp) (by simp)⟩
  cases c with
  | lit c n =>
    by_cases h0 : n = 0
    · have e : Scatter.call cfg s (.lit c n) = (s, 0, .raise) := by simp [Scatter.call, h0]
      rw [e]
      exact bad (.lit c n) (by simp [step, h0]) none
    · have e : Scatter.call cfg s (.lit c n) = ((new cfg s (.lit c) n).1, (new cfg s (.lit c) n).2, .ok none) := by
        simp [Scatter.call, h0]
      rw [e]
      obtain ⟨s', j, e, hS⟩ := M.newLit ok c n
      dsimp only
      rw [e]
      exact ⟨_, ⟨_, _, by rw [step, if_neg h0], rfl⟩, hS⟩
  | input a =>
    by_cases h0 : a = []
    · have e : Scatter.call cfg s (.input a) = (s, 0, .raise) := by simp [Scatter.call, h0]
      rw [e]
      exact bad (.input a) (by simp [step, h0]) none
    · have e : Scatter.call cfg s (.input a) = ((s.store a).1, (s.store a).2, .ok none) := by
        simp [Scatter.call, h0]
      rw [e]
      obtain ⟨h1, h2, h3, h4, h5, h6, h7, h8, h9, h10⟩ := I.store a false
      have := (M.same h1 h2 rfl).done s.next none (fun _ => ⟨h6, by rw [h5]; rfl⟩) (fun _ hd => absurd hd h9)
      unfold refVal at this
      have hpos := I.pos
      rw [if_neg (by omega), h7] at this
      exact ⟨_, ⟨_, _, by rw [step, if_neg h0], rfl⟩, this⟩
  | op f args =>
    dsimp only [Scatter.call]
    have hstep : step (cfg.lanes r.length) r (.op f args) = (s.refAll args).bind fun is => (common (is.map s.size)).map fun n =>
        (r, some ((List.range n).map fun l => f ((is.map (value s)).map (entry · l))), none) := by
      show ((getAll r args).bind fun as => (common (as.map List.length)).map fun n =>
        (r, some ((List.range n).map fun l => f (as.map (Scatter.entry · l))), none)) = _
      rw [M.getAll]
      cases s.refAll args with
      | none => rfl
      | some is =>
        simp only [Option.map_some, Option.bind_some, List.map_map]
        have : is.map (List.length ∘ value s) = is.map s.size := List.map_congr_left fun i _ => value_length s i
        rw [this]
    cases hra : s.refAll args with
    | none => rw [hra] at hstep; exact bad _ hstep none
    | some is =>
      rw [hra] at hstep
      dsimp only
      cases hcm : common (is.map s.size) with
      | none => rw [Option.bind_some, hcm] at hstep; exact bad _ hstep none
      | some n =>
        rw [Option.bind_some, hcm] at hstep
        obtain ⟨hn0, hsz⟩ := common_spec hcm
        have hheld := refAll_held args is hra
        obtain ⟨t1, t2, t3, t4⟩ := I.settle ok is
        have M1 := M.same t1 t2 t3
        have hkeep : ∀ d ∈ is, _ := fun d hd => (hheld d hd).keep I t1 t2
        dsimp only
        generalize Scatter.settle cfg s is = s1 at t1 t2 t3 t4 M1 hkeep
        obtain ⟨s', j, e, hS⟩ := M1.newOp ok (f := f) (args := is) (n := n) (by
          intro d hd
          refine ⟨(hheld d hd).ext t2, t4 d hd, ?_⟩
          rw [(hkeep d hd).2.1]
          exact hsz _ (List.mem_map.2 ⟨d, hd, rfl⟩))
        rw [e]
        have : is.map (value s1) = is.map (value s) := List.map_congr_left fun d hd => (hkeep d hd).2.2
        rw [this] at hS
        exact ⟨_, ⟨_, _, hstep, rfl⟩, hS⟩
  | gather src idx msk =>
    dsimp only [Scatter.call]
    have hstep : (s.ref src = none ∨ s.ref idx = none ∨ s.ref msk = none) → step (cfg.lanes r.length) r (.gather src idx msk) = none := by
      intro h
      unfold step
      simp only [M.get]
      rcases h with h | h | h <;> simp [h]
    cases h1 : s.ref src with
    | none => exact bad _ (hstep (Or.inl h1)) none
    | some a =>
      cases h2 : s.ref idx with
      | none => exact bad _ (hstep (Or.inr (Or.inl h2))) none
      | some i =>
        cases h3 : s.ref msk with
        | none => exact bad _ (hstep (Or.inr (Or.inr h3))) none
        | some m => exact S.gather ok h1 h2 h3 hb
  | scatter t val idx msk op free =>
    dsimp only [Scatter.call]
    have A1 : May cfg.llvm pend t val idx msk op free := A.1
    have hstep : (s.ref t = none ∨ s.ref val = none ∨ s.ref idx = none ∨ s.ref msk = none) →
        step (cfg.lanes r.length) r (.scatter t val idx msk op free) = none := by
      intro h
      unfold step
      simp only [M.get]
      rcases h with h | h | h | h <;> simp [h]
    have bad2 : (s.ref t = none ∨ s.ref val = none ∨ s.ref idx = none ∨ s.ref msk = none) →
        ∃ r', Effect (cfg.lanes r.length) r (.scatter t val idx msk op free) r' .raise ∧
        Sim cfg (after pend (.scatter t val idx msk op free)) r' (s.give 0).collect := fun h =>
      ⟨_, ⟨Or.inl (hstep h), rfl⟩, (M.pendSet A1).done 0 none (by simp) (by simp)⟩
    cases h1 : s.ref t with
    | none => exact bad2 (Or.inl h1)
    | some a =>
      cases h2 : s.ref val with
      | none => exact bad2 (Or.inr (Or.inl h2))
      | some v =>
        cases h3 : s.ref idx with
        | none => exact bad2 (Or.inr (Or.inr (Or.inl h3)))
        | some i =>
          cases h4 : s.ref msk with
          | none => exact bad2 (Or.inr (Or.inr (Or.inr h4)))
          | some m => exact S.scatter ok h1 h2 h3 h4 A1 A.2
  | write h pos x =>
    dsimp only [Scatter.call]
    cases h1 : s.ref h with
    | none => exact bad _ (by simp [step, M.get, h1]) none
    | some i => exact S.write ok h1
  | dup h =>
    dsimp only [Scatter.call]
    cases h1 : s.ref h with
    | none => exact bad _ (by simp [step, M.get, h1]) _
    | some i =>
      have hh := ref_iff.1 h1
      have H := M.held hh.1 hh.2
      have := M.done i pend[h]?.join (fun _ => ⟨(H.alive I).1, (H.alive I).2.1⟩) (fun _ => M.pend h i hh.1 hh.2)
      unfold refVal at this
      rw [if_neg hh.2] at this
      exact ⟨_, ⟨r, some (value s i), by simp [step, M.get, h1], rfl⟩, this⟩
  | drop h =>
    dsimp only [Scatter.call]
    cases h1 : s.ref h with
    | none => exact bad _ (by simp [step, M.get, h1]) none
    | some i =>
      have hh := ref_iff.1 h1
      refine ⟨_, ⟨r.set h none, none, by simp [step, M.get, h1], rfl⟩, ?_⟩
      have M1 : Mid cfg pend (r.set h none) { s with hs := s.hs.set h 0 } := by
        refine ⟨?_, M.exp, ?_, ?_, ?_⟩
        · apply I.rehs
          intro i' hi' h0
          rcases List.mem_or_eq_of_mem_set hi' with k | k
          · exact I.hs i' k h0
          · exact absurd k h0
        · show _ = (s.hs.set h 0).map (refVal s)
          rw [List.map_set, ← M.refs]
          rfl
        · simp [M.len]
        · intro k i' hk h0
          change (s.hs.set h 0)[k]? = some i' at hk
          rw [List.getElem?_set] at hk
          split at hk
          · split at hk
            · cases hk; exact absurd rfl h0
            · cases hk
          · exact M.pend k i' hk h0
      exact M1.done 0 none (by simp) (by simp)
  | eval l =>
    dsimp only [Scatter.call]
    obtain ⟨e1, e2, e3, e4, e5, -⟩ := I.eval ok (l.filterMap s.ref)
    have M1 := M.same e1 e2 e5
    refine ⟨r ++ [none], ⟨r, none, rfl, rfl⟩, ?_⟩
    have M2 : Mid cfg (pend.map fun _ => none) r (Scatter.eval cfg s (l.filterMap s.ref)) :=
      ⟨M1.inv, M1.exp, M1.refs, by rw [List.length_map]; exact M1.len, fun h i _ _ hd => absurd hd (e3 i)⟩
    exact M2.done 0 none (by simp) (by simp)
  | read h pos =>
    dsimp only [Scatter.call]
    cases h1 : s.ref h with
    | none => exact bad _ (by simp [step, M.get, h1]) none
    | some i => exact S.read ok h1
  | shrink h n => exact A.elim
  | stash h => exact A.elim
  | unstash h => exact A.elim

theorem Sim.start (cfg : Cfg) : Sim cfg [] [] {} := by
  have hal : ∀ i, ({} : St).alive i ≠ true := by intro i; simp [St.alive]
  refine ⟨⟨⟨?_, ?_, ?_, ?_, ?_, ?_, ?_, ?_, ?_, ?_⟩, ?_, rfl, rfl, ?_⟩, ?_⟩
  · exact fun i h => absurd h (hal i)
  · exact fun i h => absurd h (hal i)
  · intro i hi; simp at hi
  · intro i hi; simp at hi
  · simp
  · exact fun i h => absurd h (hal i)
  · exact fun i j a h => absurd h (hal i)
  · intro i; rfl
  · intro q q' t hq; simp at hq
  · exact Nat.one_pos
  · intro q hq; simp at hq
  · intro h i hh; simp at hh
  · exact fun i h => absurd h (hal i)

theorem Sim.calls {cfg : Cfg} (ok : CfgOK cfg) : ∀ (cs : List Cmd) (pend : List (Option ROp)) (r : Refs) (s : St), Sim cfg pend r s →
    Ordered cfg.llvm pend cs → Follows cfg.lanes r cs (calls cfg cs s).2 := by
  intro cs
  induction cs with
  | nil => intro pend r s _ _; rfl
  | cons c cs ih =>
    intro pend r s S O
    rw [Scatter.calls, Follows]
    by_cases hb : OutOfBounds r c
    · exact Or.inl hb
    · right
      obtain ⟨r', h1, h2⟩ := S.call ok c O.1 hb
      exact ⟨r', h1, ih _ _ _ h2 O.2⟩

end Verif.Scatter
