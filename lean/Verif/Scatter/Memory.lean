import Verif.Scatter.Lemmas

/-
Scatter operations (C48): the memory after the pending scatters, and that the steps of an evaluation
may be interleaved.
-/

namespace Verif.Scatter

/-- The address that a step writes to. -/
def adr (s : St) : Ev → Nat
  | .out _ a _ => a
  | .scat q _ =>
    match s.kind q with
    | .scatter _ _ p _ _ _ => (match s.kind p with | .ptr a _ _ => a | _ => 0)
    | _ => 0

/-- What a step does to the array, with operands that are computed beforehand. -/
def fn (s : St) : Ev → Arr → Arr
  | .out i _ l, x => x.set l (den s.vars s.mem (i + 1) i l)
  | .scat q l, x =>
    match s.kind q with
    | .scatter op _ _ v i m =>
      if den s.vars s.mem q m l ≠ 0 then
        put op x (den s.vars s.mem q i l).toNat (den s.vars s.mem q v l)
      else x
    | _ => x

/-- The steps of one pending scatter. -/
def lanesOf (s : St) (q : Nat) : List Ev :=
  match s.kind q with
  | .scatter _ ord _ _ _ _ => ord.map (Ev.scat q)
  | _ => []

/-- The pending steps. -/
def pendEv (s : St) : List Ev := s.queue.flatMap (lanesOf s)

def runEv (s : St) (l : List Ev) (x : Arr) : Arr := l.foldl (fun x e => fn s e x) x

/-- The memory after the pending scatters. -/
def fin (s : St) (b : Nat) : Arr := runEv s ((pendEv s).filter fun e => adr s e == b) (s.mem b)

/-- The value of a variable. -/
def value (s : St) (i : Nat) : Arr := contents s.vars (fin s) i

/-- Arrays without pending writes are unchanged. -/
def Agree (s : St) (m : Nat → Arr) : Prop :=
  ∀ t a, s.alive t = true → s.kind t = .data a 0 → ¬ Dirty s t → m a = s.mem a

theorem Inv.clean {s : St} (I : Inv s) {m : Nat → Arr} (hm : Agree s m) {i n l : Nat} (hc : Clean s i)
    (hl : Lane (s.size i) l) (hn : i < n) : den s.vars m n i l = den s.vars s.mem n i l := by
  refine den_sim s.vars s.vars s.mem m (Clean s) ?_ i hc n n hn hn l hl
  rintro i ⟨ha, hv, hd⟩
  refine ⟨rfl, Or.inr ⟨rfl, ?_⟩⟩
  split
  · rename_i a o hk
    have ht := I.typed i ha
    have hk : s.kind i = .data a o := hk
    simp only [Typed, hk] at ht
    obtain ⟨rfl, -⟩ := ht
    exact hm i a ha hk (hd a 0 hk)
  · rename_i f args hk
    intro d hd
    have := I.typed_op ha hk d hd
    exact ⟨this.1, this.2.2, this.2.1⟩
  · rename_i p idx msk hk
    obtain ⟨⟨a, t, h1, h2, h3, -⟩, h4⟩ := I.typed_gather ha hk
    refine ⟨⟨a, t, false, h1, h1, hm t a h2.1 h3 (h2.2.2 a 0 h3)⟩, fun d hd => ?_⟩
    have := h4 d hd
    exact ⟨this.1, this.2.2, this.2.1⟩
  · trivial

/-- The variables to be computed. -/
def Outs (s : St) (outs : List (Nat × Nat)) : Prop :=
  (outs.map Prod.fst).Nodup ∧ (outs.map Prod.snd).Nodup ∧
  ∀ o ∈ outs, s.alive o.1 = true ∧ (s.kind o.1).isNode = true ∧ s.top ≤ o.2 ∧ o.2 < s.top + outs.length

/-- The steps of an evaluation. -/
def IsStep (s : St) (e : Ev) : Prop :=
  match e with
  | .out i a l => s.alive i = true ∧ (s.kind i).isNode = true ∧ s.top ≤ a ∧ l < s.size i
  | .scat q l => q ∈ s.queue ∧ ∃ op ord p v i m, s.kind q = .scatter op ord p v i m ∧ l ∈ ord

theorem isStep_of {s : St} {outs : List (Nat × Nat)} (ho : Outs s outs) {e : Ev} (he : e ∈ events s outs) :
    IsStep s e := by
  unfold events at he
  rw [List.mem_append] at he
  rcases he with he | he
  · simp only [List.mem_flatMap, List.mem_map, List.mem_range] at he
    obtain ⟨o, h1, l, h2, rfl⟩ := he
    obtain ⟨h3, h4, h5, -⟩ := ho.2.2 o h1
    exact ⟨h3, h4, h5, h2⟩
  · simp only [List.mem_flatMap] at he
    obtain ⟨q, h1, h2⟩ := he
    split at h2
    · rename_i op ord p v i m hk
      simp only [List.mem_map] at h2
      obtain ⟨l, h3, rfl⟩ := h2
      exact ⟨h1, op, ord, p, v, i, m, hk, h3⟩
    · simp at h2

theorem clean_node {s : St} {i : Nat} (ha : s.alive i = true) (hk : (s.kind i).isNode = true) : Clean s i := by
  refine ⟨ha, ?_, ?_⟩
  · cases h : s.kind i <;> simp_all [Kind.isNode, Kind.isVal]
  · intro a o h; rw [h] at hk; simp [Kind.isNode] at hk

theorem Inv.exec_eq {s : St} (I : Inv s) {m : Nat → Arr} (hm : Agree s m) {e : Ev} (he : IsStep s e) :
    exec s.vars m e = set m (adr s e) (fn s e (m (adr s e))) := by
  cases e with
  | out i a l =>
    obtain ⟨h1, h2, h3, h4⟩ := he
    simp only [exec, adr, fn]
    rw [I.clean hm (clean_node h1 h2) (Or.inr h4) (Nat.lt_succ_self i)]
  | scat q l =>
    obtain ⟨hq, op, ord, p, v, i, msk, hk, hl⟩ := he
    obtain ⟨⟨a, t, h1, h2, h3, h4, h5⟩, h6, h7⟩ := I.typed_scat (I.queue q hq).1 hk
    have hlane : ∀ d ∈ [v, i, msk], Lane (s.size d) l := by
      intro d hd
      rcases (h7 d hd).2.1 with h | h
      · right; rw [h]; exact h6 l hl
      · exact Or.inl h
    have hden : ∀ d ∈ [v, i, msk], den s.vars m q d l = den s.vars s.mem q d l := fun d hd =>
      I.clean hm (h7 d hd).1 (hlane d hd) (h7 d hd).2.2
    have hk' : (s.vars q).kind = .scatter op ord p v i msk := hk
    have h1' : (s.vars p).kind = .ptr a t true := h1
    simp only [exec, adr, fn, hk, hk', h1, h1']
    rw [hden msk (by simp), hden i (by simp), hden v (by simp)]
    split
    · rfl
    · rw [set_self]

theorem Inv.adr_scat {s : St} (I : Inv s) {q l : Nat} (he : IsStep s (.scat q l)) :
    ∃ t, Target s q t ∧ s.kind t = .data (adr s (.scat q l)) 0 ∧ Dirty s t ∧ s.alive t = true := by
  obtain ⟨hq, op, ord, p, v, i, msk, hk, hl⟩ := he
  obtain ⟨⟨a, t, h1, h2, h3, h4, h5⟩, h6, h7⟩ := I.typed_scat (I.queue q hq).1 hk
  refine ⟨t, ⟨op, ord, p, v, i, msk, a, hk, h1⟩, ?_, h5, h3⟩
  simp only [adr, hk, h1, h2]

theorem Inv.data_lt {s : St} (I : Inv s) {t a : Nat} (ha : s.alive t = true) (hk : s.kind t = .data a 0) :
    a < s.top ∧ (s.mem a).length = s.size t := by
  have := I.typed t ha
  simp only [Typed, hk] at this
  exact this.2

theorem Inv.adr_dirty {s : St} (I : Inv s) {e : Ev} (he : IsStep s e) {t : Nat} (ha : s.alive t = true)
    (hk : s.kind t = .data (adr s e) 0) : Dirty s t := by
  cases e with
  | out i a l =>
    have := (I.data_lt ha hk).1
    have := he.2.2.1
    simp only [adr] at *
    omega
  | scat q l =>
    obtain ⟨t', h1, h2, h3, h4⟩ := I.adr_scat he
    rw [I.inj t t' _ ha h4 hk h2]
    exact h3

theorem Inv.run {s : St} (I : Inv s) : ∀ (l : List Ev) (m : Nat → Arr), Agree s m → (∀ e ∈ l, IsStep s e) →
    ∀ b, (l.foldl (exec s.vars) m) b = runEv s (l.filter fun e => adr s e == b) (m b) := by
  intro l
  induction l with
  | nil => intros; rfl
  | cons e l ih =>
    intro m hm hl b
    rw [List.foldl_cons, I.exec_eq hm (hl e (by simp)), ih _ ?_ (fun e he => hl e (by simp [he])) b]
    · rw [List.filter_cons]
      split
      · next h =>
        have : adr s e = b := by simpa using h
        rw [this, set_same]
        rfl
      · next h =>
        have : b ≠ adr s e := by intro h'; apply h; simp [h']
        rw [set_other _ _ this]
    · intro t a ha hk hd
      rw [set_other]
      · exact hm t a ha hk hd
      · rintro rfl
        exact hd (I.adr_dirty (hl e (by simp)) ha hk)

/-! ### The order of steps does not matter -/

theorem put_length (op : ROp) (x : Arr) (p : Nat) (v : UInt32) : (put op x p v).length = x.length := by simp [put]

theorem fn_length (s : St) (e : Ev) (x : Arr) : (fn s e x).length = x.length := by
  cases e with
  | out i a l => simp [fn]
  | scat q l =>
    simp only [fn]
    split
    · split
      · simp [put]
      · rfl
    · rfl

theorem runEv_length (s : St) (l : List Ev) (x : Arr) : (runEv s l x).length = x.length := by
  induction l generalizing x with
  | nil => rfl
  | cons e l ih => simp only [runEv, List.foldl_cons] at ih ⊢; rw [ih, fn_length]

theorem put_comm {op : ROp} (h : op.Comm) (x : Arr) (p p' : Nat) (v v' : UInt32) :
    put op (put op x p v) p' v' = put op (put op x p' v') p v := by
  unfold put
  by_cases hp : p = p'
  · subst hp
    rw [List.set_set, List.set_set]
    by_cases hl : p < x.length
    · simp [List.getElem?_set, hl]
      rw [h x[p] v v']
    · simp [List.getElem?_set, hl, h]
      rw [List.set_eq_of_length_le (by omega), List.set_eq_of_length_le (by omega)]
  · rw [List.set_comm _ _ hp]
    congr 1
    · congr 2
      rw [List.getD_eq_getElem?_getD, List.getD_eq_getElem?_getD, List.getElem?_set_ne (by omega), List.getD_eq_getElem?_getD]
    · congr 1
      rw [List.getD_eq_getElem?_getD, List.getD_eq_getElem?_getD, List.getElem?_set_ne (by omega)]

theorem fn_comm {s : St} {q q' l l' : Nat} {op : ROp} (h : OpOf s q op) (h' : OpOf s q' op) (hc : op.Comm) (x : Arr) :
    fn s (.scat q l) (fn s (.scat q' l') x) = fn s (.scat q' l') (fn s (.scat q l) x) := by
  obtain ⟨ord, p, v, i, m, hk⟩ := h
  obtain ⟨ord', p', v', i', m', hk'⟩ := h'
  simp only [fn, hk, hk']
  split_ifs <;> first | rfl | exact put_comm hc _ _ _ _ _

theorem pend_step {s : St} {e : Ev} (he : e ∈ pendEv s) : IsStep s e := by
  have : e ∈ events s [] := by
    unfold events
    rw [List.mem_append]
    exact Or.inr he
  exact isStep_of ⟨by simp, by simp, by simp⟩ this

theorem events_eq (s : St) (outs : List (Nat × Nat)) :
    events s outs = outs.flatMap (fun o => (List.range (s.size o.1)).map (Ev.out o.1 o.2)) ++ pendEv s := rfl

theorem filter_pend {s : St} : ∀ (l : List Nat), l.Nodup → ∀ q ∈ l, 
    (l.flatMap (lanesOf s)).filter (Ev.isScat q) = lanesOf s q := by
  have hown : ∀ q, (lanesOf s q).filter (Ev.isScat q) = lanesOf s q := by
    intro q
    unfold lanesOf
    split
    · rw [List.filter_eq_self]; simp [Ev.isScat]
    · rfl
  have hother : ∀ q q', q' ≠ q → (lanesOf s q').filter (Ev.isScat q) = [] := by
    intro q q' h
    unfold lanesOf
    split
    · rw [List.filter_eq_nil_iff]; simp [Ev.isScat, h]
    · rfl
  intro l
  induction l with
  | nil => simp
  | cons a l ih =>
    intro hn q hq
    rw [List.nodup_cons] at hn
    rw [List.flatMap_cons, List.filter_append]
    rcases List.mem_cons.1 hq with rfl | hq
    · rw [hown]
      have : (l.flatMap (lanesOf s)).filter (Ev.isScat q) = [] := by
        rw [List.filter_eq_nil_iff]
        intro e he
        rw [List.mem_flatMap] at he
        obtain ⟨q', h1, h2⟩ := he
        have := hother q q' (by rintro rfl; exact hn.1 h1)
        rw [List.filter_eq_nil_iff] at this
        exact this e h2
      rw [this, List.append_nil]
    · rw [hother q a (by rintro rfl; exact hn.1 hq), List.nil_append]
      exact ih hn.2 q hq

/-- Arrays that exist already contain the result of the pending scatters after an evaluation. -/
theorem Inv.run_old {cfg : Cfg} (ok : CfgOK cfg) {s : St} (I : Inv s) {outs : List (Nat × Nat)} (ho : Outs s outs)
    {b : Nat} (hb : b < s.top) :
    runEv s ((cfg.sched s outs).filter fun e => adr s e == b) (s.mem b) = fin s b := by
  have hperm := ok.sched s outs
  have hstep : ∀ e ∈ cfg.sched s outs, IsStep s e := fun e he => isStep_of ho (hperm.mem_iff.1 he)
  have hscat : ∀ e ∈ cfg.sched s outs, adr s e = b → ∃ q l, e = .scat q l := by
    intro e he hb'
    cases e with
    | out i a l =>
      have := (hstep _ he).2.2.1
      simp only [adr] at hb'
      omega
    | scat q l => exact ⟨q, l, rfl⟩
  have hfilt : (events s outs).filter (fun e => adr s e == b) = (pendEv s).filter fun e => adr s e == b := by
    rw [events_eq, List.filter_append]
    have : (outs.flatMap (fun o => (List.range (s.size o.1)).map (Ev.out o.1 o.2))).filter (fun e => adr s e == b) = [] := by
      rw [List.filter_eq_nil_iff]
      intro e he h
      have he' : e ∈ events s outs := by rw [events_eq]; exact List.mem_append_left _ he
      obtain ⟨q, l, rfl⟩ := hscat e (hperm.mem_iff.2 he') (by simpa using h)
      simp only [List.mem_flatMap, List.mem_map] at he
      obtain ⟨o, -, l, -, h⟩ := he
      cases h
    rw [this, List.nil_append]
  have hp : ((cfg.sched s outs).filter fun e => adr s e == b).Perm ((pendEv s).filter fun e => adr s e == b) :=
    hfilt ▸ hperm.filter _
  by_cases hone : ∃ q, ∀ e ∈ (pendEv s).filter (fun e => adr s e == b), Ev.isScat q e = true
  · obtain ⟨q, hq⟩ := hone
    by_cases hnil : (pendEv s).filter (fun e => adr s e == b) = []
    · unfold fin
      rw [hnil] at hp ⊢
      rw [List.perm_nil.1 hp]
    · obtain ⟨e, he⟩ := List.exists_mem_of_ne_nil _ hnil
      have he' := List.mem_filter.1 he
      obtain ⟨q', l, rfl⟩ : ∃ q' l, e = .scat q' l := by
        cases e with
        | out i a l => have := hq _ he; simp [Ev.isScat] at this
        | scat q l => exact ⟨q, l, rfl⟩
      have hqq : q' = q := by simpa [Ev.isScat] using hq _ he
      subst hqq
      have hs := pend_step he'.1
      obtain ⟨hmem, op, ord, p, v, i, m, hk, hl⟩ := hs
      have hab : ∀ l', adr s (.scat q' l') = b := by
        intro l'
        have : adr s (.scat q' l') = adr s (.scat q' l) := rfl
        rw [this]; simpa using he'.2
      have h1 : (cfg.sched s outs).filter (fun e => adr s e == b) = (cfg.sched s outs).filter (Ev.isScat q') := by
        apply List.filter_congr
        intro e he
        rw [Bool.eq_iff_iff]
        constructor
        · intro h
          exact hq e (hp.mem_iff.1 (List.mem_filter.2 ⟨he, h⟩))
        · intro h
          cases e with
          | out i a l => simp [Ev.isScat] at h
          | scat q l =>
            have : q = q' := by simpa [Ev.isScat] using h
            rw [this, hab]; simp
      have h2 : (pendEv s).filter (fun e => adr s e == b) = (pendEv s).filter (Ev.isScat q') := by
        apply List.filter_congr
        intro e he
        rw [Bool.eq_iff_iff]
        constructor
        · intro h
          exact hq e (List.mem_filter.2 ⟨he, h⟩)
        · intro h
          cases e with
          | out i a l => simp [Ev.isScat] at h
          | scat q l =>
            have : q = q' := by simpa [Ev.isScat] using h
            rw [this, hab]; simp
      unfold fin
      rw [h1, h2, ok.order s outs I.nodup q' hmem op ord p v i m hk, pendEv, filter_pend _ I.nodup q' hmem]
      unfold lanesOf
      rw [hk]
  · unfold fin runEv
    refine List.Perm.foldl_eq' hp ?_ _
    have hmulti : ∀ e ∈ (cfg.sched s outs).filter (fun e => adr s e == b), ∃ q l, e = .scat q l ∧ q ∈ s.queue ∧
        ∃ t, Target s q t ∧ s.kind t = .data b 0 ∧ s.alive t = true := by
      intro e he
      have he' := List.mem_filter.1 he
      have hb' : adr s e = b := by simpa using he'.2
      obtain ⟨q, l, rfl⟩ := hscat e he'.1 hb'
      have hs := hstep _ he'.1
      obtain ⟨t, h1, h2, h3, h4⟩ := I.adr_scat hs
      rw [hb'] at h2
      exact ⟨q, l, rfl, hs.1, t, h1, h2, h4⟩
    intro e he e' he' z
    obtain ⟨q, l, rfl, hq, t, ht1, ht2, ht3⟩ := hmulti e he
    obtain ⟨q', l', rfl, hq', t', ht1', ht2', ht3'⟩ := hmulti e' he'
    have := I.inj t t' b ht3 ht3' ht2 ht2'
    subst this
    by_cases hqq : q = q'
    · -- there is another scatter to the same array
      subst hqq
      have : ∃ e'' ∈ (pendEv s).filter (fun e => adr s e == b), ¬ Ev.isScat q e'' = true := by
        by_contra hcon
        exact hone ⟨q, fun e he => by by_contra h; exact hcon ⟨e, he, h⟩⟩
      obtain ⟨e'', he'', hne⟩ := this
      obtain ⟨q'', l'', rfl, hq'', t'', ht1'', ht2'', ht3''⟩ := hmulti e'' (hp.mem_iff.2 he'')
      have := I.inj t t'' b ht3 ht3'' ht2 ht2''
      subst this
      have hne : q ≠ q'' := by
        rintro rfl; simp [Ev.isScat] at hne
      obtain ⟨op, ho1, -, hc⟩ := I.conflict q q'' t hq hq'' ht1 ht1'' hne
      exact fn_comm ho1 ho1 hc z
    · obtain ⟨op, ho1, ho2, hc⟩ := I.conflict q q' t hq hq' ht1 ht1' hqq
      exact fn_comm ho2 ho1 hc z

theorem foldl_set_range (g : Nat → UInt32) : ∀ (n : Nat) (x : Arr),
    ∀ k, ((List.range n).foldl (fun x l => x.set l (g l)) x)[k]? = if k < n ∧ k < x.length then some (g k) else x[k]? := by
  intro n
  induction n with
  | zero => simp
  | succ n ih =>
    intro x k
    rw [List.range_succ, List.foldl_append, List.foldl_cons, List.foldl_nil, List.getElem?_set]
    have hlen : ((List.range n).foldl (fun x l => x.set l (g l)) x).length = x.length := by
      clear ih
      induction n generalizing x with
      | zero => rfl
      | succ n ih => rw [List.range_succ, List.foldl_append]; simp [ih]
    rw [hlen, ih]
    by_cases h : n = k
    · subst h
      by_cases h2 : n < x.length <;> simp [h2]
    · have : (k < n + 1) = (k < n) := by rw [eq_iff_iff]; omega
      simp [h, this]

/-- New arrays contain the values of the variables. -/
theorem Inv.run_new {cfg : Cfg} (ok : CfgOK cfg) {s : St} (I : Inv s) {outs : List (Nat × Nat)} (ho : Outs s outs)
    {i b : Nat} (hb : (i, b) ∈ outs) :
    runEv s ((cfg.sched s outs).filter fun e => adr s e == b) (List.replicate (s.size i) 0) = contents s.vars s.mem i := by
  have hperm := ok.sched s outs
  have hstep : ∀ e ∈ cfg.sched s outs, IsStep s e := fun e he => isStep_of ho (hperm.mem_iff.1 he)
  have hfilt : (events s outs).filter (fun e => adr s e == b) = (List.range (s.size i)).map (Ev.out i b) := by
    rw [events_eq, List.filter_append]
    have h1 : (pendEv s).filter (fun e => adr s e == b) = [] := by
      rw [List.filter_eq_nil_iff]
      intro e he h
      have hs := pend_step he
      have hb' : adr s e = b := by simpa using h
      cases e with
      | out i a l =>
        have : ∃ q ∈ s.queue, Ev.out i a l ∈ lanesOf s q := by simpa [pendEv] using he
        obtain ⟨q, -, h⟩ := this
        unfold lanesOf at h
        split at h <;> simp at h
      | scat q l =>
        obtain ⟨t, -, h2, -, h4⟩ := I.adr_scat hs
        have := (I.data_lt h4 h2).1
        have := (ho.2.2 _ hb).2.2.1
        simp only at this
        omega
    rw [h1, List.append_nil]
    have hn := ho.2.1
    clear hperm hstep h1 ho
    induction outs with
    | nil => simp at hb
    | cons o outs ih =>
      rw [List.map_cons, List.nodup_cons] at hn
      rw [List.flatMap_cons, List.filter_append]
      have hnone : ∀ o ∈ outs, o.2 ≠ b → ((List.range (s.size o.1)).map (Ev.out o.1 o.2)).filter (fun e => adr s e == b) = [] := by
        intro o _ h
        rw [List.filter_eq_nil_iff]
        simp [adr, h]
      rcases List.mem_cons.1 hb with h | h
      · subst h
        have : (outs.flatMap fun o => (List.range (s.size o.1)).map (Ev.out o.1 o.2)).filter (fun e => adr s e == b) = [] := by
          rw [List.filter_eq_nil_iff]
          intro e he
          rw [List.mem_flatMap] at he
          obtain ⟨o, h1, h2⟩ := he
          have := hnone o h1 (by rintro rfl; exact hn.1 (List.mem_map.2 ⟨o, h1, rfl⟩))
          rw [List.filter_eq_nil_iff] at this
          exact this e h2
        rw [this, List.append_nil, List.filter_eq_self]
        simp [adr]
      · have hne : o.2 ≠ b := by rintro rfl; exact hn.1 (List.mem_map.2 ⟨_, h, rfl⟩)
        have : ((List.range (s.size o.1)).map (Ev.out o.1 o.2)).filter (fun e => adr s e == b) = [] := by
          rw [List.filter_eq_nil_iff]; simp [adr, hne]
        rw [this, List.nil_append]
        exact ih h hn.2
  have hp : ((cfg.sched s outs).filter fun e => adr s e == b).Perm ((List.range (s.size i)).map (Ev.out i b)) :=
    hfilt ▸ hperm.filter _
  have : runEv s ((cfg.sched s outs).filter fun e => adr s e == b) (List.replicate (s.size i) 0) =
      runEv s ((List.range (s.size i)).map (Ev.out i b)) (List.replicate (s.size i) 0) := by
    unfold runEv
    refine List.Perm.foldl_eq' hp ?_ _
    intro e he e' he' z
    have he := hp.mem_iff.1 he
    have he' := hp.mem_iff.1 he'
    simp only [List.mem_map] at he he'
    obtain ⟨l, -, rfl⟩ := he
    obtain ⟨l', -, rfl⟩ := he'
    simp only [fn]
    by_cases h : l = l'
    · subst h; rfl
    · rw [List.set_comm _ _ (by omega)]
  rw [this]
  unfold runEv contents
  rw [List.foldl_map]
  simp only [fn]
  apply List.ext_getElem?
  intro k
  rw [foldl_set_range]
  change (if k < s.size i ∧ _ then _ else _) = (List.map _ (List.range (s.size i)))[k]?
  by_cases hk : k < s.size i
  · simp [hk]
  · simp [hk]

end Verif.Scatter
