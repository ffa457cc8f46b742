import Verif.Freeze.Step2

/-!
# Simulation: kernel launches
-/

namespace Verif.Freeze

/-! ## The launch size -/

theorem dvd_iff_mod (a b : Nat) : a ∣ b ↔ b % a = 0 :=
  ⟨Nat.mod_eq_zero_of_dvd, Nat.dvd_of_mod_eq_zero⟩

/-- The launch size of the replay, given the sizes `i` (direct) and `q` (pointers) of the
recorded inputs, and `i'`, `q'` of the inputs of the replay. -/
theorem launchSize_eq {op : Op} {n n' i q i' q' b b' : Nat} (hn : 0 < n) (hn' : 0 < n')
    (hlt : n' < 2 ^ 32) (hsz : op.size = n) (hin : op.inputSize = recordedInputSize n i q)
    (hb : b = if i = 0 then q else i) (hb' : b' = if i' ≠ 0 then i' else q')
    (h : Scales n b n' b') : launchSize op i' q' = n' := by
  unfold launchSize
  rw [hsz, hin]
  unfold recordedInputSize
  rw [← hb, ← hb']
  simp only
  rcases h with ⟨h0, hd, he⟩ | ⟨hd, he⟩
  · have hb0 : 0 < b := Nat.pos_of_ne_zero h0
    have hr : (if 0 < b then (if b < n ∧ n % b ≠ 0 then 0 else if n < b ∧ b % n ≠ 0 then 0 else b)
        else b) = b := by
      rw [if_pos hb0]
      rcases hd with hd | hd
      · rw [dvd_iff_mod] at hd
        rw [if_neg (by omega)]
        split_ifs with h1
        · exfalso
          have : n % b = n := Nat.mod_eq_of_lt h1.1
          omega
        · rfl
      · rw [dvd_iff_mod] at hd
        rw [if_neg, if_neg]
        · rintro ⟨_, h⟩
          exact h hd
        · rintro ⟨h1, _⟩
          have : b % n = b := Nat.mod_eq_of_lt h1
          omega
    rw [hr, if_pos hb0]
    by_cases h1 : b < n ∧ n % b = 0
    · rw [if_pos h1]
      obtain ⟨k, hk⟩ := Nat.dvd_of_mod_eq_zero h1.2
      have e : n / b = k := by
        rw [hk]
        exact Nat.mul_div_cancel_left _ hb0
      have e2 : b' * k = n' := by
        have : n' * b = (b' * k) * b := by
          rw [he, hk, Nat.mul_comm b k, Nat.mul_assoc, Nat.mul_comm b b', ← Nat.mul_assoc,
            Nat.mul_comm k b']
        exact (Nat.eq_of_mul_eq_mul_right hb0 this).symm
      rw [e, e2, Nat.mod_eq_of_lt hlt, if_neg (by omega)]
    · rw [if_neg h1]
      have hnb : b % n = 0 := by
        rcases hd with hd | hd
        · rw [dvd_iff_mod] at hd
          have : ¬ b < n := fun h => h1 ⟨h, hd⟩
          have hle : b ≤ n := by
            by_contra hc
            have : n % b = n := Nat.mod_eq_of_lt (by omega)
            omega
          have : b = n := by omega
          rw [this]
          exact Nat.mod_self n
        · exact (dvd_iff_mod _ _).1 hd
      rw [if_pos hnb]
      obtain ⟨k, hk⟩ := Nat.dvd_of_mod_eq_zero hnb
      have hk0 : 0 < k := Nat.pos_of_ne_zero fun e => by
        rw [e] at hk
        omega
      have e : b / n = k := by
        rw [hk]
        exact Nat.mul_div_cancel_left _ hn
      have e2 : b' = n' * k := by
        have : n * b' = n * (n' * k) := by
          rw [← he, hk, ← Nat.mul_assoc, Nat.mul_comm n' n, Nat.mul_assoc]
        exact Nat.eq_of_mul_eq_mul_left hn this
      rw [e, e2, Nat.mul_div_cancel _ hk0, if_neg (by omega)]
  · have hr : (if 0 < b then (if b < n ∧ n % b ≠ 0 then 0 else if n < b ∧ b % n ≠ 0 then 0 else b)
        else b) = 0 := by
      rcases hd with h0 | ⟨hd1, hd2⟩
      · subst h0
        rfl
      · rw [dvd_iff_mod] at hd1 hd2
        have hb0 : 0 < b := Nat.pos_of_ne_zero fun e => by
          rw [e] at hd2
          exact hd2 (Nat.zero_mod n)
        rw [if_pos hb0]
        by_cases h1 : b < n
        · rw [if_pos ⟨h1, hd1⟩]
        · rw [if_neg (fun h => h1 h.1)]
          have : n < b := by
            rcases Nat.lt_or_ge n b with h | h
            · exact h
            · exfalso
              have : b = n := by omega
              rw [this] at hd1
              exact hd1 (Nat.mod_self n)
          rw [if_pos ⟨this, hd2⟩]
    rw [hr]
    simp [he]

/-! ## Sizes of the parameters -/

/-- The largest size of the parameters that are read directly. -/
def dsize : List Param → Nat → Nat
  | [], i => i
  | p :: ps, i => dsize ps (if p.kind = .direct then max i p.size else i)

/-- The largest suitable size of the parameters that are accessed by pointers. -/
def psize (n : Nat) : List Param → Nat → Nat
  | [], q => q
  | p :: ps, q => psize n ps
      (if p.kind = .pointer then
        (if p.size % n = 0 ∨ n % p.size = 0 then max q p.size else q) else q)

theorem dsize_eq (ps : List Param) (i : Nat) : dsize ps i = max i (largest (directSizes ps)) := by
  induction ps generalizing i with
  | nil => simp [dsize, directSizes, largest]
  | cons p ps ih =>
    unfold dsize
    rw [ih]
    unfold directSizes
    by_cases h : p.kind = .direct
    · simp only [h, if_true, List.filter_cons, decide_true, List.map_cons, largest, List.foldr_cons]
      omega
    · simp only [h, if_false, List.filter_cons, decide_false, Bool.false_eq_true]

theorem psize_eq (n : Nat) (ps : List Param) (q : Nat) :
    psize n ps q = max q (largest (pointerSizes n ps)) := by
  induction ps generalizing q with
  | nil => simp [psize, pointerSizes, largest]
  | cons p ps ih =>
    unfold psize
    rw [ih]
    unfold pointerSizes
    by_cases h : p.kind = .pointer
    · by_cases h' : p.size % n = 0 ∨ n % p.size = 0
      · simp only [h, h', if_true, List.filter_cons, and_self, decide_true, List.map_cons, largest,
          List.foldr_cons]
        omega
      · simp only [h, h', if_true, if_false, List.filter_cons, and_false, decide_false,
          Bool.false_eq_true]
    · simp only [h, if_false, List.filter_cons, false_and, decide_false, Bool.false_eq_true]

/-- The largest size of the parameters `ps'` for which `fl` holds of the corresponding
recorded parameter. -/
def gsize (fl : Param → Bool) : List Param → List Param → Nat → Nat
  | p :: ps, p' :: ps', q =>
    gsize fl ps ps' (if p.kind = .pointer ∧ fl p = true then max q p'.size else q)
  | _, _, q => q

theorem gsize_eq (fl : Param → Bool) (ps ps' : List Param) (q : Nat) :
    gsize fl ps ps' q = max q (largest (((ps.zip ps').filter fun x =>
      decide (x.1.kind = .pointer ∧ fl x.1 = true)).map fun x => x.2.size)) := by
  induction ps generalizing ps' q with
  | nil => simp [gsize, largest]
  | cons p ps ih =>
    cases ps' with
    | nil => simp [gsize, largest]
    | cons p' ps' =>
      unfold gsize
      rw [ih]
      by_cases h : p.kind = .pointer ∧ fl p = true
      · simp only [List.zip_cons_cons, List.filter_cons, h.1, h.2, and_self, if_true, decide_true,
          List.map_cons, largest, List.foldr_cons]
        omega
      · simp only [List.zip_cons_cons, List.filter_cons, h, if_false, decide_false,
          Bool.false_eq_true]

theorem largest_pos {l : List Nat} (h : ∀ x ∈ l, 0 < x) (hn : l ≠ []) : 0 < largest l := by
  cases l with
  | nil => exact absurd rfl hn
  | cons a l =>
    have := h a (List.mem_cons_self ..)
    simp only [largest, List.foldr_cons]
    omega

theorem directSizes_nil {ps ps' : List Param} (h : List.Forall₂ SameParam ps ps') :
    directSizes ps = [] ↔ directSizes ps' = [] := by
  unfold directSizes
  induction h with
  | nil => simp
  | cons hp _ ih =>
    simp only [List.filter_cons]
    rw [hp.1]
    split_ifs
    · simp
    · exact ih

section
variable {sem : Sem} {addr : Nat → Nat} {nin : Nat} {live : List Nat} {r : Rec} {m m1 m2 : Mem}
  {st : RState} {sl : Nat → Option Nat} {ρ : Nat → Nat}

/-- The access that belongs to a parameter of a kernel. -/
structure Acc (sl : Nat → Option Nat) (fl : Param → Bool) (p : Param) (a : Access) : Prop where
  slot : sl p.arr = some a.slot
  ptype : a.ptype = if p.kind = .output then .output else .input
  vtype : a.vtype = p.vt
  ptr : a.ptrAccess = decide (p.kind = .pointer)
  flag : a.ptrInputSize = fl p

theorem Acc.ext {sl1 : Nat → Option Nat} {ρ1 : Nat → Nat} {fl : Param → Bool} {p : Param}
    {a : Access} (h : Acc sl fl p a) (hx : Ext sl sl1 ρ ρ1) : Acc sl1 fl p a :=
  { h with slot := hx.some h.slot }

theorem launchSizes_eq {ps ps' : List Param} {as : List Access} {fl : Param → Bool} {i q : Nat}
    (hs : Sim addr nin live r m st sl ρ) (hp : List.Forall₂ SameParam ps ps')
    (ha : List.Forall₂ (fun p a => (p.kind ≠ .output → sl p.arr = some a.slot) ∧
      a.ptype = (if p.kind = .output then .output else .input) ∧ a.vtype = p.vt ∧
      a.ptrAccess = decide (p.kind = .pointer) ∧ a.ptrInputSize = fl p) ps as)
    (hh : ∀ p ∈ ps', p.kind ≠ .output → Has m p.arr p.vt p.size) :
    launchSizes false st as i q = .ok (dsize ps' i, gsize fl ps ps' q) := by
  induction hp generalizing as i q with
  | nil =>
    cases ha
    rfl
  | @cons p p' ps ps' hpp _ ih =>
    cases ha with
    | @cons _ a _ as hpa ha =>
      have ih := fun i q => ih (i := i) (q := q) ha
        (fun p h => hh p (List.mem_cons_of_mem _ h))
      obtain ⟨h1, h2, h3, h4, h5⟩ := hpa
      obtain ⟨k1, k2, k3, _⟩ := hpp
      unfold launchSizes
      by_cases ho : p.kind = .output
      · rw [h2, if_pos ho]
        simp only [reduceCtorEq, if_false]
        rw [ih]
        simp [dsize, gsize, ← k1, ho]
      · rw [h2, if_neg ho]
        simp only [if_true]
        have hhp := hh p' (List.mem_cons_self ..) (by rw [← k1]; exact ho)
        have hsl : sl p'.arr = some a.slot := by
          rw [← k2]
          exact h1 ho
        have hsz := hs.size hhp hsl
        rw [h3, k3, hsz]
        simp only [orRaise]
        obtain ⟨b, hb, _⟩ := hhp
        have hat := hs.at_eq hb hsl
        rw [if_neg (by rw [hat.slot]; simp), ih, h4, h5]
        simp only [dsize, gsize, ← k1]
        cases hk : p.kind with
        | output => exact absurd hk ho
        | direct => simp
        | pointer => simp

theorem flag_acc {Q : Nat} {ps : List Param} {as : List Access}
    (h : List.Forall₂ (Acc sl fun _ => false) ps as) :
    List.Forall₂ (Acc sl fun p => decide (p.kind = .pointer ∧ Q = p.size)) ps
      (flagPointers Q ps as) := by
  induction h with
  | nil => exact .nil
  | cons hpa _ ih =>
    unfold flagPointers
    refine .cons ?_ ih
    split_ifs with hc
    · exact { hpa with flag := by simp [hc] }
    · exact { hpa with flag := by rw [hpa.flag]; simp [hc] }

theorem flag_params {Q n : Nat} {dry : Bool} (ps : List Param) (as : List Access) (st : RState)
    (acc : List (Option Nat)) :
    launchParams dry n (flagPointers Q ps as) st acc = launchParams dry n as st acc := by
  induction ps generalizing as st acc with
  | nil => rfl
  | cons p ps ih =>
    cases as with
    | nil => rfl
    | cons a as =>
      unfold flagPointers
      split_ifs
      · unfold launchParams
        exact ih _ _ _
      · unfold launchParams
        exact ih _ _ _

/-- The parameters: recording, direct execution, and replay. -/
theorem params_sim {n n' : Nat} (hn' : 0 < n') {ps ps' : List Param}
    (hp : List.Forall₂ SameParam ps ps') (hs : Sim addr nin live r m st sl ρ)
    (ha : allocOuts n' ps' m = some m1)
    (hl : ∀ p ∈ ps', p.kind = .output → p.arr ∈ live)
    (hh : ∀ p ∈ ps', p.kind ≠ .output → Has m p.arr p.vt p.size)
    (ho : ∀ p ∈ ps', p.kind = .output → p.count = 1 ∧ 0 < typeSize p.vt)
    (i q : Nat) (acc : List Access) (pacc : List (Option Nat)) :
    ∃ r1 as sl1 ρ1 st1,
      recordParams addr n ps r i q acc = some (r1, dsize ps i, psize n ps q, acc ++ as) ∧
      r1.ops = r.ops ∧ List.Forall₂ (Acc sl1 fun _ => false) ps as ∧
      launchParams false n' as st pacc = (st1, pacc ++ (ps'.map fun p => some (ρ1 p.arr))) ∧
      Ext sl sl1 ρ ρ1 ∧ Sim addr nin live r1 m1 st1 sl1 ρ1 := by
  induction hp generalizing r m st sl ρ i q acc pacc with
  | nil =>
    simp only [allocOuts, Option.some.injEq] at ha
    subst ha
    exact ⟨r, [], sl, ρ, st, by simp [recordParams, dsize, psize], rfl, .nil,
      by simp [launchParams], Ext.refl _ _, hs⟩
  | @cons p p' ps ps' hpp _ ih =>
    obtain ⟨k1, k2, k3, k4⟩ := hpp
    have hl' : ∀ p ∈ ps', p.kind = .output → p.arr ∈ live :=
      fun p h => hl p (List.mem_cons_of_mem _ h)
    have ho' : ∀ p ∈ ps', p.kind = .output → p.count = 1 ∧ 0 < typeSize p.vt :=
      fun p h => ho p (List.mem_cons_of_mem _ h)
    by_cases hk : p'.kind = .output
    · -- a new array
      obtain ⟨hc, hts⟩ := ho p' (List.mem_cons_self ..) hk
      simp only [allocOuts, hk, if_true, Option.bind_eq_some_iff] at ha
      obtain ⟨mm, hnew, ha⟩ := ha
      rw [hc, Nat.mul_one] at hnew
      obtain ⟨hb, hd, e⟩ := new_eq hnew
      have hpos : 0 < n' * typeSize p'.vt := Nat.mul_pos hn' hts
      obtain ⟨d, sl1, ρ1, h1, h2, h3, h4⟩ := hs.alloc (x := p'.arr)
        (bytes := n' * typeSize p'.vt) (vt := some p'.vt) (hl p' (List.mem_cons_self ..) hk)
        ⟨hpos, Or.inl hb⟩ (fun _ => hd) (some_vt_ne hts)
      have hm : m.ensure p'.arr (n' * typeSize p'.vt) (some p'.vt) = mm := by
        unfold Mem.ensure
        rw [hb, e]
      have hh' : ∀ p ∈ ps', p.kind ≠ .output → Has mm p.arr p.vt p.size := by
        intro p hp hk
        rw [← hm]
        exact ensure_has (hh p (List.mem_cons_of_mem _ hp) hk)
      rw [hm] at h4
      simp only [Option.getD_some] at h1 h4
      obtain ⟨r2, as, sl2, ρ2, st2, g1, g2, g3, g4, g5, g6⟩ := ih h4 ha hl' hh' ho' i q
        (acc ++ [{ slot := d, ptype := .output, vtype := p'.vt }])
        (pacc ++ [some (ρ1 p'.arr)])
      refine ⟨r2, { slot := d, ptype := .output, vtype := p'.vt } :: as, sl2, ρ2, st2, ?_, ?_,
        .cons ?_ g3, ?_, h2.trans g5, g6⟩
      · unfold recordParams recordParam
        rw [k1, hk, k2, k3]
        simp only [Option.bind_some]
        have hf : addOutput (addVariable r (addr p'.arr)).1
            { slot := (addVariable r (addr p'.arr)).2, ptype := .output, vtype := p'.vt } =
            addOutParam r (addr p'.arr) p'.vt := rfl
        rw [hf, h1, g1]
        simp [dsize, psize, k1, hk]
      · rw [g2, addOutParam_ops]
      · refine ⟨?_, ?_, ?_, ?_, rfl⟩
        · rw [k2]
          exact g5.some h3
        · rw [k1, hk]
          rfl
        · exact k3.symm
        · rw [k1, hk]
          rfl
      · unfold launchParams
        simp only [if_true]
        have hdat := h4.slData _ _ h3
        rw [hdat, g4]
        have hρ : ρ2 p'.arr = ρ1 p'.arr := (g5 p'.arr (by rw [h3]; rfl)).2
        simp [hρ]
    · -- an input
      have hhp := hh p' (List.mem_cons_self ..) hk
      obtain ⟨s, hsl⟩ := hs.slotOf hhp
      simp only [allocOuts, hk, if_false] at ha
      have hh' : ∀ p ∈ ps', p.kind ≠ .output → Has m p.arr p.vt p.size :=
        fun p h => hh p (List.mem_cons_of_mem _ h)
      have hvt := vt_ne hhp.pos
      obtain ⟨b, hb, _⟩ := hhp
      have hat := hs.at_eq hb hsl
      obtain ⟨r2, as, sl2, ρ2, st2, g1, g2, g3, g4, g5, g6⟩ := ih hs ha hl' hh' ho'
        (if p.kind = .direct then max i p.size else i)
        (if p.kind = .pointer then
          (if p.size % n = 0 ∨ n % p.size = 0 then max q p.size else q) else q)
        (acc ++ [{ slot := s, ptype := .input, vtype := p'.vt,
                   ptrAccess := decide (p.kind = .pointer) }])
        (pacc ++ [some (ρ p'.arr)])
      refine ⟨r2, { slot := s, ptype := .input, vtype := p'.vt,
                    ptrAccess := decide (p.kind = .pointer) } :: as, sl2, ρ2, st2, ?_, g2,
        .cons ?_ g3, ?_, g5, g6⟩
      · unfold recordParams recordParam
        cases hkk : p.kind with
        | output => exact absurd (k1 ▸ hkk) hk
        | direct =>
          simp only [getVariable]
          rw [k2, hat.map, Option.bind_some, hat.input hs _ rfl]
          rw [hkk] at g1
          simp only [k3, hvt, if_false, Option.map_some, Option.bind_some]
          simp only [if_true, reduceCtorEq, if_false, decide_false] at g1
          rw [g1]
          simp [dsize, psize, hkk]
        | pointer =>
          simp only [getVariable]
          rw [k2, hat.map, Option.bind_some, hat.input hs _ rfl]
          rw [hkk] at g1
          simp only [k3, hvt, if_false, Option.map_some, Option.bind_some]
          simp only [if_true, reduceCtorEq, if_false, decide_true] at g1
          rw [g1]
          simp [dsize, psize, hkk]
      · refine ⟨?_, ?_, ?_, rfl, rfl⟩
        · rw [k2]
          exact g5.some hsl
        · rw [if_neg (by rw [k1]; exact hk)]
        · exact k3.symm
      · unfold launchParams
        simp only [reduceCtorEq, if_false]
        rw [hs.slData _ _ hsl, g4]
        have hρ : ρ2 p'.arr = ρ p'.arr := (g5 p'.arr (by rw [hsl]; rfl)).2
        simp [hρ]

/-- Stores of a kernel. -/
theorem store_sim {ws : List (Nat × List (Cell Nat))} (hs : Sim addr nin live r m st sl ρ)
    (hw : ∀ w ∈ ws, ∃ b, m.buf w.1 = some b ∧ w.2.length = b.cells.length ∧
      ∀ t ∈ refsOf w.2, (sl t).isSome) :
    Sim addr nin live r (storeAll ws m) (storeBlocks (renAll ρ ws) st) sl ρ := by
  induction ws generalizing m st with
  | nil => exact hs
  | cons w ws ih =>
    obtain ⟨x, cs⟩ := w
    obtain ⟨b, hb, hlen, hr⟩ := hw (x, cs) (List.mem_cons_self ..)
    have h1 := hs.fill hb hlen hr
    have e1 : storeAll ((x, cs) :: ws) m = storeAll ws (m.fill x cs) := rfl
    obtain ⟨s, hat⟩ := hs.look x b hb
    have e2 : storeBlocks (renAll ρ ((x, cs) :: ws)) st =
        storeBlocks (renAll ρ ws) (st.setHeap (ρ x) (cs.map (ren ρ))) := by
      simp only [renAll, List.map_cons, storeBlocks, RState.setHeap]
      rw [hat.heap]
      rfl
    rw [e1, e2]
    apply ih h1
    intro w hw'
    obtain ⟨c, hc, hlen', hr'⟩ := hw w (List.mem_cons_of_mem _ hw')
    by_cases e : w.1 = x
    · have hcb : c = b := by
        rw [e, hb] at hc
        exact (Option.some.inj hc).symm
      refine ⟨{ b with cells := cs }, ?_, ?_, hr'⟩
      · unfold Mem.fill
        rw [hb, e]
        exact Mem.set_self _ _ _
      · rw [hlen', hcb]
        exact hlen.symm
    · exact ⟨c, by rw [fill_other e]; exact hc, hlen', hr'⟩

theorem launch_bases {n : Nat} {ps ps' : List Param} (hp : List.Forall₂ SameParam ps ps')
    (h : ∀ p ∈ ps, p.kind ≠ .output → 0 < p.size)
    (h' : ∀ p ∈ ps', p.kind ≠ .output → 0 < p.size) (fl : Param → Bool)
    (hf : fl = if dsize ps 0 = 0 then
      (fun p => decide (p.kind = .pointer ∧ psize n ps 0 = p.size)) else fun _ => false) :
    basis n ps = (if dsize ps 0 = 0 then psize n ps 0 else dsize ps 0) ∧
    newBasis n ps ps' = (if dsize ps' 0 ≠ 0 then dsize ps' 0 else gsize fl ps ps' 0) := by
  have hd := dsize_eq ps 0
  have hd' := dsize_eq ps' 0
  have hq := psize_eq n ps 0
  rw [Nat.zero_max] at hd hd' hq
  have pos : ∀ l : List Param, (∀ p ∈ l, p.kind ≠ .output → 0 < p.size) →
      directSizes l ≠ [] → 0 < largest (directSizes l) := by
    intro l hl hne
    apply largest_pos _ hne
    intro x hx
    unfold directSizes at hx
    obtain ⟨p, hp, e⟩ := List.mem_map.1 hx
    rw [List.mem_filter] at hp
    have hk : p.kind = .direct := by simpa using hp.2
    rw [← e]
    exact hl p hp.1 (by rw [hk]; simp)
  by_cases hn : directSizes ps = []
  · have hn' := (directSizes_nil hp).1 hn
    have e0 : dsize ps 0 = 0 := by rw [hd, hn]; rfl
    have e0' : dsize ps' 0 = 0 := by rw [hd', hn']; rfl
    have hb : basis n ps = psize n ps 0 := by
      unfold basis
      rw [if_pos hn, hq]
    rw [if_pos e0] at hf
    refine ⟨by rw [hb, if_pos e0], ?_⟩
    rw [if_neg (by simp [e0']), gsize_eq, Nat.zero_max, hf]
    unfold newBasis
    rw [if_pos hn, hb]
    congr 2
    apply List.filter_congr
    intro x _
    simp only [decide_eq_true_eq, decide_eq_decide]
    constructor
    · rintro ⟨h1, h2⟩
      exact ⟨h1, h1, h2.symm⟩
    · rintro ⟨h1, _, h2⟩
      exact ⟨h1, h2.symm⟩
  · have hn' : directSizes ps' ≠ [] := fun e => hn ((directSizes_nil hp).2 e)
    have e0 : dsize ps 0 ≠ 0 := by
      rw [hd]
      have := pos ps h hn
      omega
    have e0' : dsize ps' 0 ≠ 0 := by
      rw [hd']
      have := pos ps' h' hn'
      omega
    refine ⟨?_, ?_⟩
    · unfold basis
      rw [if_neg hn, if_neg e0, hd]
    · unfold newBasis
      rw [if_neg hn, if_pos e0', hd']

theorem outs_same {k n n' : Nat} {ps ps' : List Param} (hp : List.Forall₂ SameParam ps ps') :
    (Cmd.launch k n ps).outs = (Cmd.launch k n' ps').outs := by
  unfold Cmd.outs
  simp only
  induction hp with
  | nil => rfl
  | cons h _ ih =>
    simp only [List.filter_cons]
    rw [h.1]
    split_ifs
    · rw [List.map_cons, List.map_cons, h.2.1, ih]
    · exact ih

theorem mapM_id_some {α : Type} (l : List α) : (l.map some).mapM id = some l := by
  rw [mapM_eq_some]
  induction l with
  | nil => exact .nil
  | cons a l ih => exact .cons rfl ih

theorem step_launch {k n n' : Nat} {ps ps' : List Param} (hs : Sim addr nin live r m st sl ρ)
    (hap : Apart addr ((Cmd.launch k n ps).outs ++ live))
    (hp : List.Forall₂ SameParam ps ps')
    (hsc : Scales n (basis n ps) n' (newBasis n ps ps')) (hn : 0 < n)
    (hpos : ∀ p ∈ ps, p.kind ≠ .output → 0 < p.size)
    (hw : Whole m (.launch k n' ps')) (he : exec sem m (.launch k n' ps') = some m2) :
    StepOk sem addr nin live r m2 st sl ρ (.launch k n ps) := by
  obtain ⟨hn', hlt, hh, ho⟩ := hw
  have hs' := hs.weaken hap fun y hy => List.mem_append.2 (Or.inr hy)
  simp only [exec, Option.bind_eq_some_iff, Option.map_eq_some_iff] at he
  obtain ⟨m1, ha, ws, hws, he⟩ := he
  have hl : ∀ p ∈ ps', p.kind = .output → p.arr ∈ (Cmd.launch k n ps).outs ++ live := by
    intro p hp' hk
    rw [outs_same (n' := n') hp]
    apply List.mem_append.2
    left
    exact List.mem_map.2 ⟨p, List.mem_filter.2 ⟨hp', by simp [hk]⟩, rfl⟩
  obtain ⟨r1, as, sl1, ρ1, st1, g1, g2, g3, g4, g5, g6⟩ :=
    params_sim (n := n) hn' hp hs' ha hl hh ho 0 0 [] []
  simp only [List.nil_append] at g1 g4
  -- the accesses that are stored in the recording
  generalize hfl : (if dsize ps 0 = 0 then
    (fun p : Param => decide (p.kind = .pointer ∧ psize n ps 0 = p.size)) else fun _ => false) = fl
  generalize hdeps : (if dsize ps 0 = 0 then flagPointers (psize n ps 0) ps as else as) = deps
  have hacc : List.Forall₂ (Acc sl1 fl) ps deps := by
    rw [← hfl, ← hdeps]
    split_ifs
    · exact flag_acc g3
    · exact g3
  have hpar : launchParams false n' deps st [] = (st1, ps'.map fun p => some (ρ1 p.arr)) := by
    rw [← hdeps]
    split_ifs
    · rw [flag_params]
      exact g4
    · exact g4
  have hsizes : launchSizes false st deps 0 0 = .ok (dsize ps' 0, gsize fl ps ps' 0) := by
    have hhps : ∀ p ∈ ps, p.kind ≠ .output → (sl p.arr).isSome := by
      intro p hp' hk
      obtain ⟨p', hp'', hsame⟩ := forall2_mem_left hp hp'
      obtain ⟨s, hsl⟩ := hs'.slotOf (hh p' hp'' (by rw [← hsame.1]; exact hk))
      rw [hsame.2.1, hsl]
      rfl
    refine launchSizes_eq hs' hp ?_ hh
    have aux : ∀ {l : List Param} {ds : List Access}, (∀ p ∈ l, p ∈ ps) →
        List.Forall₂ (Acc sl1 fl) l ds →
        List.Forall₂ (fun p a => (p.kind ≠ .output → sl p.arr = some a.slot) ∧
          a.ptype = (if p.kind = .output then .output else .input) ∧ a.vtype = p.vt ∧
          a.ptrAccess = decide (p.kind = .pointer) ∧ a.ptrInputSize = fl p) l ds := by
      intro l ds hmem h
      induction h with
      | nil => exact .nil
      | cons hpa _ ih =>
        refine .cons ⟨?_, hpa.ptype, hpa.vtype, hpa.ptr, hpa.flag⟩
          (ih fun p h => hmem p (List.mem_cons_of_mem _ h))
        intro hk
        rw [← (g5 _ (hhps _ (hmem _ (List.mem_cons_self ..)) hk)).1]
        exact hpa.slot
    exact aux (fun p h => h) hacc
  obtain ⟨hb, hb'⟩ := launch_bases hp hpos (fun p h hk => (hh p h hk).n_pos) fl hfl.symm
  have hsize : launchSize { kind := .launch k, deps := deps, size := n, inputSize := recordedInputSize n (dsize ps 0) (psize n ps 0) }
      (dsize ps' 0) (gsize fl ps ps' 0) = n' :=
    launchSize_eq hn hn' hlt rfl rfl hb hb' hsc
  -- the kernel
  have hg : ∀ x cs, m1.get x = some cs → st1.heap (ρ1 x) = some (cs.map (ren ρ1)) := by
    intro x cs hx
    obtain ⟨b, hb, e⟩ := Option.map_eq_some_iff.1 hx
    obtain ⟨s, hat⟩ := g6.look x b hb
    rw [hat.heap, e]
  have hP : ∀ x cs, m1.get x = some cs → (sl1 x).isSome := by
    intro x cs hx
    obtain ⟨b, hb, e⟩ := Option.map_eq_some_iff.1 hx
    obtain ⟨s, hat⟩ := g6.look x b hb
    rw [hat.asg]
    rfl
  have hR : ∀ x cs, m1.get x = some cs → ∀ t ∈ refsOf cs, (sl1 t).isSome := by
    intro x cs hx
    obtain ⟨b, hb, e⟩ := Option.map_eq_some_iff.1 hx
    obtain ⟨s, hat⟩ := g6.look x b hb
    rw [← e]
    exact hat.refs
  have hcall := callKernel_ren (get' := st1.heap) (P := fun x => (sl1 x).isSome) g6.rhoInj hg hP
    hR hws
  have hspec := callKernel_spec hws
  have h7 := store_sim g6 (ws := ws) (by
    intro w hw
    obtain ⟨old, ho1, ho2, ho3⟩ := hspec w hw
    obtain ⟨b, hb, e⟩ := Option.map_eq_some_iff.1 ho1
    refine ⟨b, hb, by rw [ho2, e], ?_⟩
    intro t ht
    rcases ho3 t ht with h | h
    · obtain ⟨cs, hcs⟩ := Option.isSome_iff_exists.1 h
      exact hP t cs hcs
    · exact hR w.1 old ho1 t h)
  rw [he] at h7
  refine StepOk.one (op := {
      kind := .launch k, deps := deps, size := n,
      inputSize := recordedInputSize n (dsize ps 0) (psize n ps 0) }) g5 h7 g2 ?_ ?_
  · simp only [recordCmd, recordLaunch, g1, Option.map_some, hdeps]
  · simp only [replayOp, replayLaunch, hsizes, Res.bind]
    rw [hsize, hpar]
    simp only [Bool.false_eq_true, if_false]
    have e : (ps'.map fun p => some (ρ1 p.arr)) = ((ps'.map (·.arr)).map ρ1).map some := by
      simp [List.map_map, Function.comp_def]
    rw [e, mapM_id_some]
    simp only [orUb]
    rw [hcall]

end

end Verif.Freeze
