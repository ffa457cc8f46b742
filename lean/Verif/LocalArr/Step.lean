import Verif.LocalArr.Run

/-
Local arrays (C43): every step of a kernel keeps the invariant.
-/

namespace Verif.LocalArr

section

variable {T : Nat → Var} {sv : Nat → Option SVal}

/-- The invariant after a step, and the value that would be stored for the variable. -/
def Good (T : Nat → Var) (sv : Nat → Option SVal) (R : Nat → Nat) (a : Nat → AState)
    (done todo : List Nat) (k : K) (v : Nat) : Prop :=
  ∃ k1, render T a k v = some k1 ∧ Inv T sv R (done ++ [v]) todo k1 ∧ k1.out = k.out ∧
    ∀ s, sv v = some s → Holds (result T k1 v) s

/-- A number has been computed. -/
theorem good_scalar {R : Nat → Nat} {a : Nat → AState} {done todo : List Nat} {k : K} {v : Nat}
    (h : WF T) (hc : Consistent T sv)
    (I : Inv T sv R done (v :: todo) k) (hv : v ∉ done) (ha : (T v).isArray = false) (x : Nat)
    (hr : render T a k v = some { k with env := set k.env v x })
    (hx : ∀ y, sv v = some (.scalar (some y)) → x = y) : Good T sv R a done todo k v := by
  refine ⟨_, hr, I.scalar h hv ha x hx, rfl, ?_⟩
  intro s hs
  have hsh := (hc v s hs).2
  cases s with
  | arr l c => rw [Shape, ha] at hsh; cases hsh.1
  | scalar z =>
    intro y hy
    subst hy
    simp only [result, ha, Bool.false_eq_true, if_false, set_self]
    exact hx y hs

/-- An array has been made. -/
theorem good_array {R : Nat → Nat} {a : Nat → AState} {done todo : List Nat} {k k1 : K} {v r : Nat}
    (hc : Consistent T sv) (I : Inv T sv R done (v :: todo) k) (ha : (T v).isArray = true)
    (hrd : render T a k v = some k1) (hout : k1.out = k.out)
    (henv : k1.env = k.env) (hreg : ∀ u, u ≠ v → k1.reg u = k.reg u)
    (hmem : ∀ q, q ≠ r → k1.mem q = k.mem q) (hr : k1.reg v = r)
    (hd : isDecl (T v) = true → r = R v) (hdom : r ∈ done ++ [v])
    (hsep : ∀ u, Live T (done ++ [v]) todo u → u ≠ v → k.reg u ≠ r)
    (hown : ∀ w ∈ todo, (T w).kind = .write → r ≠ (T w).store)
    (hini : (T v).kind = .init → r = R (T v).dep0)
    (hcont : Agrees sv v (k1.mem r)) : Good T sv R a done todo k v := by
  have hns : ∀ x, sv v ≠ some (.scalar x) := by
    intro x hx
    have := (hc v _ hx).2
    rw [Shape, ha] at this; cases this
  refine ⟨k1, hrd, I.array hns henv hreg hmem hr hd hdom hsep hown hini hcont, hout, ?_⟩
  intro s hs
  cases s with
  | scalar x => exact absurd hs (hns x)
  | arr l c =>
    simp only [result, ha, if_true, hr]
    exact hcont l c hs

variable {l : List Nat} {out : Nat → Bool} {a0 a : Nat → AState} {R : Nat → Nat}
  {done todo : List Nat} {v : Nat} {k : K}

theorem not_done (hs : Sched T l) (e : l = done ++ v :: todo) : v ∉ done := fun hh =>
  (List.nodup_append.1 (e ▸ hs.nodup)).2.2 v hh v List.mem_cons_self rfl

theorem step_array (h : WF T) (hc : Consistent T sv) (hs : Sched T l) (e : l = done ++ v :: todo)
    (hR : R = allocRegs T a l id) (I : Inv T sv R done (v :: todo) k) (hk : (T v).kind = .array) :
    Good T sv R a done todo k v := by
  have hvl : v ∈ l := e ▸ by simp
  have hd : isDecl (T v) = true := by simp [isDecl, hk]
  have hrd : render T a k v = some k := by simp [render, hk]
  have ha := h.array v hk
  have hcr : ∀ s, sv v = some s → s = createVal (T v).len := by
    intro s hv
    have := (hc v s hv).1
    simpa [Meant, hk] using this
  have hag : ∀ m, Agrees sv v m := by
    intro m l c hsv i _ y hy
    have := hcr _ hsv
    simp only [createVal, SVal.arr.injEq] at this
    rw [this.2] at hy; cases hy
  by_cases hver : Version T v
  · have hrv : R v = v := by rw [hR]; exact alloc_root h hs a hvl hd hver
    have hkr : k.reg v = v := by rw [I.regd v hd, hrv]
    refine good_array (r := v) hc I ha hrd rfl rfl (fun _ _ => rfl) (fun _ _ => rfl) hkr
      (fun _ => hrv.symm) (by simp) ?_ ?_ (fun hh => by rw [hk] at hh; cases hh) (hag _)
    · intro u hu hne he
      exact not_done hs e (he ▸ I.dom u (hu.back hne))
    · intro w _ hw he
      exact store_not_version h hw hver he
  · refine ⟨k, hrd, I.storage h ?_ hver, rfl, ?_⟩
    · intro x hx
      have := hcr _ hx
      simp [createVal] at this
    · intro s hsv
      rw [hcr s hsv]
      intro i _ y hy; cases hy

theorem step_evaluated (h : WF T) (hc : Consistent T sv) (hs : Sched T l) (e : l = done ++ v :: todo)
    (hR : R = allocRegs T a l id) (I : Inv T sv R done (v :: todo) k) (hk : (T v).kind = .evaluated) :
    Good T sv R a done todo k v := by
  have hvl : v ∈ l := e ▸ by simp
  have hho : ∀ s, sv v = some s → Holds (T v).data s := by
    intro s hv
    have := (hc v s hv).1
    simpa [Meant, hk] using this
  by_cases ha : (T v).isArray = true
  · have hd : isDecl (T v) = true := by simp [isDecl, hk, ha]
    have hver : Version T v := ⟨ha, fun hh => by rw [hk] at hh; cases hh⟩
    have hrv : R v = v := by rw [hR]; exact alloc_root h hs a hvl hd hver
    have hkr : k.reg v = v := by rw [I.regd v hd, hrv]
    have hrd : render T a k v = some { k with mem := fill k.mem (k.reg v) (T v).len (T v).data } := by
      simp [render, hk, ha]
    refine good_array (r := v) hc I ha hrd rfl rfl (fun _ _ => rfl) ?_ hkr
      (fun _ => hrv.symm) (by simp) ?_ ?_ (fun hh => by rw [hk] at hh; cases hh) ?_
    · intro q hq
      simp only [fill, hkr]
      exact set_ne _ _ hq
    · intro u hu hne he
      exact not_done hs e (he ▸ I.dom u (hu.back hne))
    · intro w _ hw he
      exact store_not_version h hw hver he
    · intro l c hsv i hi y hy
      have hl := (hc v _ hsv).2.2
      simp only [fill, hkr, set_self]
      rw [if_pos (hl ▸ hi)]
      exact hho _ hsv i hi y hy
  · have ha' : (T v).isArray = false := by simpa using ha
    refine good_scalar h hc I (not_done hs e) ha' ((T v).data 0) (by simp [render, hk, ha']) ?_
    intro y hy
    exact hho _ hy y rfl

theorem step_literal (h : WF T) (hc : Consistent T sv) (hs : Sched T l) (e : l = done ++ v :: todo)
    (I : Inv T sv R done (v :: todo) k) (hk : (T v).kind = .literal) :
    Good T sv R a done todo k v := by
  refine good_scalar h hc I (not_done hs e) (h.scalarL v hk) (T v).literal (by simp [render, hk]) ?_
  intro y hy
  have := (hc v _ hy).1
  simp only [Meant, hk, SVal.scalar.injEq, Option.some.injEq] at this
  exact this.symm

theorem step_compute (h : WF T) (hc : Consistent T sv) (hs : Sched T l) (e : l = done ++ v :: todo)
    (I : Inv T sv R done (v :: todo) k) (hk : (T v).kind = .compute) :
    Good T sv R a done todo k v := by
  refine good_scalar h hc I (not_done hs e) (h.scalarC v hk)
    ((T v).fn ((T v).args.map k.env)) (by simp only [render, hk]) ?_
  intro y hy
  have := (hc v _ hy).1
  simp only [Meant, hk, SVal.scalar.injEq, reduceCtorEq, false_or] at this
  obtain ⟨xs, h1, h2⟩ := this
  simp only [computeVal, Option.map_eq_some_iff, SVal.scalar.injEq] at h2
  obtain ⟨ys, h2, zs, h3, rfl⟩ := h2
  rw [args_eq I.scal _ xs ys zs (fun b hb => hs.closed done v todo e b (by simpa [deps, hk] using hb))
    h1 h2 h3]

/-- The target of an access is still accessed. -/
theorem target_live (h : WF T) (hs : Sched T l) (e : l = done ++ v :: todo)
    (ha : (T v).kind.accesses = true) : Live T done (v :: todo) (T v).dep0 := by
  refine ⟨hs.closed done v todo e _ ?_, h.target v ha, v, List.mem_cons_self, ha, rfl⟩
  unfold deps
  cases hk : (T v).kind <;> simp_all [Kind.accesses]

theorem step_read (h : WF T) (hc : Consistent T sv) (hs : Sched T l) (e : l = done ++ v :: todo)
    (hm : ∀ v ∈ l, sv v ≠ none)
    (I : Inv T sv R done (v :: todo) k) (hk : (T v).kind = .read) :
    Good T sv R a done todo k v := by
  have hvl : v ∈ l := e ▸ by simp
  have ha := h.scalarR v hk
  have hlive := target_live h hs e (by simp [hk, Kind.accesses])
  have hdep := hs.closed done v todo e
  obtain ⟨s, hsv⟩ := Option.ne_none_iff_exists'.1 (hm v hvl)
  have hme := (hc v _ hsv).1
  simp only [Meant, hk] at hme
  obtain ⟨t, o, m, ht, ho, hmk, hrv⟩ := hme
  have hnd := not_done hs e
  have hmd : (T v).mask ∈ done := hdep _ (by simp [deps, hk])
  have hod : ∀ o ∈ (T v).offset.toList, o ∈ done := fun o ho => hdep _ (by simp [deps, hk, ho])
  -- the mask is determined
  cases t with
  | scalar _ => simp [readVal] at hrv
  | arr len c =>
    cases m with
    | arr _ _ => cases o <;> simp [readVal] at hrv
    | scalar m =>
      cases m with
      | none => cases o <;> simp [readVal] at hrv
      | some m =>
        have hme := I.scal _ hmd m hmk
        by_cases hm0 : m = 0
        · subst hm0
          simp only [readVal, Option.some.injEq] at hrv
          subst hrv
          refine good_scalar h hc I hnd ha 0 (by simp [render, hk, hme]) ?_
          intro y hy
          rw [hsv] at hy
          simpa using hy
        · have hrv' : ∃ i, o = .scalar (some i) ∧ i < len ∧ s = .scalar (c i) := by
            cases o with
            | arr _ _ =>
              cases m with
              | zero => exact absurd rfl hm0
              | succ m => simp [readVal] at hrv
            | scalar o =>
              cases m with
              | zero => exact absurd rfl hm0
              | succ m =>
                cases o with
                | none => simp [readVal] at hrv
                | some i =>
                  simp only [readVal] at hrv
                  split at hrv
                  · rename_i hi
                    exact ⟨i, rfl, hi, by simpa using hrv.symm⟩
                  · cases hrv
          obtain ⟨i, rfl, hi, rfl⟩ := hrv'
          have hoff := offset_eq I.scal hod ho
          have hlen := (hc _ _ ht).2.2
          refine good_scalar h hc I hnd ha (k.mem (k.reg (T v).dep0) i) ?_ ?_
          · simp only [render, hk, hme, hm0, if_false, hoff]
            rw [if_pos (hlen ▸ hi)]
          · intro y hy
            rw [hsv] at hy
            simp only [Option.some.injEq, SVal.scalar.injEq] at hy
            exact I.cont _ hlive len c ht i hi y hy

theorem step_init (h : WF T) (hc : Consistent T sv) (hs : Sched T l) (hp : Plain T l)
    (e : l = done ++ v :: todo)
    (I : Inv T sv R done (v :: todo) k) (hk : (T v).kind = .init) :
    Good T sv R a done todo k v := by
  have hvl : v ∈ l := e ▸ by simp
  have ha := h.init v hk
  have hlive := target_live h hs e (by simp [hk, Kind.accesses])
  have hdep := hs.closed done v todo e
  have hlast := (hp.init v hvl hk).2
  have hvt : v ∉ todo := (List.nodup_cons.1 (List.nodup_append.1 (e ▸ hs.nodup)).2.1).1
  refine good_array (r := k.reg (T v).dep0)
    (k1 := { k with reg := set k.reg v (k.reg (T v).dep0),
                    mem := fill k.mem (k.reg (T v).dep0) (T v).len fun _ => k.env (T v).value })
    hc I ha (by simp [render, hk]) rfl rfl ?_ ?_ (by simp) ?_ ?_ ?_ ?_ ?_ ?_
  · intro u hu; exact set_ne _ _ hu
  · intro q hq; exact set_ne _ _ hq
  · intro hd; simp [isDecl, hk] at hd
  · exact List.mem_append_left _ (I.dom _ hlive)
  · intro u hu hne
    have hu' := hu.back hne
    refine I.sep u _ hu' hlive ?_
    rintro rfl
    obtain ⟨_, _, w, hw, hw1, hw2⟩ := hu
    have := hlast w (e ▸ by simp [hw]) hw1 hw2
    subst this
    exact hvt hw
  · intro w hw hkw
    exact I.own _ hlive w (List.mem_cons_of_mem _ hw) hkw
  · intro _
    exact I.regd _ (by simp [isDecl, (hp.init v hvl hk).1])
  · intro len c hsv i hi y hy
    obtain ⟨hme, _, hlen⟩ := hc v _ hsv
    simp only [Meant, hk] at hme
    obtain ⟨t, x, ht, hx, hini⟩ := hme
    cases t with
    | scalar _ => simp [initVal] at hini
    | arr len' c' =>
      cases x with
      | arr _ _ => simp [initVal] at hini
      | scalar x =>
        simp only [initVal, Option.some.injEq, SVal.arr.injEq] at hini
        obtain ⟨rfl, rfl⟩ := hini
        simp only [hi, if_true] at hy
        subst hy
        simp only [fill, set_self]
        rw [if_pos (hlen ▸ hi)]
        exact I.scal _ (hdep _ (by simp [deps, hk])) y hx

/-- Where a write goes: a memory which no other array that is still accessed uses, and which has the
elements of the target after the copy. -/
theorem write_reg (h : WF T) (hs : Sched T l) (hp : Plain T l)
    (e : l = done ++ v :: todo) (ha : a = l.foldl (process T out) a0) (hR : R = allocRegs T a l id)
    (I : Inv T sv R done (v :: todo) k) (hk : (T v).kind = .write) :
    writeReg T a k v ∈ done ∧
    (∀ u, Live T (done ++ [v]) todo u → u ≠ v → k.reg u ≠ writeReg T a k v) ∧
    (∀ w ∈ todo, (T w).kind = .write → writeReg T a k v ≠ (T w).store) ∧
    (∀ q, q ≠ writeReg T a k v → copied T a k v q = k.mem q) ∧
    ∀ i, i < (T v).len → copied T a k v (writeReg T a k v) i = k.mem (k.reg (T v).dep0) i := by
  have hvl : v ∈ l := e ▸ by simp
  have hlive := target_live h hs e (by simp [hk, Kind.accesses])
  have hdep := hs.closed done v todo e
  have hvt : v ∉ todo := (List.nodup_cons.1 (List.nodup_append.1 (e ▸ hs.nodup)).2.1).1
  have hver := hlive.2.1
  -- writing to the memory of the target
  have inplace : writeReg T a k v = k.reg (T v).dep0 →
      (∀ u ∈ todo, (T u).kind.accesses = true → (T u).dep0 ≠ (T v).dep0) →
      writeReg T a k v ∈ done ∧
      (∀ u, Live T (done ++ [v]) todo u → u ≠ v → k.reg u ≠ writeReg T a k v) ∧
      (∀ w ∈ todo, (T w).kind = .write → writeReg T a k v ≠ (T w).store) := by
    intro hr hl
    rw [hr]
    refine ⟨I.dom _ hlive, ?_, ?_⟩
    · intro u hu hne
      refine I.sep u _ (hu.back hne) hlive ?_
      rintro rfl
      obtain ⟨_, _, w, hw, hw1, hw2⟩ := hu
      exact hl w hw hw1 hw2
    · intro w hw hkw
      exact I.own _ hlive w (List.mem_cons_of_mem _ hw) hkw
  by_cases hcf : a (T v).dep0 = .conflicted
  · -- a copy
    have hwr : writeReg T a k v = k.reg (T v).store := by
      simp only [writeReg, hcf, if_true, buffer_write h hk]
    have hcp : copied T a k v = fill k.mem (writeReg T a k v) (T v).len (k.mem (k.reg (T v).dep0)) := by
      simp [copied, hcf]
    have hsk := h.storeKind v hk
    have hsd : isDecl (T (T v).store) = true := by simp [isDecl, hsk.1]
    have hsm : (T v).store ∈ done := hdep _ (by simp [deps, hk])
    have hsl : (T v).store ∈ l := e ▸ by simp [hsm]
    have hwR : writeReg T a k v = R (T v).store := by rw [hwr, I.regd _ hsd]
    have hcopy : (∀ q, q ≠ writeReg T a k v → copied T a k v q = k.mem q) ∧
        ∀ i, i < (T v).len → copied T a k v (writeReg T a k v) i = k.mem (k.reg (T v).dep0) i := by
      rw [hcp]
      refine ⟨fun q hq => set_ne _ _ hq, fun i hi => ?_⟩
      simp [fill, hi]
    have fresh : R (T v).store = (T v).store →
      writeReg T a k v ∈ done ∧
      (∀ u, Live T (done ++ [v]) todo u → u ≠ v → k.reg u ≠ writeReg T a k v) ∧
      (∀ w ∈ todo, (T w).kind = .write → writeReg T a k v ≠ (T w).store) := by
      intro hf
      rw [hwR, hf]
      refine ⟨hsm, ?_, ?_⟩
      · intro u hu hne
        exact I.own u (hu.back hne) v List.mem_cons_self hk
      · intro w hw hkw he
        have := h.storeInj v w hk hkw he
        subst this
        exact hvt hw
    have freshOf : a (T (T v).store).dep0 = .conflicted → R (T v).store = (T v).store := by
      intro hh
      rw [hR]
      exact alloc_fresh h hs a hsl hsd hh
    have main : writeReg T a k v ∈ done ∧
      (∀ u, Live T (done ++ [v]) todo u → u ≠ v → k.reg u ≠ writeReg T a k v) ∧
      (∀ w ∈ todo, (T w).kind = .write → writeReg T a k v ≠ (T w).store) := by
      cases hkx : (T (T v).dep0).kind with
      | literal => have := h.scalarL _ hkx; rw [hver.1] at this; cases this
      | compute => have := h.scalarC _ hkx; rw [hver.1] at this; cases this
      | read => have := h.scalarR _ hkx; rw [hver.1] at this; cases this
      | array => exact fresh (freshOf (by rw [h.predArray v hk hkx]; exact hcf))
      | evaluated => exact fresh (freshOf (by rw [hp.stale v hvl hk hkx]; exact hcf))
      | write =>
        refine fresh (freshOf ?_)
        rw [h.predWrite v hk hkx]
        -- the storage of the target has the state of the target
        obtain ⟨l1, l2, he⟩ := List.append_of_mem hlive.1
        have el : l = l1 ++ (T v).dep0 :: (l2 ++ v :: todo) := by rw [e, he]; simp
        have hn := List.nodup_append.1 (el ▸ hs.nodup)
        have hx2 : (T v).dep0 ∉ l2 ++ v :: todo := (List.nodup_cons.1 hn.2.1).1
        have hst : (T (T v).dep0).store ∈ l1 :=
          hs.closed l1 _ _ el _ (by simp [deps, hkx])
        have hs2 : (T (T v).dep0).store ∉ l2 ++ v :: todo := fun hh =>
          hn.2.2 _ hst _ (List.mem_cons_of_mem _ hh) rfl
        have := foldl_store h out hver hkx (l2 ++ v :: todo)
          ((l1 ++ [(T v).dep0]).foldl (process T out) a0) hx2 hs2
          (.inr ⟨v, by simp, by simp [hk, Kind.accesses], rfl⟩)
        rw [← List.foldl_append] at this
        have el' : l1 ++ [(T v).dep0] ++ (l2 ++ v :: todo) = l := by rw [el]; simp
        rw [el', ← ha] at this
        rw [← this]; exact hcf
      | init =>
        have hxl : (T v).dep0 ∈ l := e ▸ by simp [hlive.1]
        obtain ⟨hbk, _⟩ := hp.init _ hxl hkx
        have hpi := h.predInit v hk hkx hbk
        by_cases hb : a (T (T v).dep0).dep0 = .conflicted
        · exact fresh (freshOf (by rw [hpi]; exact hb))
        · have hRb : R (T v).store = R (T (T v).dep0).dep0 := by
            rw [hR, alloc_eq h hs a hsl hsd, allocReg, hpi,
              if_pos ⟨fun h0 => hsk.2 (hpi.trans h0), hb⟩]
          refine inplace ?_ (hp.fork done v todo e hk hkx)
          rw [hwR, hRb, I.ini _ hlive.1 hkx]
    exact ⟨main.1, main.2.1, main.2.2, hcopy.1, hcopy.2⟩
  · -- no copy
    have hwr : writeReg T a k v = k.reg (T v).dep0 := by simp [writeReg, hcf]
    have hcp : copied T a k v = k.mem := by simp [copied, hcf]
    have hl : ∀ u ∈ todo, (T u).kind.accesses = true → (T u).dep0 ≠ (T v).dep0 :=
      last_access h out a0 hver (e ▸ hs.nodup) hlive.1 (by simp [hk, Kind.modifies]) rfl
        (by rw [← e, ← ha]; exact hcf)
    obtain ⟨h1, h2, h3⟩ := inplace hwr hl
    exact ⟨h1, h2, h3, fun q _ => by rw [hcp], fun i _ => by rw [hcp, hwr]⟩

theorem step_write (h : WF T) (hc : Consistent T sv) (hs : Sched T l) (hp : Plain T l)
    (hm : ∀ v ∈ l, sv v ≠ none)
    (e : l = done ++ v :: todo) (ha : a = l.foldl (process T out) a0) (hR : R = allocRegs T a l id)
    (I : Inv T sv R done (v :: todo) k) (hk : (T v).kind = .write) : Good T sv R a done todo k v := by
  have hvl : v ∈ l := e ▸ by simp
  have hlive := target_live h hs e (by simp [hk, Kind.accesses])
  have hdep := hs.closed done v todo e
  obtain ⟨w1, w2, w3, w4, w5⟩ := write_reg h hs hp e ha hR I hk
  obtain ⟨s, hsv⟩ := Option.ne_none_iff_exists'.1 (hm v hvl)
  have hme := (hc v _ hsv).1
  simp only [Meant, hk] at hme
  obtain ⟨t, o, x, m, ht, ho, hx, hmk, hwv⟩ := hme
  have hmd : (T v).mask ∈ done := hdep _ (by simp [deps, hk])
  have hvd : (T v).value ∈ done := hdep _ (by simp [deps, hk])
  have hod : ∀ o ∈ (T v).offset.toList, o ∈ done := fun o ho => hdep _ (by simp [deps, hk, ho])
  have hlw := h.lenW v hk
  -- what remains once the memory is known
  have fin : ∀ m', store k (copied T a k v) (writeReg T a k v) (T v) = some m' →
      (∀ q, q ≠ writeReg T a k v → m' q = copied T a k v q) →
      Agrees sv v (m' (writeReg T a k v)) → Good T sv R a done todo k v := by
    intro m' hst hq hag
    refine good_array (r := writeReg T a k v)
      (k1 := { k with mem := m', reg := set k.reg v (writeReg T a k v) })
      hc I (h.write v hk) (by simp [render, hk, hst]) rfl rfl ?_ ?_ (by simp) ?_ ?_ w2 w3 ?_ hag
    · intro u hu; exact set_ne _ _ hu
    · intro q hne; exact (hq q hne).trans (w4 q hne)
    · intro hd; simp [isDecl, hk] at hd
    · exact List.mem_append_left _ w1
    · intro hh; rw [hk] at hh; cases hh
  cases t with
  | scalar _ => cases o <;> cases x <;> cases m <;> simp [writeVal] at hwv
  | arr len c =>
    have hlen : len = (T v).len := (hc _ _ ht).2.2.trans hlw.symm
    cases m with
    | arr _ _ => cases o <;> cases x <;> simp [writeVal] at hwv
    | scalar m =>
      cases m with
      | none => cases o <;> cases x <;> simp [writeVal] at hwv
      | some m =>
        cases x with
        | arr _ _ => cases o <;> cases m <;> simp [writeVal] at hwv
        | scalar x =>
          have hmv := I.scal _ hmd m hmk
          by_cases hm0 : m = 0
          · subst hm0
            simp only [writeVal, Option.some.injEq] at hwv
            subst hwv
            refine fin (copied T a k v) (by simp [store, hmv]) (fun _ _ => rfl) ?_
            intro l' c' hsv' i hi y hy
            rw [hsv] at hsv'
            simp only [Option.some.injEq, SVal.arr.injEq] at hsv'
            obtain ⟨rfl, rfl⟩ := hsv'
            rw [w5 i (hlen ▸ hi)]
            exact I.cont _ hlive len c ht i hi y hy
          · have hwv' : ∃ j, o = .scalar (some j) ∧ j < len ∧
                s = .arr len (fun i => if i = j then x else c i) := by
              cases m with
              | zero => exact absurd rfl hm0
              | succ m =>
                cases o with
                | arr _ _ => simp [writeVal] at hwv
                | scalar o =>
                  cases o with
                  | none => simp [writeVal] at hwv
                  | some j =>
                    simp only [writeVal] at hwv
                    split at hwv
                    · rename_i hj
                      exact ⟨j, rfl, hj, by simpa using hwv.symm⟩
                    · cases hwv
            obtain ⟨j, rfl, hj, rfl⟩ := hwv'
            have hoff := offset_eq I.scal hod ho
            refine fin (set (copied T a k v) (writeReg T a k v)
                (set (copied T a k v (writeReg T a k v)) j (k.env (T v).value))) ?_ ?_ ?_
            · simp only [store, hmv, hm0, if_false, hoff]
              rw [if_pos (hlen ▸ hj)]
            · intro q hq; exact set_ne _ _ hq
            · intro l' c' hsv' i hi y hy
              rw [hsv] at hsv'
              simp only [Option.some.injEq, SVal.arr.injEq] at hsv'
              obtain ⟨rfl, rfl⟩ := hsv'
              rw [set_self]
              by_cases hij : i = j
              · subst hij
                simp only [if_true] at hy
                subst hy
                rw [set_self]
                exact I.scal _ hvd y hx
              · simp only [hij, if_false] at hy
                rw [set_ne _ _ hij, w5 i (hlen ▸ hi)]
                exact I.cont _ hlive len c ht i hi y hy

/-- Every step of a kernel. -/
theorem step (h : WF T) (hc : Consistent T sv) (hs : Sched T l) (hp : Plain T l)
    (hm : ∀ v ∈ l, sv v ≠ none)
    (e : l = done ++ v :: todo) (ha : a = l.foldl (process T out) a0) (hR : R = allocRegs T a l id)
    (I : Inv T sv R done (v :: todo) k) : Good T sv R a done todo k v := by
  cases hk : (T v).kind with
  | literal => exact step_literal h hc hs e I hk
  | evaluated => exact step_evaluated h hc hs e hR I hk
  | compute => exact step_compute h hc hs e I hk
  | array => exact step_array h hc hs e hR I hk
  | init => exact step_init h hc hs hp e I hk
  | write => exact step_write h hc hs hp hm e ha hR I hk
  | read => exact step_read h hc hs e hm I hk

/-- The rest of a kernel. -/
theorem renderAll_ok (h : WF T) (hc : Consistent T sv) (hs : Sched T l) (hp : Plain T l)
    (hm : ∀ v ∈ l, sv v ≠ none) (o : Nat → Bool)
    (ha : a = l.foldl (process T out) a0) (hR : R = allocRegs T a l id) :
    ∀ (todo done : List Nat) (k : K), l = done ++ todo → Inv T sv R done todo k →
      (∀ v ∈ done, o v = true → ∀ s, sv v = some s → Holds (k.out v) s) →
      ∃ k', renderAll T a o k todo = some k' ∧
        ∀ v ∈ l, o v = true → ∀ s, sv v = some s → Holds (k'.out v) s
  | [], done, k, e, _, ho => ⟨k, rfl, by simpa [e] using ho⟩
  | v :: todo, done, k, e, I, ho => by
    obtain ⟨k1, hr, I1, hout, hres⟩ := step (out := out) h hc hs hp hm e ha hR I
    have hnd := not_done hs e
    by_cases hov : o v = true
    · have h2 : renderOut T a o k v = some { k1 with out := set k1.out v (result T k1 v) } := by
        simp [renderOut, hr, hov]
      have hI : Inv T sv R (done ++ [v]) todo { k1 with out := set k1.out v (result T k1 v) } :=
        ⟨I1.scal, I1.regd, I1.cont, I1.sep, I1.dom, I1.own, I1.ini⟩
      obtain ⟨k', hk', hf⟩ := renderAll_ok h hc hs hp hm o ha hR todo (done ++ [v]) _
        (by rw [e]; simp) hI (by
          intro u hu hou s hsu
          by_cases he : u = v
          · subst he; simp only [set_self]; exact hres s hsu
          · simp only []
            rw [set_ne _ _ he, hout]
            refine ho u ?_ hou s hsu
            rcases List.mem_append.1 hu with hh | hh
            · exact hh
            · exact absurd (List.mem_singleton.1 hh) he)
      exact ⟨k', by simp only [renderAll, h2, Option.bind_some]; exact hk', hf⟩
    · have h2 : renderOut T a o k v = some k1 := by simp [renderOut, hr, hov]
      obtain ⟨k', hk', hf⟩ := renderAll_ok h hc hs hp hm o ha hR todo (done ++ [v]) k1
        (by rw [e]; simp) I1 (by
          intro u hu hou s hsu
          rcases List.mem_append.1 hu with hh | hh
          · rw [hout]; exact ho u hh hou s hsu
          · rw [List.mem_singleton.1 hh] at hou; exact absurd hou hov)
      exact ⟨k', by simp only [renderAll, h2, Option.bind_some]; exact hk', hf⟩

/-- A kernel does not access memory out of bounds, and its outputs are what its variables mean. -/
theorem launch_ok (h : WF T) (hc : Consistent T sv) {g : Group} (hs : Sched T g.sched)
    (hp : Plain T g.sched) (hm : ∀ v ∈ g.sched, sv v ≠ none) (m0 : Nat → Nat → Nat) :
    launch T m0 out a0 g ≠ .ub ∧ ∀ a' o, launch T m0 out a0 g = .ok (a', o) →
      ∀ v ∈ g.sched, out v = true → (T v).size = g.size → ∀ s, sv v = some s → Holds (o v) s := by
  unfold launch
  split
  · exact ⟨by simp, fun _ _ hh => by cases hh⟩
  · have hI : Inv T sv (allocRegs T (g.sched.foldl (process T out) a0) g.sched id) [] g.sched
        ⟨fun _ => 0, allocRegs T (g.sched.foldl (process T out) a0) g.sched id, m0, fun _ _ => 0⟩ := by
      refine ⟨?_, fun _ _ => rfl, ?_, ?_, ?_, ?_, ?_⟩
      · intro v hv; cases hv
      · intro v hv; cases hv.1
      · intro v _ hv; cases hv.1
      · intro v hv; cases hv.1
      · intro v hv; cases hv.1
      · intro v hv; cases hv
    obtain ⟨k', hk', hf⟩ := renderAll_ok (out := out) (a0 := a0) h hc hs hp hm
      (fun v => out v && (T v).size == g.size) rfl rfl g.sched [] _ rfl hI (fun v hv => by cases hv)
    simp only [hk']
    refine ⟨by simp, ?_⟩
    intro a' o heq v hv ho hsz s hsv
    simp only [Outcome.ok.injEq, Prod.mk.injEq] at heq
    rw [← heq.2]
    exact hf v hv (by simp [ho, hsz]) s hsv

end

end Verif.LocalArr
