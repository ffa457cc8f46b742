import Verif.Freeze.Model
import Mathlib.Tactic.Common
import Mathlib.Tactic.SplitIfs

/-!
# Which arrays a recording can depend on
-/

namespace Verif.Freeze

/-! ## Specification -/

/-- The arrays whose contents or addresses a call receives. -/
def Cmd.reads : Cmd → List Nat
  | .launch _ _ ps => (ps.filter fun p => decide (p.kind ≠ .output)).map (·.arr)
  | .memset _ _ _ _ => []
  | .memcpy _ src _ | .memcpySync _ src _ => [src]
  | .compress src _ _ => [src]
  | .mkperm src _ _ _ _ _ => [src]
  | .blockReduce _ _ _ _ src _ => [src]
  | .prefixReduce _ _ _ _ _ _ src _ => [src]
  | .reduceBool _ _ src _ => [src]
  | .dot _ x y _ _ => [x, y]
  | .gemm _ _ _ _ _ _ _ A B _ => [A, B]
  | .aggregate _ _ es => es.filterMap fun | .ptr _ x => some x | .val _ x _ => some x | _ => none
  | .opaqueWidth src _ _ _ => [src]
  | .undef _ _ _ => []
  | .barrier => []
  | .free _ => []

/-- Calls receive arrays that exist, and write new arrays; `live` are the arrays that exist at the
beginning. -/
def Fresh : List Nat → List Cmd → Prop
  | _, [] => True
  | live, c :: cs =>
    (∀ x ∈ c.reads, x ∈ live) ∧ (∀ x ∈ c.outs, x ∉ live) ∧ Fresh (c.live live) cs

/-- The calls that satisfy `P` only receive arrays in `known` (the arguments of the function)
and arrays that an earlier call wrote. -/
def SelfContained (P : Cmd → Prop) : List Nat → List Cmd → Prop
  | _, [] => True
  | known, c :: cs => (P c → ∀ x ∈ c.reads, x ∈ known) ∧ SelfContained P (c.outs ++ known) cs

/-! ## Preservation -/

/-- What the elementary changes of a recording preserve, a call preserves. -/
theorem recordCmd_induct {addr : Nat → Nat} (P : Rec → Prop) {live : List Nat} {c : Cmd}
    (hvar : ∀ r p, P r → P (addVariable r p).1)
    (hout : ∀ r x vt, x ∈ c.outs → P r → P (addOutParam r (addr x) vt).1)
    (hpush : ∀ r op, P r → P (r.push op))
    (hdry : ∀ r b, P r → P { r with dry := b })
    (hfree : ∀ r x, c = .free x → P r → P (recordFree addr r x))
    {r r1 : Rec} (h : P r) (hr : recordCmd addr live r c = some r1) : P r1 := by
  cases c with
  | launch k n ps =>
    simp only [recordCmd, recordLaunch] at hr
    rw [Option.map_eq_some_iff] at hr
    obtain ⟨x, hx, rfl⟩ := hr
    apply hpush
    have key : ∀ (qs : List Param) (r : Rec) (i q : Nat) (as : List Access)
        (x : Rec × Nat × Nat × List Access), (∀ p ∈ qs, p ∈ ps) → P r →
        recordParams addr n qs r i q as = some x → P x.1 := by
      intro qs
      induction qs with
      | nil =>
        intro r i q as x _ h hx
        cases hx
        exact h
      | cons p qs ih =>
        intro r i q as x hs h hx
        unfold recordParams at hx
        rw [Option.bind_eq_some_iff] at hx
        obtain ⟨y, hy, hx⟩ := hx
        refine ih _ _ _ _ _ (fun p hp => hs p (List.mem_cons_of_mem _ hp)) ?_ hx
        unfold recordParam at hy
        split at hy
        · rw [Option.bind_eq_some_iff] at hy
          obtain ⟨s, _, hy⟩ := hy
          rw [Option.map_eq_some_iff] at hy
          obtain ⟨a, _, rfl⟩ := hy
          exact h
        · rw [Option.bind_eq_some_iff] at hy
          obtain ⟨s, _, hy⟩ := hy
          rw [Option.map_eq_some_iff] at hy
          obtain ⟨a, _, rfl⟩ := hy
          exact h
        · rename_i hk
          cases hy
          refine hout r p.arr p.vt ?_ h
          exact List.mem_map_of_mem (List.mem_filter.2 ⟨hs p (List.mem_cons_self ..), by simpa using hk⟩)
    exact key ps r 0 0 [] x (fun _ hp => hp) h hx
  | memset x size isize v =>
    simp only [recordCmd, recordMemset, Option.some.injEq] at hr
    subst hr
    exact hpush _ _ (hout _ _ _ (List.mem_cons_self ..) h)
  | memcpy dst src b =>
    simp only [recordCmd, recordMemcpy] at hr
    rw [Option.bind_eq_some_iff] at hr
    obtain ⟨s, _, hr⟩ := hr
    rw [Option.map_eq_some_iff] at hr
    obtain ⟨a, _, rfl⟩ := hr
    exact hpush _ _ (hout r dst _ (List.mem_cons_self ..) h)
  | memcpySync dst src b =>
    simp only [recordCmd, Option.some.injEq] at hr
    exact hr ▸ h
  | compress src s out =>
    simp only [recordCmd, recordCompress] at hr
    rw [Option.map_eq_some_iff] at hr
    obtain ⟨a, _, rfl⟩ := hr
    exact hpush _ _ (hout _ _ _ (List.mem_cons_self ..) h)
  | mkperm src s bs buckets perm offs =>
    simp only [recordCmd, recordMkperm] at hr
    split at hr
    · rw [Option.map_eq_some_iff] at hr
      obtain ⟨a, _, rfl⟩ := hr
      exact hpush _ _ (hout _ _ _ (List.mem_cons_of_mem _ (List.mem_cons_self ..))
        (hout _ _ _ (List.mem_cons_self ..) h))
    · cases hr
      exact h
  | blockReduce vt rop s bs src out =>
    simp only [recordCmd, recordBlockReduce] at hr
    rw [Option.map_eq_some_iff] at hr
    obtain ⟨a, _, rfl⟩ := hr
    exact hdry _ _ (hpush _ _ (hout _ _ _ (List.mem_cons_self ..) h))
  | prefixReduce vt rop s bs ex rev src out =>
    simp only [recordCmd, recordPrefixReduce] at hr
    rw [Option.map_eq_some_iff] at hr
    obtain ⟨a, _, rfl⟩ := hr
    exact hdry _ _ (hpush _ _ (hout _ _ _ (List.mem_cons_self ..) h))
  | reduceBool rop s src out =>
    simp only [recordCmd, recordReduceBool] at hr
    rw [Option.map_eq_some_iff] at hr
    obtain ⟨a, _, rfl⟩ := hr
    exact hpush _ _ (hout _ _ _ (List.mem_cons_self ..) h)
  | dot vt x y s out =>
    simp only [recordCmd, recordDot] at hr
    rw [Option.bind_eq_some_iff] at hr
    obtain ⟨a, _, hr⟩ := hr
    rw [Option.map_eq_some_iff] at hr
    obtain ⟨b, _, rfl⟩ := hr
    exact hpush _ _ (hout _ _ _ (List.mem_cons_self ..) h)
  | gemm vt flags M N K grid batch A B C =>
    simp only [recordCmd, recordGemm] at hr
    rw [Option.bind_eq_some_iff] at hr
    obtain ⟨a, _, hr⟩ := hr
    rw [Option.map_eq_some_iff] at hr
    obtain ⟨b, _, rfl⟩ := hr
    exact hdry _ _ (hpush _ _ (hout _ _ _ (List.mem_cons_self ..) h))
  | aggregate dst total es =>
    simp only [recordCmd, recordAggregate] at hr
    rw [Option.map_eq_some_iff] at hr
    obtain ⟨x, hx, rfl⟩ := hr
    apply hpush
    have key : ∀ (es : List Entry) (r : Rec) (as : List Access) (x : Rec × List Access), P r →
        recordEntries addr (fun v => (dst :: live).any fun x => decide (addr x = v)) es r as =
          some x → P x.1 := by
      intro es
      induction es with
      | nil =>
        intro r as x h hx
        cases hx
        exact h
      | cons e es ih =>
        intro r as x h hx
        unfold recordEntries at hx
        rw [Option.bind_eq_some_iff] at hx
        obtain ⟨y, hy, hx⟩ := hx
        refine ih _ _ _ ?_ hx
        unfold recordEntry at hy
        split at hy
        · split at hy
          · rw [Option.map_eq_some_iff] at hy
            obtain ⟨a, _, rfl⟩ := hy
            exact hvar _ _ h
          · cases hy
            exact h
        · split at hy
          · rw [Option.map_eq_some_iff] at hy
            obtain ⟨a, _, rfl⟩ := hy
            exact hvar _ _ h
          · cases hy
            exact h
        · rw [Option.map_eq_some_iff] at hy
          obtain ⟨a, _, rfl⟩ := hy
          exact hvar _ _ h
    exact key es _ _ _ (hout _ _ _ (List.mem_cons_self ..) h) hx
  | opaqueWidth src vt s out =>
    simp only [recordCmd, recordOpaqueWidth] at hr
    rw [Option.map_eq_some_iff] at hr
    obtain ⟨a, _, rfl⟩ := hr
    exact hpush _ _ (hout _ _ _ (List.mem_cons_self ..) h)
  | undef x vt s =>
    simp only [recordCmd, recordUndef, Option.some.injEq] at hr
    subst hr
    exact hpush _ _ (hout _ _ _ (List.mem_cons_self ..) h)
  | barrier =>
    simp only [recordCmd, Option.some.injEq] at hr
    subst hr
    exact hpush _ _ h
  | free x =>
    simp only [recordCmd, Option.some.injEq] at hr
    subst hr
    exact hfree _ _ rfl h

/-! ## Tracked arrays -/

/-- Initialized slots belong to known arrays. -/
structure Tracks (addr : Nat → Nat) (live known : List Nat) (r : Rec) : Prop where
  lt : ∀ p s, r.map p = some s → s < r.n
  inj : ∀ p q s, r.map p = some s → r.map q = some s → p = q
  tracked : ∀ p s, r.map p = some s → (r.var s).state ≠ .uninit →
    ∃ x ∈ live, x ∈ known ∧ addr x = p

/-- A slot that has no value, and is that of an array that exists. -/
def Bad (addr : Nat → Nat) (live : List Nat) (s : Nat) (r : Rec) : Prop :=
  s < r.n ∧ (r.var s).state = .uninit ∧ ∀ p, r.map p = some s → ∃ x ∈ live, addr x = p

variable {addr : Nat → Nat} {live known : List Nat} {r r1 : Rec} {s : Nat}

theorem Tracks.addVariable (h : Tracks addr live known r) (p : Nat) :
    Tracks addr live known (Verif.Freeze.addVariable r p).1 := by
  unfold Verif.Freeze.addVariable
  cases hm : r.map p with
  | some s => exact h
  | none =>
    refine ⟨?_, ?_, ?_⟩
    · intro q s hq
      show s < r.n + 1
      by_cases e : q = p
      · simp only [e, if_true, Option.some.injEq] at hq
        omega
      · simp only [e, if_false] at hq
        have := h.lt q s hq
        omega
    · intro q q' s h1 h2
      by_cases e1 : q = p
      · by_cases e2 : q' = p
        · exact e1.trans e2.symm
        · simp only [e1, if_true, Option.some.injEq] at h1
          simp only [e2, if_false] at h2
          have := h.lt q' s h2
          omega
      · by_cases e2 : q' = p
        · simp only [e2, if_true, Option.some.injEq] at h2
          simp only [e1, if_false] at h1
          have := h.lt q s h1
          omega
        · simp only [e1, e2, if_false] at h1 h2
          exact h.inj q q' s h1 h2
    · intro q s hq hs
      have hs : (if s = r.n then ({} : RVar) else r.var s).state ≠ .uninit := hs
      by_cases e : q = p
      · simp only [e, if_true, Option.some.injEq] at hq
        rw [if_pos hq.symm] at hs
        exact absurd rfl hs
      · simp only [e, if_false] at hq
        have := h.lt q s hq
        rw [if_neg (by omega)] at hs
        exact h.tracked q s hq hs

theorem addVariable_map (r : Rec) (p : Nat) :
    (addVariable r p).1.map p = some (addVariable r p).2 := by
  unfold addVariable
  cases hm : r.map p with
  | some s => exact hm
  | none => simp

theorem Tracks.addOutParam (h : Tracks addr live known r) {x : Nat} (vt : Nat) (h1 : x ∈ live)
    (h2 : x ∈ known) : Tracks addr live known (Verif.Freeze.addOutParam r (addr x) vt).1 := by
  have h3 := h.addVariable (addr x)
  have h4 := addVariable_map r (addr x)
  unfold Verif.Freeze.addOutParam
  generalize Verif.Freeze.addVariable r (addr x) = q at h3 h4
  refine ⟨h3.lt, h3.inj, ?_⟩
  intro p s hp hs
  have hp : q.1.map p = some s := hp
  by_cases e : s = q.2
  · subst e
    exact ⟨x, h1, h2, h3.inj _ _ _ h4 hp⟩
  · refine h3.tracked p s hp ?_
    have hs : (if s = q.2 then _ else q.1.var s).state ≠ .uninit := hs
    rwa [if_neg e] at hs

theorem Tracks.weaken (h : Tracks addr live known r) {live' known' : List Nat}
    (h1 : ∀ x ∈ live, x ∈ live') (h2 : ∀ x ∈ known, x ∈ known') : Tracks addr live' known' r where
  lt := h.lt
  inj := h.inj
  tracked := fun p s a b => by
    obtain ⟨x, hx, hk, e⟩ := h.tracked p s a b
    exact ⟨x, h1 x hx, h2 x hk, e⟩

theorem Tracks.free (h : Tracks addr live known r) (x : Nat) :
    Tracks addr (live.filter fun y => decide (y ≠ x)) known (recordFree addr r x) := by
  unfold recordFree
  refine ⟨?_, ?_, ?_⟩
  · intro p s hp
    by_cases e : p = addr x
    · simp only [e, if_true] at hp
      cases hp
    · simp only [e, if_false] at hp
      exact h.lt p s hp
  · intro p q s hp hq
    by_cases e : p = addr x
    · simp only [e, if_true] at hp
      cases hp
    · by_cases e2 : q = addr x
      · simp only [e2, if_true] at hq
        cases hq
      · simp only [e, e2, if_false] at hp hq
        exact h.inj p q s hp hq
  · intro p s hp hs
    by_cases e : p = addr x
    · simp only [e, if_true] at hp
      cases hp
    · simp only [e, if_false] at hp
      obtain ⟨y, h1, h2, h3⟩ := h.tracked p s hp hs
      refine ⟨y, List.mem_filter.2 ⟨h1, ?_⟩, h2, h3⟩
      have : y ≠ x := by
        rintro rfl
        exact e h3.symm
      simpa using this

/-- The invariant after a call. -/
theorem Tracks.cmd {c : Cmd} (h : Tracks addr live known r)
    (hr : recordCmd addr live r c = some r1) :
    Tracks addr (c.live live) (c.outs ++ known) r1 := by
  by_cases hf : ∃ x, c = .free x
  · obtain ⟨x, rfl⟩ := hf
    simp only [recordCmd, Option.some.injEq] at hr
    subst hr
    exact h.free x
  · have hl : c.live live = c.outs ++ live := by
      cases c <;> first | rfl | exact absurd ⟨_, rfl⟩ hf
    rw [hl]
    refine recordCmd_induct (Tracks addr (c.outs ++ live) (c.outs ++ known))
      (fun r p h => h.addVariable p) ?_ (fun r op h => ⟨h.lt, h.inj, h.tracked⟩)
      (fun r b h => ⟨h.lt, h.inj, h.tracked⟩) (fun r x e => absurd ⟨x, e⟩ hf) ?_ hr
    · intro r x vt hx h
      exact h.addOutParam vt (List.mem_append.2 (Or.inl hx)) (List.mem_append.2 (Or.inl hx))
    · exact h.weaken (fun x hx => List.mem_append.2 (Or.inr hx))
        fun x hx => List.mem_append.2 (Or.inr hx)

theorem Bad.addVariable (h : Bad addr live s r) (p : Nat) :
    Bad addr live s (Verif.Freeze.addVariable r p).1 := by
  unfold Verif.Freeze.addVariable
  cases hm : r.map p with
  | some s => exact h
  | none =>
    have hs := h.1
    refine ⟨Nat.lt_succ_of_lt h.1, ?_, ?_⟩
    · show (if s = r.n then ({} : RVar) else r.var s).state = .uninit
      split
      · rfl
      · exact h.2.1
    · intro q hq
      by_cases e : q = p
      · simp only [e, if_true, Option.some.injEq] at hq
        omega
      · simp only [e, if_false] at hq
        exact h.2.2 q hq

theorem Bad.addOutParam (h : Bad addr live s r) {x : Nat} (vt : Nat)
    (hx : ∀ y ∈ live, addr y ≠ addr x) :
    Bad addr live s (Verif.Freeze.addOutParam r (addr x) vt).1 := by
  have h3 := h.addVariable (addr x)
  have h4 := addVariable_map r (addr x)
  unfold Verif.Freeze.addOutParam
  generalize Verif.Freeze.addVariable r (addr x) = q at h3 h4
  refine ⟨h3.1, ?_, h3.2.2⟩
  show (if s = q.2 then _ else q.1.var s).state = .uninit
  have e : s ≠ q.2 := by
    intro e
    obtain ⟨y, hy, e2⟩ := h3.2.2 (addr x) (e ▸ h4)
    exact hx y hy e2
  rw [if_neg e]
  exact h3.2.1

theorem Bad.weaken (h : Bad addr live s r) {live' : List Nat} (hl : ∀ x ∈ live, x ∈ live') :
    Bad addr live' s r :=
  ⟨h.1, h.2.1, fun p hp => by
    obtain ⟨x, hx, e⟩ := h.2.2 p hp
    exact ⟨x, hl x hx, e⟩⟩

theorem Bad.cmd {c : Cmd} (h : Bad addr live s r) (hap : Apart addr (c.outs ++ live))
    (hf : ∀ x ∈ c.outs, x ∉ live) (hr : recordCmd addr live r c = some r1) :
    Bad addr (c.live live) s r1 := by
  by_cases hf' : ∃ x, c = .free x
  · obtain ⟨x, rfl⟩ := hf'
    simp only [recordCmd, Option.some.injEq] at hr
    subst hr
    refine ⟨h.1, h.2.1, ?_⟩
    intro p hp
    have hp : (if p = addr x then none else r.map p) = some s := hp
    by_cases e : p = addr x
    · rw [if_pos e] at hp
      cases hp
    · rw [if_neg e] at hp
      obtain ⟨y, h1, h2⟩ := h.2.2 p hp
      refine ⟨y, List.mem_filter.2 ⟨h1, ?_⟩, h2⟩
      have : y ≠ x := by
        rintro rfl
        exact e h2.symm
      simpa using this
  · have hl : c.live live = c.outs ++ live := by
      cases c <;> first | rfl | exact absurd ⟨_, rfl⟩ hf'
    rw [hl]
    refine Bad.weaken (live := live) ?_ fun x hx => List.mem_append.2 (Or.inr hx)
    refine recordCmd_induct (Bad addr live s) (fun r p h => h.addVariable p) ?_
      (fun r op h => h) (fun r b h => h) (fun r x e => absurd ⟨x, e⟩ hf') h hr
    intro r x vt hx h
    refine h.addOutParam vt fun y hy e => ?_
    have := hap y (List.mem_append.2 (Or.inr hy)) x (List.mem_append.2 (Or.inl hx)) e
    exact hf x hx (this ▸ hy)

theorem Bad.all {tr : List Cmd} (h : Bad addr live s r) (hp : Placed addr live tr)
    (hf : Fresh live tr) : (recordAll addr live r tr).n > s ∧
      ((recordAll addr live r tr).var s).state = .uninit := by
  induction tr generalizing live r with
  | nil => exact ⟨h.1, h.2.1⟩
  | cons c cs ih =>
    unfold recordAll
    refine ih ?_ hp.2.2 hf.2.2
    cases hc : recordCmd addr live r c with
    | some r1 => exact h.cmd hp.1 hf.2.1 hc
    | none =>
      have : Bad addr live s { r with exn := true } := h
      refine this.weaken ?_
      cases c with
      | free x => cases hc
      | _ => exact fun x hx => List.mem_append.2 (Or.inr hx)

theorem exn_all {tr : List Cmd} (h : r.exn = true) : (recordAll addr live r tr).exn = true := by
  induction tr generalizing live r with
  | nil => exact h
  | cons c cs ih =>
    unfold recordAll
    apply ih
    cases hc : recordCmd addr live r c with
    | none => rfl
    | some r1 =>
      refine recordCmd_induct (fun r => r.exn = true) ?_ ?_ (fun r op h => h) (fun r b h => h)
        (fun r x e h => h) h hc
      · intro r p h
        unfold addVariable
        split <;> exact h
      · intro r x vt _ h
        unfold addOutParam addVariable
        split <;> exact h

/-! ## What an accepted call reads -/

/-- An array that was read and tested. -/
theorem read_known {x vt : Nat} {p : Bool} {a : Access} {outs : List Nat}
    (h : Tracks addr (outs ++ live) (outs ++ known) r) (hap : Apart addr (outs ++ live))
    (hf : ∀ y ∈ outs, y ∉ live) (hx : x ∈ live) (hm : r.map (addr x) = some s)
    (ha : addInput r { slot := s, ptype := .input, vtype := vt, ptrAccess := p } = some a) :
    x ∈ known := by
  unfold addInput at ha
  have hs : (r.var s).state ≠ .uninit := by
    intro e
    rw [if_pos ⟨rfl, e⟩] at ha
    cases ha
  obtain ⟨y, h1, h2, h3⟩ := h.tracked _ _ hm hs
  have := hap y h1 x (List.mem_append.2 (Or.inr hx)) h3
  subst this
  rcases List.mem_append.1 h2 with h2 | h2
  · exact absurd hx (hf y h2)
  · exact h2

theorem inParam_known {x vt : Nat} {a : Access} {outs : List Nat}
    (h : Tracks addr (outs ++ live) (outs ++ known) r) (hap : Apart addr (outs ++ live))
    (hf : ∀ y ∈ outs, y ∉ live) (hx : x ∈ live) (ha : addInParam r (addr x) vt = some a) :
    x ∈ known := by
  unfold addInParam getVariable at ha
  rw [Option.bind_eq_some_iff] at ha
  obtain ⟨s, hs, ha⟩ := ha
  exact read_known h hap hf hx hs ha

theorem params_known {size : Nat} {outs : List Nat} (hap : Apart addr (outs ++ live))
    (hf : ∀ y ∈ outs, y ∉ live) {ps : List Param}
    (h : Tracks addr (outs ++ live) (outs ++ known) r)
    (ho : ∀ p ∈ ps, p.kind = .output → p.arr ∈ outs)
    (hx : ∀ p ∈ ps, p.kind ≠ .output → p.arr ∈ live) {i q : Nat} {as : List Access}
    {x : Rec × Nat × Nat × List Access} (hr : recordParams addr size ps r i q as = some x) :
    ∀ p ∈ ps, p.kind ≠ .output → p.arr ∈ known := by
  induction ps generalizing r i q as with
  | nil =>
    intro p hp
    cases hp
  | cons p ps ih =>
    unfold recordParams at hr
    rw [Option.bind_eq_some_iff] at hr
    obtain ⟨y, hy, hr⟩ := hr
    have key : Tracks addr (outs ++ live) (outs ++ known) y.1 ∧
        (p.kind ≠ .output → p.arr ∈ known) := by
      unfold recordParam getVariable at hy
      split at hy
      · rename_i hk
        rw [Option.bind_eq_some_iff] at hy
        obtain ⟨s, hs, hy⟩ := hy
        rw [Option.map_eq_some_iff] at hy
        obtain ⟨a, ha, rfl⟩ := hy
        exact ⟨h, fun hne => read_known h hap hf (hx p (List.mem_cons_self ..) hne) hs ha⟩
      · rename_i hk
        rw [Option.bind_eq_some_iff] at hy
        obtain ⟨s, hs, hy⟩ := hy
        rw [Option.map_eq_some_iff] at hy
        obtain ⟨a, ha, rfl⟩ := hy
        exact ⟨h, fun hne => read_known h hap hf (hx p (List.mem_cons_self ..) hne) hs ha⟩
      · rename_i hk
        cases hy
        have := ho p (List.mem_cons_self ..) hk
        exact ⟨h.addOutParam _ (List.mem_append.2 (Or.inl this)) (List.mem_append.2 (Or.inl this)),
          fun hne => absurd hk hne⟩
    intro p' hp' hk
    rcases List.mem_cons.1 hp' with rfl | hp'
    · exact key.2 hk
    · exact ih key.1 (fun p hp => ho p (List.mem_cons_of_mem _ hp))
        (fun p hp => hx p (List.mem_cons_of_mem _ hp)) hr p' hp' hk

/-- A pointer in a parameter block: the array is known, or its slot remains without value. -/
theorem entry_known {x : Nat} (h : Tracks addr live known r) (hap : Apart addr live)
    (hx : x ∈ live) : x ∈ known ∨ ∃ s, Bad addr live s (addVariable r (addr x)).1 := by
  have h2 := h.addVariable (addr x)
  have h3 := addVariable_map r (addr x)
  generalize addVariable r (addr x) = q at h2 h3
  by_cases hs : (q.1.var q.2).state = .uninit
  · refine Or.inr ⟨q.2, h2.lt _ _ h3, hs, fun p hp => ⟨x, hx, ?_⟩⟩
    exact h2.inj _ _ _ h3 hp
  · obtain ⟨y, hy, hk, e⟩ := h2.tracked _ _ h3 hs
    have := hap y hy x hx e
    exact Or.inl (this ▸ hk)

theorem entries_known {isAlloc : Nat → Bool} {es : List Entry} (hap : Apart addr live)
    (hal : ∀ x ∈ live, isAlloc (addr x) = true) (h : Tracks addr live known r)
    (hx : ∀ x ∈ (Cmd.aggregate 0 0 es).reads, x ∈ live) {as : List Access}
    {z : Rec × List Access} (hr : recordEntries addr isAlloc es r as = some z) :
    (∀ x ∈ (Cmd.aggregate 0 0 es).reads, x ∈ known) ∨ ∃ s, Bad addr live s z.1 := by
  have bad : ∀ (es : List Entry) (r : Rec) (as : List Access) (z : Rec × List Access) (s : Nat),
      Bad addr live s r → recordEntries addr isAlloc es r as = some z → Bad addr live s z.1 := by
    intro es
    induction es with
    | nil =>
      intro r as z s h hr
      cases hr
      exact h
    | cons e es ih =>
      intro r as z s h hr
      unfold recordEntries at hr
      rw [Option.bind_eq_some_iff] at hr
      obtain ⟨y, hy, hr⟩ := hr
      refine ih _ _ _ _ ?_ hr
      unfold recordEntry at hy
      split at hy
      · split at hy
        · rw [Option.map_eq_some_iff] at hy
          obtain ⟨a, _, rfl⟩ := hy
          exact h.addVariable _
        · cases hy
          exact h
      · split at hy
        · rw [Option.map_eq_some_iff] at hy
          obtain ⟨a, _, rfl⟩ := hy
          exact h.addVariable _
        · cases hy
          exact h
      · rw [Option.map_eq_some_iff] at hy
        obtain ⟨a, _, rfl⟩ := hy
        exact h.addVariable _
  induction es generalizing r as with
  | nil => exact Or.inl fun x hx => by cases hx
  | cons e es ih =>
    unfold recordEntries at hr
    rw [Option.bind_eq_some_iff] at hr
    obtain ⟨y, hy, hr⟩ := hr
    have rest : ∀ x ∈ (Cmd.aggregate 0 0 es).reads, x ∈ (Cmd.aggregate 0 0 (e :: es)).reads := by
      intro x hx
      obtain ⟨e', he, hx⟩ := List.mem_filterMap.1 hx
      exact List.mem_filterMap.2 ⟨e', List.mem_cons_of_mem _ he, hx⟩
    have key : Tracks addr live known y.1 ∧
        ((∀ x, x ∈ (Cmd.aggregate 0 0 [e]).reads → x ∈ known) ∨ ∃ s, Bad addr live s y.1) := by
      cases e with
      | lit off size v =>
        refine ⟨?_, Or.inl fun x hx => by cases hx⟩
        unfold recordEntry at hy
        simp only at hy
        split at hy
        · rw [Option.map_eq_some_iff] at hy
          obtain ⟨a, _, rfl⟩ := hy
          exact h.addVariable _
        · cases hy
          exact h
      | ptr off x =>
        have hxl : x ∈ live := hx x (List.mem_cons_self ..)
        unfold recordEntry at hy
        simp only [hal x hxl, if_true] at hy
        rw [Option.map_eq_some_iff] at hy
        obtain ⟨a, _, rfl⟩ := hy
        refine ⟨h.addVariable _, ?_⟩
        rcases entry_known h hap hxl with hk | hb
        · refine Or.inl fun x' hx' => ?_
          simp only [Cmd.reads, List.filterMap_cons, List.filterMap_nil, List.mem_singleton] at hx'
          exact hx' ▸ hk
        · exact Or.inr hb
      | val off x size =>
        have hxl : x ∈ live := hx x (List.mem_cons_self ..)
        unfold recordEntry at hy
        simp only at hy
        rw [Option.map_eq_some_iff] at hy
        obtain ⟨a, _, rfl⟩ := hy
        refine ⟨h.addVariable _, ?_⟩
        rcases entry_known h hap hxl with hk | hb
        · refine Or.inl fun x' hx' => ?_
          simp only [Cmd.reads, List.filterMap_cons, List.filterMap_nil, List.mem_singleton] at hx'
          exact hx' ▸ hk
        · exact Or.inr hb
    rcases key.2 with hk | ⟨s, hb⟩
    · rcases ih key.1 (fun x hx' => hx x (rest x hx')) hr with h1 | h1
      · refine Or.inl fun x hx' => ?_
        obtain ⟨e', he, hxe⟩ := List.mem_filterMap.1 hx'
        rcases List.mem_cons.1 he with rfl | he
        · exact hk x (List.mem_filterMap.2 ⟨e', List.mem_cons_self .., hxe⟩)
        · exact h1 x (List.mem_filterMap.2 ⟨e', he, hxe⟩)
      · exact Or.inr h1
    · exact Or.inr ⟨s, bad es _ _ _ s hb hr⟩

/-- Calls that test the arrays that they receive. -/
def Cmd.tests : Cmd → Prop
  | .memcpySync _ _ _ => False
  | .mkperm _ _ _ _ _ _ => False
  | _ => True

theorem cmd_known {c : Cmd} (h : Tracks addr live known r) (hap : Apart addr (c.outs ++ live))
    (hf : ∀ x ∈ c.outs, x ∉ live) (hx : ∀ x ∈ c.reads, x ∈ live)
    (hr : recordCmd addr live r c = some r1) (ht : c.tests) :
    (∀ x ∈ c.reads, x ∈ known) ∨ ∃ s, Bad addr (c.live live) s r1 := by
  have h' : Tracks addr (c.outs ++ live) (c.outs ++ known) r :=
    h.weaken (fun x hx => List.mem_append.2 (Or.inr hx)) fun x hx => List.mem_append.2 (Or.inr hx)
  have hout : ∀ x ∈ c.outs, ∀ vt,
      Tracks addr (c.outs ++ live) (c.outs ++ known) (addOutParam r (addr x) vt).1 :=
    fun x hx vt => h'.addOutParam vt (List.mem_append.2 (Or.inl hx)) (List.mem_append.2 (Or.inl hx))
  cases c with
  | launch k n ps =>
    refine Or.inl ?_
    simp only [recordCmd, recordLaunch] at hr
    rw [Option.map_eq_some_iff] at hr
    obtain ⟨z, hz, rfl⟩ := hr
    have := params_known hap hf h'
      (fun p hp hk => List.mem_map_of_mem (List.mem_filter.2 ⟨hp, by simpa using hk⟩))
      (fun p hp hk => hx _ (List.mem_map_of_mem (List.mem_filter.2 ⟨hp, by simpa using hk⟩))) hz
    intro x hxr
    obtain ⟨p, hp, rfl⟩ := List.mem_map.1 hxr
    obtain ⟨hp, hk⟩ := List.mem_filter.1 hp
    exact this p hp (by simpa using hk)
  | memset x size isize v => exact Or.inl fun x hx => by cases hx
  | memcpy dst src b =>
    refine Or.inl ?_
    simp only [recordCmd, recordMemcpy, getVariable] at hr
    rw [Option.bind_eq_some_iff] at hr
    obtain ⟨s, hs, hr⟩ := hr
    rw [Option.map_eq_some_iff] at hr
    obtain ⟨a, ha, rfl⟩ := hr
    intro x hxr
    simp only [Cmd.reads, List.mem_singleton] at hxr
    subst hxr
    refine read_known (h'.addVariable (addr dst)) hap hf (hx x (List.mem_cons_self ..)) ?_ ha
    unfold addVariable
    cases hm : r.map (addr dst) with
    | some _ => exact hs
    | none =>
      have : addr x ≠ addr dst := by
        intro e
        rw [e, hm] at hs
        cases hs
      simp only [this, if_false]
      exact hs
  | memcpySync dst src b => exact ht.elim
  | compress src s out =>
    refine Or.inl ?_
    simp only [recordCmd, recordCompress] at hr
    rw [Option.map_eq_some_iff] at hr
    obtain ⟨a, ha, rfl⟩ := hr
    intro x hxr
    simp only [Cmd.reads, List.mem_singleton] at hxr
    subst hxr
    exact inParam_known h' hap hf (hx x (List.mem_cons_self ..)) ha
  | mkperm src s bs buckets perm offs => exact ht.elim
  | blockReduce vt rop s bs src out =>
    refine Or.inl ?_
    simp only [recordCmd, recordBlockReduce] at hr
    rw [Option.map_eq_some_iff] at hr
    obtain ⟨a, ha, rfl⟩ := hr
    intro x hxr
    simp only [Cmd.reads, List.mem_singleton] at hxr
    subst hxr
    exact inParam_known h' hap hf (hx x (List.mem_cons_self ..)) ha
  | prefixReduce vt rop s bs ex rev src out =>
    refine Or.inl ?_
    simp only [recordCmd, recordPrefixReduce] at hr
    rw [Option.map_eq_some_iff] at hr
    obtain ⟨a, ha, rfl⟩ := hr
    intro x hxr
    simp only [Cmd.reads, List.mem_singleton] at hxr
    subst hxr
    exact inParam_known h' hap hf (hx x (List.mem_cons_self ..)) ha
  | reduceBool rop s src out =>
    refine Or.inl ?_
    simp only [recordCmd, recordReduceBool] at hr
    rw [Option.map_eq_some_iff] at hr
    obtain ⟨a, ha, rfl⟩ := hr
    intro x hxr
    simp only [Cmd.reads, List.mem_singleton] at hxr
    subst hxr
    exact inParam_known h' hap hf (hx x (List.mem_cons_self ..)) ha
  | dot vt x y s out =>
    refine Or.inl ?_
    simp only [recordCmd, recordDot] at hr
    rw [Option.bind_eq_some_iff] at hr
    obtain ⟨a, ha, hr⟩ := hr
    rw [Option.map_eq_some_iff] at hr
    obtain ⟨b, hb, rfl⟩ := hr
    have hw := hout out (List.mem_cons_self ..) vt
    intro z hzr
    simp only [Cmd.reads, List.mem_cons, List.not_mem_nil, or_false] at hzr
    rcases hzr with rfl | rfl
    · exact inParam_known hw hap hf (hx z (List.mem_cons_self ..)) ha
    · exact inParam_known hw hap hf
        (hx z (List.mem_cons_of_mem _ (List.mem_cons_self ..))) hb
  | gemm vt flags M N K grid batch A B C =>
    refine Or.inl ?_
    simp only [recordCmd, recordGemm] at hr
    rw [Option.bind_eq_some_iff] at hr
    obtain ⟨a, ha, hr⟩ := hr
    rw [Option.map_eq_some_iff] at hr
    obtain ⟨b, hb, rfl⟩ := hr
    have hw := hout C (List.mem_cons_self ..) vt
    intro z hzr
    simp only [Cmd.reads, List.mem_cons, List.not_mem_nil, or_false] at hzr
    rcases hzr with rfl | rfl
    · exact inParam_known hw hap hf (hx z (List.mem_cons_self ..)) ha
    · exact inParam_known hw hap hf
        (hx z (List.mem_cons_of_mem _ (List.mem_cons_self ..))) hb
  | aggregate dst total es =>
    simp only [recordCmd, recordAggregate] at hr
    rw [Option.map_eq_some_iff] at hr
    obtain ⟨z, hz, rfl⟩ := hr
    have hw := hout dst (List.mem_cons_self ..) 4
    have hx' : ∀ x ∈ (Cmd.aggregate 0 0 es).reads, x ∈ live := hx
    have hal : ∀ x ∈ dst :: live,
        ((dst :: live).any fun y => decide (addr y = addr x)) = true :=
      fun x hxl => List.any_eq_true.2 ⟨x, hxl, by simp⟩
    rcases entries_known (live := dst :: live) (known := dst :: known) hap hal hw
      (fun x hxr => List.mem_cons_of_mem _ (hx' x hxr)) hz with h1 | ⟨s, hb⟩
    · refine Or.inl fun x hxr => ?_
      rcases List.mem_cons.1 (h1 x hxr) with rfl | h2
      · exact absurd (hx x hxr) (hf x (List.mem_cons_self ..))
      · exact h2
    · exact Or.inr ⟨s, hb⟩
  | opaqueWidth src vt s out =>
    refine Or.inl ?_
    simp only [recordCmd, recordOpaqueWidth] at hr
    rw [Option.map_eq_some_iff] at hr
    obtain ⟨a, ha, rfl⟩ := hr
    intro x hxr
    simp only [Cmd.reads, List.mem_singleton] at hxr
    subst hxr
    exact inParam_known h' hap hf (hx x (List.mem_cons_self ..)) ha
  | undef x vt s => exact Or.inl fun x hx => by cases hx
  | barrier => exact Or.inl fun x hx => by cases hx
  | free x => exact Or.inl fun x hx => by cases hx

theorem self_contained {tr : List Cmd} (h : Tracks addr live known r)
    (hp : Placed addr live tr) (hf : Fresh live tr)
    (he : (recordAll addr live r tr).exn = false)
    (hv : ∀ s, s < (recordAll addr live r tr).n →
      ((recordAll addr live r tr).var s).state ≠ .uninit) :
    SelfContained Cmd.tests known tr := by
  induction tr generalizing live known r with
  | nil => trivial
  | cons c cs ih =>
    unfold recordAll at he hv
    cases hc : recordCmd addr live r c with
    | none =>
      simp only [hc] at he
      rw [exn_all rfl] at he
      cases he
    | some r1 =>
      simp only [hc] at he hv
      refine ⟨fun ht => ?_, ih (h.cmd hc) hp.2.2 hf.2.2 he hv⟩
      rcases cmd_known h hp.1 hf.2.1 hf.1 hc ht with hk | ⟨s, hb⟩
      · exact hk
      · obtain ⟨h1, h2⟩ := hb.all hp.2.2 hf.2.2
        exact absurd h2 (hv s h1)

end Verif.Freeze
