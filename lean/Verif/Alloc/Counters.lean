import Verif.Alloc.Lemmas
import Mathlib.Tactic.Linarith
/-! The byte counters of the allocator. -/
namespace Verif.Alloc
open Verif.Arith

theorem sizeOf_cons (b : Backend) (x : Block) (l : List Block) :
    sizeOf b (x :: l) = (if x.info.backend = b then (x.info.size : Int) else 0) + sizeOf b l := by
  unfold sizeOf
  by_cases h : x.info.backend = b <;> simp [h]

theorem sizeOf_nil (b : Backend) : sizeOf b [] = 0 := by simp [sizeOf]

theorem sizeOf_append (b : Backend) (l l' : List Block) :
    sizeOf b (l ++ l') = sizeOf b l + sizeOf b l' := by
  induction l with
  | nil => simp [sizeOf_nil]
  | cons x l ih => rw [List.cons_append, sizeOf_cons, sizeOf_cons, ih]; omega

theorem sizeOf_perm (b : Backend) {l l' : List Block} (h : l.Perm l') : sizeOf b l = sizeOf b l' := by
  induction h with
  | nil => rfl
  | cons x _ ih => rw [sizeOf_cons, sizeOf_cons, ih]
  | swap x y l => simp only [sizeOf_cons]; omega
  | trans _ _ h1 h2 => rw [h1, h2]

theorem sizeOf_nonneg (b : Backend) (l : List Block) : 0 ≤ sizeOf b l := by
  induction l with
  | nil => simp [sizeOf_nil]
  | cons x l ih => rw [sizeOf_cons]; split <;> omega

theorem sizeOf_erase (b : Backend) {x : Block} {l : List Block} (h : x ∈ l) :
    sizeOf b (l.erase x) = sizeOf b l - (if x.info.backend = b then (x.info.size : Int) else 0) := by
  have := sizeOf_perm b (List.perm_cons_erase h)
  rw [sizeOf_cons] at this
  omega

theorem sizeOf_flush (s s1 : State) (fz : Bool) (h : s.flush fz = some s1) (b : Backend) :
    sizeOf b s1.owned = sizeOf b s.owned - sizeOf b s.free ∧
      s1.allocated b = s.allocated b - sizeOf b s.free ∧ s1.watermark = s.watermark ∧
      s1.usage = s.usage := by
  unfold State.flush at h
  split at h
  · cases h
  · cases h
    refine ⟨?_, rfl, rfl, rfl⟩
    simp only [State.owned, sizeOf_append, sizeOf_nil]
    omega

/-- usage counter = live bytes -/
def UsageOk (s : State) : Prop := ∀ b, s.usage b = sizeOf b s.used

/-- allocated counter − owned bytes (the drift) -/
def drift (s : State) (b : Backend) : Int := s.allocated b - sizeOf b s.owned

/-- What a call does to the counters. -/
structure CounterStep (r : Res) (s s' : State) : Prop where
  usage : UsageOk s → UsageOk s'
  /-- the drift never decreases, and it stays the same unless the call raises -/
  drift_le : ∀ b, drift s b ≤ drift s' b
  drift_eq : r ≠ .raise → ∀ b, drift s' b = drift s b
  /-- the watermark only grows, and dominates the allocated counter if it did so before -/
  mono : ∀ b, s.watermark b ≤ s'.watermark b
  dom : (∀ b, s.allocated b ≤ s.watermark b) → ∀ b, s'.allocated b ≤ s'.watermark b

theorem CounterStep.refl (r : Res) (s : State) : CounterStep r s s :=
  ⟨id, fun _ => Int.le_refl _, fun _ _ => rfl, fun _ => Int.le_refl _, id⟩

theorem CounterStep.trans {r1 r : Res} {s s1 s2 : State} (h1 : CounterStep r1 s s1)
    (h2 : CounterStep r s1 s2) (hr : r ≠ .raise → r1 ≠ .raise) : CounterStep r s s2 :=
  ⟨h2.usage ∘ h1.usage, fun b => Int.le_trans (h1.drift_le b) (h2.drift_le b),
    fun h b => (h2.drift_eq h b).trans (h1.drift_eq (hr h) b),
    fun b => Int.le_trans (h1.mono b) (h2.mono b), fun h => h2.dom (h1.dom h)⟩

theorem CounterStep.of_raise {r : Res} {s s' : State} (h : CounterStep .unit s s') :
    CounterStep r s s' := ⟨h.usage, h.drift_le, fun _ => h.drift_eq (by simp), h.mono, h.dom⟩

/-- Entering a new block. -/
theorem use_counters (s : State) (p : Nat) (i : Info) (h : ∀ b ∈ s.used, b.ptr ≠ p) (b : Backend) :
    (s.use p i).usage b - sizeOf b (s.use p i).used = s.usage b - sizeOf b s.used ∧
    sizeOf b (s.use p i).owned = (if i.backend = b then (i.size : Int) else 0) + sizeOf b s.owned ∧
    (s.use p i).allocated = s.allocated ∧ (s.use p i).watermark = s.watermark := by
  obtain ⟨h1, h2⟩ := owned_use s p i h
  refine ⟨?_, ?_, rfl, rfl⟩
  · rw [h2, sizeOf_cons]
    by_cases hb : i.backend = b
    · subst hb; simp [State.use, upd]; omega
    · have : ¬ b = i.backend := fun e => hb e.symm
      simp [State.use, upd, hb, this]
  · rw [h1, sizeOf_cons]

theorem bump_counters (s : State) (p : Nat) (i : Info) (h : ∀ b ∈ s.used, b.ptr ≠ p) (s' : State)
    (hs' : s' = ({ s with
      allocated := upd s.allocated i.backend (s.allocated i.backend + i.size)
      watermark := upd s.watermark i.backend
        (max (s.allocated i.backend + i.size) (s.watermark i.backend)) } : State).use p i) :
    CounterStep .unit s s' := by
  subst hs'
  have key := fun b => use_counters ({ s with
      allocated := upd s.allocated i.backend (s.allocated i.backend + i.size)
      watermark := upd s.watermark i.backend
        (max (s.allocated i.backend + i.size) (s.watermark i.backend)) } : State) p i h b
  generalize hu : ({ s with
      allocated := upd s.allocated i.backend (s.allocated i.backend + i.size)
      watermark := upd s.watermark i.backend
        (max (s.allocated i.backend + i.size) (s.watermark i.backend)) } : State).use p i = u at *
  have hown : ({ s with
      allocated := upd s.allocated i.backend (s.allocated i.backend + i.size)
      watermark := upd s.watermark i.backend
        (max (s.allocated i.backend + i.size) (s.watermark i.backend)) } : State).owned = s.owned := rfl
  simp only [hown] at key
  have hd : ∀ b, drift u b = drift s b := by
    intro b
    obtain ⟨_, k2, k3, _⟩ := key b
    unfold drift
    rw [k2, k3]
    simp only [upd]
    by_cases hb : b = i.backend
    · subst hb; simp; omega
    · have : ¬ i.backend = b := fun e => hb e.symm
      simp [hb, this]
  refine ⟨?_, fun b => Int.le_of_eq (hd b).symm, fun _ => hd, ?_, ?_⟩
  · intro hU b
    have := hU b
    have := (key b).1
    omega
  · intro b
    rw [(key b).2.2.2]
    simp only [upd]
    split
    · rename_i e; subst e; omega
    · omega
  · intro hw b
    rw [(key b).2.2.2, (key b).2.2.1]
    simp only [upd]
    split
    · rename_i e; subst e; omega
    · exact hw b

theorem flush_counters (s s1 : State) (fz : Bool) (h : s.flush fz = some s1) :
    CounterStep .unit s s1 := by
  have hu := (owned_flush s s1 fz h).2.1
  have key := sizeOf_flush s s1 fz h
  have hd : ∀ b, drift s1 b = drift s b := by
    intro b; obtain ⟨a1, a2, _⟩ := key b; unfold drift; rw [a1, a2]; omega
  refine ⟨?_, fun b => Int.le_of_eq (hd b).symm, fun _ => hd, ?_, ?_⟩
  · intro hU b; rw [(key b).2.2.2, hu]; exact hU b
  · intro b; rw [(key b).2.2.1]
  · intro hw b
    obtain ⟨_, a2, a3, _⟩ := key b
    rw [a2, a3]
    have := sizeOf_nonneg b s.free
    have := hw b
    omega

theorem malloc_counters (cfg : Cfg) (s : State) (hi : Inv s) (backend : Backend) (size : Nat)
    (shared : Bool) (device : Nat) (os1 os2 : Option Nat) (fz : Env)
    (hok : MallocOk cfg s backend size os1 os2 fz) :
    CounterStep (s.malloc cfg backend size shared device os1 os2 fz).1 s
      (s.malloc cfg backend size shared device os1 os2 fz).2 := by
  unfold State.malloc
  by_cases h0 : size = 0
  · rw [if_pos h0]; exact CounterStep.refl _ _
  rw [if_neg h0]
  simp only
  obtain ⟨r1, r2, r3, r4, _⟩ :=
    roundSize_ge cfg backend size (by omega) hok.size_le hok.width_le
  obtain ⟨_, _, hfr1, hfr2, hnf⟩ := hok
  generalize hsz : roundSize cfg backend size = sz at *
  generalize (if backend = Backend.none then false else shared) = sh
  generalize (if backend.isGpu = true then device else 0) = dev
  cases hfind' : (if fz.stale = true then none else
    s.free.find? (fun b => decide (b.info = (⟨sz, backend, sh, dev⟩ : Info)))) with
  | some b =>
    have hfind : s.free.find? (fun b => decide (b.info = (⟨sz, backend, sh, dev⟩ : Info))) = some b := by
      split at hfind'
      · cases hfind'
      · exact hfind'
    obtain ⟨hb1, hb2⟩ := find_mem hfind
    have hb2 : b.info = ⟨sz, backend, sh, dev⟩ := by simpa using hb2
    simp only
    have hne : ∀ c ∈ { s with free := s.free.erase b }.used, c.ptr ≠ b.ptr := by
      intro c hc e
      have hd := hi.disj
      have hperm : s.owned.Perm (b :: { s with free := s.free.erase b }.owned) := by
        apply perm_of_count
        intro a
        rw [count_cons', owned_count, owned_count]
        have := count_erase_add hb1 a
        simp only
        omega
      have hi2 := (hperm.pairwise_iff Block.disj_symm).1 hi.disj
      rw [List.pairwise_cons] at hi2
      have h1 := hi2.1 c (by simp [State.owned] at hc ⊢; simp [hc])
      have hp1 := (hi.pos b (by simp [State.owned, hb1])).2
      have hp2 := (hi.pos c (mem_owned_used hc)).2
      rw [Block.disj, e] at h1
      rcases h1 with h1 | h1 <;> omega
    have key := fun x => use_counters { s with free := s.free.erase b } b.ptr ⟨sz, backend, sh, dev⟩ hne x
    have hown : ∀ x, sizeOf x { s with free := s.free.erase b }.owned =
        sizeOf x s.owned - (if backend = x then (sz : Int) else 0) := by
      intro x
      simp only [State.owned, sizeOf_append, sizeOf_erase x hb1, hb2]
      omega
    have hd : ∀ x, drift (({ s with free := s.free.erase b } : State).use b.ptr ⟨sz, backend, sh, dev⟩) x
        = drift s x := by
      intro x
      obtain ⟨_, k2, k3, _⟩ := key x
      unfold drift
      rw [k2, k3, hown]
      simp only
      omega
    refine ⟨?_, fun x => Int.le_of_eq (hd x).symm, fun _ => hd, fun x => Int.le_refl _, fun h => h⟩
    intro hU x
    have := (key x).1
    have h3 := hU x
    simp only at this
    omega
  | none =>
    simp only
    have hraw : ∀ os q, (backend.isGpu = false → HUGEPAGE ≤ sz → os ≠ none) →
        rawAlloc backend sz os = some q → os = some q := by
      intro os q hn hq
      unfold rawAlloc at hq
      split at hq
      · exact hq
      · rename_i hg
        unfold alignedMalloc at hq
        split at hq
        · exact hq
        · split at hq
          · cases hq
          · exact absurd rfl (hn (by simpa using hg) (by omega))
    have hrawnone : ∀ os, rawAlloc backend sz os = none → os = none := by
      intro os hq
      unfold rawAlloc alignedMalloc at hq
      split at hq
      · exact hq
      · split at hq
        · cases hq
        · rfl
    cases hr1 : rawAlloc backend sz os1 with
    | some q =>
      simp only
      have ho := hraw os1 q hnf hr1
      exact (bump_counters s q ⟨sz, backend, sh, dev⟩ (disj_ne (hfr1 q ho) (by omega) hi) _ rfl).of_raise
    | none =>
      simp only
      have ho := hrawnone os1 hr1
      cases hfl : s.flush fz.freezing with
      | none => exact CounterStep.refl _ _
      | some s1 =>
        simp only
        obtain ⟨f1, f2, _⟩ := owned_flush s s1 fz.freezing hfl
        have hi1 := hi.sublist f1
        have c1 := flush_counters s s1 _ hfl
        cases hr2 : rawAlloc backend sz os2 with
        | some q =>
          simp only
          have hsmall : backend.isGpu = false → HUGEPAGE ≤ sz → os2 ≠ none := by
            intro a b; exact absurd ho (hnf a b)
          have ho2 := hraw os2 q hsmall hr2
          exact c1.trans (bump_counters s1 q ⟨sz, backend, sh, dev⟩
            (disj_ne (hfr2 q s1 hfl ho ho2) (by omega) hi1) _ rfl).of_raise (by simp)
        | none =>
          simp only
          refine c1.trans ⟨fun h => h, ?_, fun h => absurd rfl h, ?_, ?_⟩ (by simp)
          · intro b
            simp only [drift, State.owned, upd]
            split
            · rename_i e; subst e; omega
            · omega
          · intro b
            simp only [upd]
            split
            · rename_i e; subst e; omega
            · omega
          · intro hw b
            simp only [upd]
            split
            · rename_i e; subst e; omega
            · exact hw b

theorem CounterStep.of_perm {s s' : State} (hu : s'.usage = s.usage) (hus : s'.used = s.used)
    (ha : s'.allocated = s.allocated) (hw : s'.watermark = s.watermark)
    (hp : s'.owned.Perm s.owned) (r : Res) : CounterStep r s s' := by
  have hd : ∀ b, drift s' b = drift s b := fun b => by
    unfold drift; rw [ha, sizeOf_perm b hp]
  refine ⟨?_, fun b => Int.le_of_eq (hd b).symm, fun _ => hd, ?_, ?_⟩
  · intro h b; rw [hu, hus]; exact h b
  · intro b; rw [hw]
  · intro h b; rw [ha, hw]; exact h b

theorem release_counters (s : State) (p t : Nat) (h : Bool) (r : Res) :
    CounterStep r s (s.release p t h).2 := by
  have hp := owned_release s p t h
  have hst : (s.release p t h).2.allocated = s.allocated ∧
      (s.release p t h).2.watermark = s.watermark ∧
      (UsageOk s → UsageOk (s.release p t h).2) := by
    unfold State.release
    split
    · exact ⟨rfl, rfl, id⟩
    · split
      · exact ⟨rfl, rfl, id⟩
      · rename_i b hb
        have hm := (find_mem hb).1
        have hU : UsageOk s → ∀ x, upd s.usage b.info.backend (s.usage b.info.backend - b.info.size) x =
            sizeOf x (s.used.erase b) := by
          intro hU x
          rw [sizeOf_erase x hm]
          simp only [upd]
          by_cases e : x = b.info.backend
          · subst e; have := hU b.info.backend; simp; omega
          · have : ¬ b.info.backend = x := fun h => e h.symm
            have := hU x
            simp [*]
        simp only
        split
        · exact ⟨rfl, rfl, hU⟩
        · split
          · exact ⟨rfl, rfl, hU⟩
          · split
            · exact ⟨rfl, rfl, hU⟩
            · exact ⟨rfl, rfl, hU⟩
  obtain ⟨h1, h2, h3⟩ := hst
  have hd : ∀ b, drift (s.release p t h).2 b = drift s b := fun b => by
    unfold drift; rw [h1, sizeOf_perm b hp]
  exact ⟨h3, fun b => Int.le_of_eq (hd b).symm, fun _ => hd,
    fun b => by rw [h2], fun h b => by rw [h1, h2]; exact h b⟩

/-- The part of `CounterStep` that survives host ↔ LLVM moves, which do not
maintain the watermark. -/
structure CounterStep' (r : Res) (s s' : State) : Prop where
  usage : UsageOk s → UsageOk s'
  drift_le : ∀ b, drift s b ≤ drift s' b
  drift_eq : r ≠ .raise → ∀ b, drift s' b = drift s b

theorem CounterStep.weak {r : Res} {s s' : State} (h : CounterStep r s s') : CounterStep' r s s' :=
  ⟨h.usage, h.drift_le, h.drift_eq⟩

theorem retag_counters (s : State) (b : Block) (hb : b ∈ s.used) (dst : Backend) (r : Res) :
    CounterStep' r s (s.retag b dst) := by
  have hs : ∀ x, sizeOf x (s.retag b dst).used =
      (if dst = x then (b.info.size : Int) else 0) + (sizeOf x s.used -
        (if b.info.backend = x then (b.info.size : Int) else 0)) := by
    intro x
    simp only [State.retag, sizeOf_cons, sizeOf_erase x hb]
  have ho : ∀ x, sizeOf x (s.retag b dst).owned =
      (if dst = x then (b.info.size : Int) else 0) + (sizeOf x s.owned -
        (if b.info.backend = x then (b.info.size : Int) else 0)) := by
    intro x
    simp only [State.retag, State.owned, sizeOf_cons, sizeOf_append, sizeOf_erase x hb]
    omega
  have ha : ∀ x, (s.retag b dst).allocated x = s.allocated x +
      (if dst = x then (b.info.size : Int) else 0) -
      (if b.info.backend = x then (b.info.size : Int) else 0) := by
    intro x
    simp only [State.retag, upd]
    by_cases e1 : x = dst <;> by_cases e2 : x = b.info.backend
    · subst e1; simp [e2]
    · subst e1; simp [e2, Ne.symm e2]
    · subst e2; simp [e1, Ne.symm e1]
    · simp [e1, e2, Ne.symm e1, Ne.symm e2]
  have hu : ∀ x, (s.retag b dst).usage x = s.usage x +
      (if dst = x then (b.info.size : Int) else 0) -
      (if b.info.backend = x then (b.info.size : Int) else 0) := by
    intro x
    simp only [State.retag, upd]
    by_cases e1 : x = dst <;> by_cases e2 : x = b.info.backend
    · subst e1; simp [e2]
    · subst e1; simp [e2, Ne.symm e2]
    · subst e2; simp [e1, Ne.symm e1]
    · simp [e1, e2, Ne.symm e1, Ne.symm e2]
  have hd : ∀ x, drift (s.retag b dst) x = drift s x := by
    intro x; unfold drift; rw [ho, ha]; omega
  refine ⟨?_, fun x => Int.le_of_eq (hd x).symm, fun _ => hd⟩
  intro hU x
  rw [hu, hs, hU x]
  omega

/-- Does the operation move a block between host and LLVM ownership? -/
def isRetag (s : State) : Op → Bool
  | .migrate p dst mv _ _ _ _ => match s.used.find? (fun b => b.ptr == p) with
    | none => false
    | some b => mv && !b.info.backend.isGpu && !dst.isGpu && p != 0
  | _ => false

theorem migrate_counters (cfg : Cfg) (s : State) (hi : Inv s) (p : Nat) (dst : Backend) (mv : Bool)
    (t dev : Nat) (os : OsAnswers) (fz : Env) (hok : OpOk cfg s (.migrate p dst mv t dev os fz)) :
    CounterStep' (s.migrate cfg p dst mv t dev os fz).1 s (s.migrate cfg p dst mv t dev os fz).2 ∧
    (isRetag s (.migrate p dst mv t dev os fz) = false →
      CounterStep (s.migrate cfg p dst mv t dev os fz).1 s (s.migrate cfg p dst mv t dev os fz).2) := by
  have both : ∀ {r : Res} {s' : State}, CounterStep r s s' → ∀ {P : Prop},
      CounterStep' r s s' ∧ (P → CounterStep r s s') := fun h _ => ⟨h.weak, fun _ => h⟩
  unfold State.migrate
  split
  · exact both (CounterStep.refl _ _)
  · rename_i hp0
    split
    · exact both (CounterStep.refl _ _)
    · rename_i b hb
      obtain ⟨hb1, hb2⟩ := find_mem hb
      have hb2 : b.ptr = p := by simpa using hb2
      obtain ⟨ok1, ok2⟩ := hok b hb1 hb2
      simp only
      split
      · exact both (CounterStep.refl _ _)
      · split
        · rename_i hhost
          split
          · rename_i hmv
            refine ⟨retag_counters s b hb1 dst _, fun h => ?_⟩
            simp [isRetag, hb, hmv, hp0] at h
            simp at hhost
            simp [hhost] at h
          · rw [migBackend, if_pos hhost] at ok1
            exact both (malloc_counters cfg s hi _ _ _ _ _ _ _ ok1)
        · rename_i hhost
          rw [migBackend, if_neg hhost] at ok1
          split
          · rename_i hsame
            split
            · exact both (CounterStep.refl _ _)
            · have : (if dst = Backend.none then b.info.backend else dst) = dst := by
                split
                · rename_i h; rw [hsame.1]
                · rfl
              rw [this] at ok1
              exact both (malloc_counters cfg s hi _ _ _ _ _ _ _ ok1)
          · have hbk : (if dst = Backend.none then
                (if b.info.backend.isGpu = true then b.info.backend else dst) else dst) =
                (if dst = Backend.none then b.info.backend else dst) := by
              split
              · rename_i hd
                subst hd
                have : b.info.backend.isGpu = true := by
                  have h0 : Backend.none.isGpu = false := rfl
                  rw [h0] at hhost
                  cases hg : b.info.backend.isGpu
                  · simp [hg] at hhost
                  · rfl
                simp [this]
              · rfl
            rw [hbk]
            have hm := (malloc_inv cfg s hi _ b.info.size (decide (dst = Backend.none)) dev _ _ _ ok1).1
            have hc := malloc_counters cfg s hi _ b.info.size (decide (dst = Backend.none)) dev _ _ _ ok1
            generalize hres : s.malloc cfg (if dst = Backend.none then b.info.backend else dst)
              b.info.size (decide (dst = Backend.none)) dev os.a1 os.a2 fz = res at *
            obtain ⟨r, s1⟩ := res
            cases r with
            | ptr q =>
              simp only at hm hc ⊢
              split
              · rename_i hsn
                have hdn : dst ≠ Backend.none := by
                  intro e; subst e; simp [hsn, Backend.isGpu] at hhost
                have ok2' := ok2 hsn
                simp only [hdn, if_false, decide_false] at hres
                have hgpu : (if b.info.backend.isGpu = true then b.info.backend else dst) = dst := by
                  simp [hsn, Backend.isGpu]
                rw [hres] at ok2'
                rw [hgpu]
                have hc2 := malloc_counters cfg s1 hm dst b.info.size true dev _ _ _ ok2'
                generalize s1.malloc cfg dst b.info.size true dev os.b1 os.b2 fz = res2 at *
                obtain ⟨r2, s2⟩ := res2
                have hc2 := hc.trans hc2 (by simp)
                cases r2 with
                | ptr tmp =>
                  simp only at hc2 ⊢
                  have hc3 := hc2.trans (release_counters s2 tmp t true (.ptr q)) (by simp)
                  split
                  · exact both (hc3.trans (release_counters _ p t true _) (by simp))
                  · exact both hc3
                | unit => exact both hc2
                | raise => exact both hc2
              · split
                · exact both (hc.trans (release_counters s1 p t true _) (by simp))
                · exact both hc
            | unit => exact both hc
            | raise => exact both hc

theorem step_counters (cfg : Cfg) (s : State) (hi : Inv s) (o : Op) (hok : OpOk cfg s o) :
    CounterStep' (s.step cfg o).1 s (s.step cfg o).2 ∧
    (isRetag s o = false → o ≠ .clearStats → CounterStep (s.step cfg o).1 s (s.step cfg o).2) := by
  have both : ∀ {r : Res} {s' : State}, CounterStep r s s' → ∀ {P Q : Prop},
      CounterStep' r s s' ∧ (P → Q → CounterStep r s s') := fun h _ _ => ⟨h.weak, fun _ _ => h⟩
  cases o with
  | malloc b n sh d o1 o2 fz => exact both (malloc_counters cfg s hi b n sh d o1 o2 fz hok)
  | free p t h => exact both (release_counters s p t h _)
  | migrate p dst mv t d os fz =>
    have := migrate_counters cfg s hi p dst mv t d os fz hok
    exact ⟨this.1, fun h _ => this.2 h⟩
  | flush fz =>
    simp only [State.step]
    cases h : s.flush fz with
    | none => exact both (CounterStep.refl _ _)
    | some s' => exact both (flush_counters s s' fz h)
  | submit t => exact both (CounterStep.of_perm (s := s) (s' := s.submit t) rfl rfl rfl rfl (owned_submit s t) _)
  | complete n =>
    refine both (CounterStep.of_perm (s := s) (s' := s.complete n) ?_ ?_ ?_ ?_ (owned_complete s n) _) <;>
    · simp only [State.complete]; split <;> rfl
  | threadExit t => exact both (CounterStep.of_perm (s := s) (s' := s.threadExit t) rfl rfl rfl rfl (owned_threadExit s t) _)
  | clearStats =>
    exact ⟨⟨id, fun _ => Int.le_refl _, fun _ _ => rfl⟩, fun _ h => absurd rfl h⟩

end Verif.Alloc
