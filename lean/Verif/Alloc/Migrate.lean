import Verif.Alloc.Props
import Mathlib.Tactic.ByContra
/-!
# Migration of memory between backends (`jit_malloc_migrate`)
-/
namespace Verif.Alloc

/-- Where a migration of a block of backend `src` to `dst` may place its result: on the requested
backend or, when the host (`none`) was requested, in memory of the source backend that the host
can read: LLVM memory, or memory of a GPU that is shared with the host. -/
def ReadableAs (src dst : Backend) (i : Info) : Prop :=
  i.backend = dst ∨
  (dst = .none ∧ i.backend = src ∧ (src.isGpu = true → i.shared = true))

/-- What a successful migration of the live block `b` to `dst` that returns `q` does to the live
blocks `s.used`: a block at `q` of at least the same size is live afterwards, and
apart from `b` — which is gone after a move and still there after a copy — the live blocks are the
same as before. -/
def Migrated (s : State) (b : Block) (dst : Backend) (move : Bool) (q : Nat) (s' : State) : Prop :=
  ∃ i : Info, b.info.size ≤ i.size ∧ ReadableAs b.info.backend dst i ∧
    s'.used.Perm (⟨q, i⟩ :: if move then s.used.erase b else s.used)

theorem find_live (s : State) (hi : Inv s) (b : Block) (hb : b ∈ s.used) :
    s.used.find? (fun c => c.ptr == b.ptr) = some b := by
  have hd : s.used.Pairwise Block.disj := hi.disj.sublist (List.sublist_append_left _ _)
  cases hc : s.used.find? (fun c => c.ptr == b.ptr) with
  | none =>
    rw [List.find?_eq_none] at hc
    exact absurd (hc b hb) (by simp)
  | some c =>
    obtain ⟨m1, m2⟩ := find_mem hc
    have e : c.ptr = b.ptr := by simpa using m2
    by_contra hne
    have h1 := pairwise_forall hd m1 hb (fun e => hne (by rw [e]))
    have h2 := (hi.pos c (mem_owned_used m1)).2
    have h3 := (hi.pos b (mem_owned_used hb)).2
    rw [Block.disj, e] at h1
    rcases h1 with h1 | h1 <;> omega

theorem malloc_mig (cfg : Cfg) (s : State) (hi : Inv s) (backend : Backend) (size : Nat)
    (shared : Bool) (device : Nat) (os1 os2 : Option Nat) (fz : Env) (h0 : 0 < size)
    (hok : MallocOk cfg s backend size os1 os2 fz) (q : Nat) (s' : State)
    (h : s.malloc cfg backend size shared device os1 os2 fz = (.ptr q, s')) :
    Inv s' ∧ ∃ i : Info, size ≤ i.size ∧ i.backend = backend ∧
      i.shared = (if backend = .none then false else shared) ∧ s'.used = ⟨q, i⟩ :: s.used := by
  have hm := malloc_inv cfg s hi backend size shared device os1 os2 fz hok
  rw [h] at hm
  have hp := hm.2.2.1 q rfl h0
  obtain ⟨i, h1, h2, h3, h4⟩ := hp.live
  exact ⟨hm.1, i, by rw [h2]; exact (C05_capacity cfg backend size h0 hok.size_le hok.width_le).1,
    h3, h4, h1⟩

theorem malloc_mig_raise (cfg : Cfg) (s : State) (hi : Inv s) (backend : Backend) (size : Nat)
    (shared : Bool) (device : Nat) (os1 os2 : Option Nat) (fz : Env)
    (hok : MallocOk cfg s backend size os1 os2 fz) (r : Res) (s' : State)
    (h : s.malloc cfg backend size shared device os1 os2 fz = (r, s')) (hr : ∀ q, r ≠ .ptr q) :
    r = .raise ∧ s'.used = s.used := by
  have hm := malloc_inv cfg s hi backend size shared device os1 os2 fz hok
  rw [h] at hm
  cases r with
  | ptr q => exact absurd rfl (hr q)
  | unit => exact absurd rfl hm.2.1
  | raise => exact ⟨rfl, hm.2.2.2 rfl⟩

/-- What a migration does, in every state that satisfies the allocator's invariant. -/
theorem migrate_spec (cfg : Cfg) (s : State) (hi : Inv s) (b : Block) (hb : b ∈ s.used)
    (dst : Backend) (mv : Bool) (t dev : Nat) (os : OsAnswers) (fz : Env)
    (hok : OpOk cfg s (.migrate b.ptr dst mv t dev os fz)) :
    (∃ q s', s.migrate cfg b.ptr dst mv t dev os fz = (.ptr q, s') ∧
      Migrated s b dst mv q s' ∧
      ¬ (b.info.backend ≠ dst ∧ b.info.backend ≠ .none ∧ dst ≠ .none)) ∨
    (∃ s', s.migrate cfg b.ptr dst mv t dev os fz = (.raise, s') ∧
      (∀ c ∈ s.used, c ∈ s'.used) ∧
      ((b.info.backend ≠ dst ∧ b.info.backend ≠ .none ∧ dst ≠ .none) → s' = s)) := by
  have hpos := hi.pos b (mem_owned_used hb)
  have hfl := find_live s hi b hb
  obtain ⟨ok1, ok2⟩ := hok b hb rfl
  have hpe : s.used.Perm (b :: s.used.erase b) := List.perm_cons_erase hb
  unfold State.migrate
  rw [if_neg hpos.1, hfl]
  simp only
  by_cases hcross : b.info.backend ≠ dst ∧ b.info.backend ≠ .none ∧ dst ≠ .none
  · rw [if_pos hcross]
    exact .inr ⟨s, rfl, fun c h => h, fun _ => rfl⟩
  rw [if_neg hcross]
  by_cases hhost : (!b.info.backend.isGpu && !dst.isGpu) = true
  · rw [if_pos hhost]
    cases mv with
    | true =>
      refine .inl ⟨_, _, rfl, ?_, hcross⟩
      exact ⟨⟨b.info.size, dst, false, 0⟩, Nat.le_refl _, .inl rfl, by simp [State.retag]⟩
    | false =>
      rw [migBackend, if_pos hhost] at ok1
      simp only [Bool.false_eq_true, if_false]
      generalize hres : s.malloc cfg (if b.info.backend = Backend.llvm then Backend.llvm else dst)
        b.info.size _ 0 os.a1 os.a2 fz = res
      obtain ⟨r, s1⟩ := res
      cases r with
      | ptr q =>
        obtain ⟨_, i, i1, i2, i3, i4⟩ := malloc_mig cfg s hi _ _ _ _ _ _ _ hpos.2 ok1 q s1 hres
        refine .inl ⟨q, s1, rfl, ⟨i, i1, ?_, by rw [i4]; simp⟩, hcross⟩
        by_cases hl : b.info.backend = .llvm
        · rw [if_pos hl] at i2
          by_cases hd : dst = .none
          · exact .inr ⟨hd, by rw [i2, hl], by rw [hl]; intro h; cases h⟩
          · left
            rw [i2]
            by_contra hne
            exact hcross ⟨by rw [hl]; exact hne, by rw [hl]; decide, hd⟩
        · rw [if_neg hl] at i2
          exact .inl i2
      | unit =>
        obtain ⟨h1, _⟩ := malloc_mig_raise cfg s hi _ _ _ _ _ _ _ ok1 _ s1 hres (by intro q h; cases h)
        cases h1
      | raise =>
        obtain ⟨_, h2⟩ := malloc_mig_raise cfg s hi _ _ _ _ _ _ _ ok1 _ s1 hres (by intro q h; cases h)
        exact .inr ⟨s1, rfl, by rw [h2]; exact fun c h => h, fun h => absurd h hcross⟩
  rw [if_neg hhost]
  rw [migBackend, if_neg hhost] at ok1
  split
  · rename_i hsame
    cases mv with
    | true =>
      refine .inl ⟨_, _, rfl, ?_, hcross⟩
      exact ⟨b.info, Nat.le_refl _, .inl hsame.1, by simpa using hpe⟩
    | false =>
      have e : (if dst = Backend.none then b.info.backend else dst) = dst := by
        split
        · rw [hsame.1]
        · rfl
      rw [e] at ok1
      simp only [Bool.false_eq_true, if_false]
      generalize hres : s.malloc cfg dst b.info.size false dev os.a1 os.a2 fz = res
      obtain ⟨r, s1⟩ := res
      cases r with
      | ptr q =>
        obtain ⟨_, i, i1, i2, i3, i4⟩ := malloc_mig cfg s hi _ _ _ _ _ _ _ hpos.2 ok1 q s1 hres
        exact .inl ⟨q, s1, rfl, ⟨i, i1, .inl i2, by rw [i4]; simp⟩, hcross⟩
      | unit =>
        obtain ⟨h1, _⟩ := malloc_mig_raise cfg s hi _ _ _ _ _ _ _ ok1 _ s1 hres (by intro q h; cases h)
        cases h1
      | raise =>
        obtain ⟨_, h2⟩ := malloc_mig_raise cfg s hi _ _ _ _ _ _ _ ok1 _ s1 hres (by intro q h; cases h)
        exact .inr ⟨s1, rfl, by rw [h2]; exact fun c h => h, fun h => absurd h hcross⟩
  · have hgp : dst = .none → b.info.backend.isGpu = true := by
      intro hd
      subst hd
      cases hg : b.info.backend.isGpu
      · rw [hg] at hhost; exact absurd rfl hhost
      · rfl
    have hbk : (if dst = Backend.none then
          (if b.info.backend.isGpu = true then b.info.backend else dst) else dst) =
          (if dst = Backend.none then b.info.backend else dst) := by
      split
      · rename_i hd
        rw [if_pos (hgp hd)]
      · rfl
    rw [hbk]
    generalize hres : s.malloc cfg (if dst = Backend.none then b.info.backend else dst)
      b.info.size (decide (dst = Backend.none)) dev os.a1 os.a2 fz = res
    obtain ⟨r, s1⟩ := res
    cases r with
    | unit =>
      obtain ⟨h1, _⟩ := malloc_mig_raise cfg s hi _ _ _ _ _ _ _ ok1 _ s1 hres (by intro q h; cases h)
      cases h1
    | raise =>
      obtain ⟨_, h2⟩ := malloc_mig_raise cfg s hi _ _ _ _ _ _ _ ok1 _ s1 hres (by intro q h; cases h)
      exact .inr ⟨s1, rfl, by rw [h2]; exact fun c h => h, fun h => absurd h hcross⟩
    | ptr q =>
      obtain ⟨hi1, i, i1, i2, i3, i4⟩ := malloc_mig cfg s hi _ _ _ _ _ _ _ hpos.2 ok1 q s1 hres
      have hread : ReadableAs b.info.backend dst i := by
        by_cases hd : dst = .none
        · rw [if_pos hd] at i2
          refine .inr ⟨hd, i2, fun hg => ?_⟩
          rw [i3, if_neg]
          · simp [hd]
          · rw [if_pos hd]; intro e; rw [e] at hg; cases hg
        · rw [if_neg hd] at i2
          exact .inl i2
      -- releasing the source block of a move
      have fin : ∀ s2 : State, Inv s2 → s2.used.Perm (⟨q, i⟩ :: s.used) →
          Migrated s b dst mv q (if mv = true then (s2.release b.ptr t true).2 else s2) := by
        intro s2 hi2 hp
        refine ⟨i, i1, hread, ?_⟩
        cases mv with
        | false => simpa using hp
        | true =>
          have hb2 : b ∈ s2.used := hp.mem_iff.2 (List.mem_cons_of_mem _ hb)
          have h2 := (release_live s2 hi2 b hb2 t t true true).2.1
          have h3 : (b :: (s2.release b.ptr t true).2.used).Perm (b :: ⟨q, i⟩ :: s.used.erase b) :=
            h2.symm.trans (hp.trans ((List.Perm.cons _ hpe).trans (List.Perm.swap _ _ _)))
          simpa using h3.cons_inv
      simp only
      split
      · rename_i hsn
        have hdn : dst ≠ Backend.none := by
          intro e; have := hgp e; rw [hsn] at this; cases this
        have ok2' := ok2 hsn
        simp only [hdn, if_false, decide_false] at hres
        have hgpu : (if b.info.backend.isGpu = true then b.info.backend else dst) = dst := by
          rw [hsn]; rfl
        rw [hres] at ok2'
        rw [hgpu]
        generalize hres2 : s1.malloc cfg dst b.info.size true dev os.b1 os.b2 fz = res2
        obtain ⟨r2, s2⟩ := res2
        cases r2 with
        | ptr tmp =>
          obtain ⟨hi2, j, j1, j2, j3, j4⟩ := malloc_mig cfg s1 hi1 _ _ _ _ _ _ _ hpos.2 ok2' tmp s2 hres2
          have ht : (⟨tmp, j⟩ : Block) ∈ s2.used := by rw [j4]; simp
          have h2 := (release_live s2 hi2 ⟨tmp, j⟩ ht t t true true).2.1
          rw [j4] at h2
          have h3 := h2.cons_inv
          rw [i4] at h3
          exact .inl ⟨q, _, rfl, fin _ (hi2.perm (owned_release s2 tmp t true)) h3.symm, hcross⟩
        | unit =>
          obtain ⟨h1, _⟩ := malloc_mig_raise cfg s1 hi1 _ _ _ _ _ _ _ ok2' _ s2 hres2 (by intro q h; cases h)
          cases h1
        | raise =>
          obtain ⟨_, h2⟩ := malloc_mig_raise cfg s1 hi1 _ _ _ _ _ _ _ ok2' _ s2 hres2 (by intro q h; cases h)
          exact .inr ⟨s2, rfl, by rw [h2, i4]; exact fun c h => List.mem_cons_of_mem _ h,
            fun h => absurd h hcross⟩
      · exact .inl ⟨q, _, rfl, fin _ hi1 (by rw [i4]), hcross⟩

/-- **C56**: after every history, migrating a live block either succeeds or raises.  If it returns
`q`, a block at `q` of at least the size of the source is live, it sits on the destination backend
(or is host-readable memory of the source backend when the host was requested), and the other
live blocks are unchanged; the source block is still live after a copy and gone after a move. -/
theorem C56_migrate_result (cfg : Cfg) (ops : List Op) (h : OkRun cfg {} ops) (b : Block)
    (hb : b ∈ (State.run cfg {} ops).used) (dst : Backend) (mv : Bool) (t dev : Nat)
    (os : OsAnswers) (fz : Env)
    (hok : OpOk cfg (State.run cfg {} ops) (.migrate b.ptr dst mv t dev os fz)) (q : Nat)
    (s' : State)
    (hres : (State.run cfg {} ops).migrate cfg b.ptr dst mv t dev os fz = (.ptr q, s')) :
    Migrated (State.run cfg {} ops) b dst mv q s' := by
  rcases migrate_spec cfg _ (inv_run cfg ops {} inv_init h) b hb dst mv t dev os fz hok with
    ⟨q', s'', h1, h2, _⟩ | ⟨s'', h1, _⟩
  · rw [hres] at h1
    injection h1 with e1 e2
    injection e1 with e1
    subst e1 e2
    exact h2
  · rw [hres] at h1
    injection h1 with e1
    cases e1

/-- **C56**: the copy that a migration without move creates overlaps no block that was live
before, the source included. -/
theorem C56_copy_disjoint (cfg : Cfg) (ops : List Op) (h : OkRun cfg {} ops) (b : Block)
    (hb : b ∈ (State.run cfg {} ops).used) (dst : Backend) (t dev : Nat)
    (os : OsAnswers) (fz : Env)
    (hok : OpOk cfg (State.run cfg {} ops) (.migrate b.ptr dst false t dev os fz)) (q : Nat)
    (s' : State)
    (hres : (State.run cfg {} ops).migrate cfg b.ptr dst false t dev os fz = (.ptr q, s')) :
    ∃ i : Info, b.info.size ≤ i.size ∧ (⟨q, i⟩ : Block) ∈ s'.used ∧
      ∀ c ∈ (State.run cfg {} ops).used, Disj q i.size c.ptr c.info.size := by
  obtain ⟨i, h1, _, h3⟩ := C56_migrate_result cfg ops h b hb dst false t dev os fz hok q s' hres
  have hi := inv_migrate cfg _ (inv_run cfg ops {} inv_init h) b.ptr dst false t dev os fz hok
  rw [hres] at hi
  have hd : s'.used.Pairwise Block.disj := hi.disj.sublist (List.sublist_append_left _ _)
  have hp := (h3.pairwise_iff Block.disj_symm).1 hd
  simp only [Bool.false_eq_true, if_false] at hp
  rw [List.pairwise_cons] at hp
  exact ⟨i, h1, h3.mem_iff.2 (by simp), fun c hc => hp.1 c hc⟩

/-- **C56**: migrating between two different backends, neither of which is the host, raises and
changes nothing. -/
theorem C56_migrate_distinct_backends_raises (cfg : Cfg) (ops : List Op) (h : OkRun cfg {} ops)
    (b : Block) (hb : b ∈ (State.run cfg {} ops).used) (dst : Backend)
    (h1 : b.info.backend ≠ dst) (h2 : b.info.backend ≠ .none) (h3 : dst ≠ .none)
    (mv : Bool) (t dev : Nat) (os : OsAnswers) (fz : Env) :
    (State.run cfg {} ops).migrate cfg b.ptr dst mv t dev os fz =
      (.raise, State.run cfg {} ops) := by
  have hi := inv_run cfg ops {} inv_init h
  unfold State.migrate
  rw [if_neg (hi.pos b (mem_owned_used hb)).1, find_live _ hi b hb]
  simp only
  rw [if_pos ⟨h1, h2, h3⟩]

/-- **C56**: a migration that raises loses no live block. -/
theorem C56_migrate_failure_keeps_live_blocks (cfg : Cfg) (ops : List Op) (h : OkRun cfg {} ops)
    (b : Block) (hb : b ∈ (State.run cfg {} ops).used) (dst : Backend) (mv : Bool) (t dev : Nat)
    (os : OsAnswers) (fz : Env)
    (hok : OpOk cfg (State.run cfg {} ops) (.migrate b.ptr dst mv t dev os fz)) (s' : State)
    (hres : (State.run cfg {} ops).migrate cfg b.ptr dst mv t dev os fz = (.raise, s')) :
    ∀ c ∈ (State.run cfg {} ops).used, c ∈ s'.used := by
  rcases migrate_spec cfg _ (inv_run cfg ops {} inv_init h) b hb dst mv t dev os fz hok with
    ⟨q', s'', h1, _⟩ | ⟨s'', h1, h2, _⟩
  · rw [hres] at h1
    injection h1 with e1
    cases e1
  · rw [hres] at h1
    injection h1 with _ e2
    subst e2
    exact h2

/-- **C56**: a migration of an unknown pointer raises and changes nothing; the null pointer
migrates to the null pointer. -/
theorem C56_migrate_unknown (cfg : Cfg) (s : State) (p : Nat) (hp : ∀ b ∈ s.used, b.ptr ≠ p)
    (dst : Backend) (mv : Bool) (t dev : Nat) (os : OsAnswers) (fz : Env) :
    s.migrate cfg p dst mv t dev os fz = (if p = 0 then .ptr 0 else .raise, s) := by
  unfold State.migrate
  split
  · rfl
  · have : s.used.find? (fun b => b.ptr == p) = none := by
      rw [List.find?_eq_none]
      intro b hb
      simpa using hp b hb
    rw [this]

/-- **C56**: a failing migration from the host to a GPU may leave its new destination block
behind: it stays live although no pointer to it was returned. -/
theorem C56_failed_staging_leaks :
    let s := State.run {} {} [.malloc .none 100 false 0 (some 4096) none {}]
    let r := s.migrate {} 4096 .cuda false 0 0 ⟨some 8192, none, none, none⟩ {}
    r.1 = .raise ∧ r.2.used.map (·.ptr) = [8192, 4096] := by
  decide

/-! Non-vacuity: a host block is moved to the GPU, another one is copied back. -/

def exMig : List Op :=
  [.malloc .none 100 false 0 (some 4096) none {}, .malloc .cuda 100 false 0 (some 8192) none {}]

example : OkRun {} {} exMig := by
  refine ⟨⟨by decide, by decide, ?_, fun _ _ _ h => (by cases h), by decide⟩,
    ⟨by decide, by decide, ?_, fun _ _ _ h => (by cases h), by decide⟩, trivial⟩
  · intro p hp; cases hp; decide
  · intro p hp; cases hp; decide

example : OpOk {} (State.run {} {} exMig)
    (.migrate 4096 .cuda true 0 0 ⟨some 16384, none, some 32768, none⟩ {}) := by
  have hu : (State.run {} {} exMig).used =
    [⟨8192, ⟨128, .cuda, false, 0⟩⟩, ⟨4096, ⟨128, .none, false, 0⟩⟩] := by decide
  intro b hb e
  rw [hu] at hb
  simp only [List.mem_cons, List.not_mem_nil, or_false] at hb
  rcases hb with rfl | rfl
  · cases e
  · refine ⟨⟨by decide, by decide, ?_, fun _ _ _ h => (by cases h), by decide⟩,
      fun _ => ⟨by decide, by decide, ?_, fun _ _ _ h => (by cases h), by decide⟩⟩
    · intro p hp; cases hp; decide
    · intro p hp; cases hp; decide

example : ((State.run {} {} exMig).migrate {} 4096 .cuda true 0 0
    ⟨some 16384, none, some 32768, none⟩ {}).1 = .ptr 16384 ∧
  ((State.run {} {} exMig).migrate {} 4096 .cuda true 0 0
    ⟨some 16384, none, some 32768, none⟩ {}).2.used.map (·.ptr) = [16384, 8192] := by decide

example : ((State.run {} {} exMig).migrate {} 8192 .none false 0 0
    ⟨some 16384, none, none, none⟩ {}).2.used =
  [⟨16384, ⟨128, .cuda, true, 0⟩⟩, ⟨8192, ⟨128, .cuda, false, 0⟩⟩, ⟨4096, ⟨128, .none, false, 0⟩⟩] := by
  decide

example : ((State.run {} {} exMig).migrate {} 8192 .llvm false 0 0
    ⟨some 16384, none, none, none⟩ {}).1 = .raise := by decide

end Verif.Alloc
