import Verif.Alloc.Spec
import Verif.Arith.Props
/-! Helper lemmas for the allocator. -/
namespace Verif.Alloc
open Verif.Arith

theorem Disj.symm {p n q m : Nat} (h : Disj p n q m) : Disj q m p n := Or.symm h
theorem Block.disj_symm {a b : Block} (h : a.disj b) : b.disj a := Disj.symm h

theorem owned_count (s : State) (a : Block) : s.owned.count a =
    s.used.count a + (s.free.count a + ((s.later.map (·.2)).count a + ((s.next.map (·.2)).count a +
    (((s.inflight.map (·.2)).flatten).count a + s.leaked.count a)))) := by
  simp [State.owned, List.count_append]

theorem find_mem {l : List Block} {p : Block → Bool} {b : Block} (h : l.find? p = some b) :
    b ∈ l ∧ p b = true := ⟨List.mem_of_find?_eq_some h, List.find?_some h⟩

theorem count_erase_add {l : List Block} {b : Block} (h : b ∈ l) (a : Block) :
    (l.erase b).count a + (if b = a then 1 else 0) = l.count a := by
  have := (List.perm_cons_erase h).count_eq a
  rw [List.count_cons] at this
  simp only [beq_iff_eq] at this
  omega

theorem count_cons' (b a : Block) (l : List Block) :
    (b :: l).count a = l.count a + (if b = a then 1 else 0) := by
  rw [List.count_cons]; simp

theorem split_count (l : List (Nat × Block)) (t : Nat) (a : Block) :
    ((l.filter fun x => x.1 == t).map (·.2)).count a +
    ((l.filter fun x => !(x.1 == t)).map (·.2)).count a = (l.map (·.2)).count a := by
  have h := ((List.filter_append_perm (fun x : Nat × Block => x.1 == t) l).map (·.2)).count_eq a
  rw [List.map_append, List.count_append] at h
  exact h

theorem eraseIdx_count (l : List (Nat × List Block)) (n : Nat) (x : Nat × List Block)
    (h : l[n]? = some x) (a : Block) :
    (((l.eraseIdx n).map (·.2)).flatten).count a + x.2.count a = ((l.map (·.2)).flatten).count a := by
  induction l generalizing n with
  | nil => simp at h
  | cons y l ih =>
    cases n with
    | zero => simp at h; subst h; simp [List.count_append]; omega
    | succ n =>
      have := ih n (by simpa using h)
      simp only [List.eraseIdx_cons_succ, List.map_cons, List.flatten_cons, List.count_append]
      omega

/-! ## Ownership is preserved by the operations -/

theorem perm_of_count {l l' : List Block} (h : ∀ a, l.count a = l'.count a) : l.Perm l' :=
  List.perm_iff_count.2 h

theorem owned_release (s : State) (p t : Nat) (h : Bool) :
    (s.release p t h).2.owned.Perm s.owned := by
  apply perm_of_count
  intro a
  unfold State.release
  split
  · rfl
  · split
    · rfl
    · rename_i b hb
      have hm := count_erase_add (find_mem hb).1 a
      simp only
      split
      · rw [owned_count, owned_count]; simp only [count_cons']; omega
      · split
        · rw [owned_count, owned_count]; simp only [count_cons']; omega
        · split
          · rw [owned_count, owned_count]; simp only [List.map_cons, count_cons']; omega
          · rw [owned_count, owned_count]; simp only [List.map_cons, count_cons']; omega

theorem owned_submit (s : State) (t : Nat) : (s.submit t).owned.Perm s.owned := by
  apply perm_of_count
  intro a
  rw [owned_count, owned_count]
  unfold State.submit
  have h1 := split_count s.later t a
  have h2 := split_count s.next t a
  simp only [List.count_append, List.map_cons, List.flatten_cons]
  omega

theorem owned_threadExit (s : State) (t : Nat) : (s.threadExit t).owned.Perm s.owned := by
  apply perm_of_count
  intro a
  rw [owned_count, owned_count]
  unfold State.threadExit
  have h1 := split_count s.later t a
  have h2 := split_count s.next t a
  simp only [List.count_append]
  omega

theorem owned_complete (s : State) (n : Nat) : (s.complete n).owned.Perm s.owned := by
  apply perm_of_count
  intro a
  unfold State.complete
  split
  · rfl
  · rename_i t batch hb
    rw [owned_count, owned_count]
    have := eraseIdx_count _ _ _ hb a
    simp only [List.count_append, List.count_reverse]
    simp only at this
    omega

theorem owned_flush (s s' : State) (fz : Bool) (h : s.flush fz = some s') :
    s'.owned.Sublist s.owned ∧ s'.used = s.used ∧ s'.free = [] := by
  unfold State.flush at h
  split at h
  · cases h
  · cases h
    refine ⟨?_, rfl, rfl⟩
    unfold State.owned
    simp only [List.nil_append]
    exact List.Sublist.append (List.Sublist.refl _) (List.sublist_append_right _ _)

/-- Effect of entering a block in the map of live blocks. -/
theorem owned_use (s : State) (p : Nat) (i : Info) (h : ∀ b ∈ s.used, b.ptr ≠ p) :
    (s.use p i).owned = ⟨p, i⟩ :: s.owned ∧ (s.use p i).used = ⟨p, i⟩ :: s.used := by
  have : s.used.any (fun b => b.ptr == p) = false := by
    rw [List.any_eq_false]
    intro b hb
    simpa using h b hb
  simp [State.use, State.owned, this]

/-! ## Rounding -/

theorem roundSize_ge (cfg : Cfg) (b : Backend) (size : Nat) (hs : 0 < size) (h : size ≤ 2 ^ 52)
    (hw : cfg.width ≤ 2 ^ 32) :
    size ≤ roundSize cfg b size ∧ 64 ≤ roundSize cfg b size ∧ 64 ∣ roundSize cfg b size ∧
      (∃ k, roundSize cfg b size = 2 ^ k) ∧
      (roundSize cfg b size < 2 * (size + max 64 (cfg.width * 8))) := by
  unfold roundSize
  simp only
  have key : ∀ m, 64 ≤ m → size ≤ m → m ≤ 2 ^ 53 →
      size ≤ roundPow2_64 m ∧ 64 ≤ roundPow2_64 m ∧ 64 ∣ roundPow2_64 m ∧
      (∃ k, roundPow2_64 m = 2 ^ k) ∧ roundPow2_64 m < 2 * m := by
    intro m h1 h2 h3
    obtain ⟨⟨k, hk⟩, h5, h6⟩ := C05_round_pow2_least m (by omega) (by omega)
    have h7 : roundPow2_64 m < 2 * m := by
      rw [roundPow2_64_eq m (by omega) (by omega), if_neg (by omega)]
      exact (pow_log_bounds m (by omega)).2
    refine ⟨by omega, by omega, ?_, ⟨k, hk⟩, h7⟩
    rw [hk] at h5 ⊢
    have : 6 ≤ k := by
      rcases Nat.lt_or_ge k 6 with hlt | hge
      · have : 2 ^ k ≤ 2 ^ 5 := Nat.pow_le_pow_right (by omega) (by omega)
        omega
      · exact hge
    exact Nat.pow_dvd_pow 2 this
  split
  · rename_i hc
    have hle : (size + 63) % 2 ^ 64 / 64 * 64 ≤ size + 63 := by omega
    obtain ⟨a, b', c, d, e⟩ := key ((size + 63) % 2 ^ 64 / 64 * 64) (by omega) (by omega) (by omega)
    exact ⟨a, b', c, d, by omega⟩
  · rename_i hc
    simp only [not_or, Nat.not_lt] at hc
    have hmod : (size + cfg.width * 8 - 1) % 2 ^ 64 = size + cfg.width * 8 - 1 := by omega
    rw [hmod]
    have hpk : 0 < cfg.width * 8 := by omega
    have hd := Nat.div_add_mod (size + cfg.width * 8 - 1) (cfg.width * 8)
    have hr := Nat.mod_lt (size + cfg.width * 8 - 1) hpk
    have hge : 1 ≤ (size + cfg.width * 8 - 1) / (cfg.width * 8) := by
      rw [Nat.le_div_iff_mul_le hpk]; omega
    have hge2 : cfg.width * 8 ≤ cfg.width * 8 * ((size + cfg.width * 8 - 1) / (cfg.width * 8)) :=
      Nat.le_mul_of_pos_right _ hge
    rw [Nat.mul_comm (cfg.width * 8)] at hge2 hd
    generalize (size + cfg.width * 8 - 1) / (cfg.width * 8) * (cfg.width * 8) = m at *
    obtain ⟨a, b', c, d, e⟩ := key m (by omega) (by omega) (by omega)
    exact ⟨a, b', c, d, by omega⟩

/-! ## The disjointness invariant -/

structure Inv (s : State) : Prop where
  disj : s.owned.Pairwise Block.disj
  pos : ∀ b ∈ s.owned, b.ptr ≠ 0 ∧ 0 < b.info.size

theorem Inv.perm {s s' : State} (h : Inv s) (hp : s'.owned.Perm s.owned) : Inv s' where
  disj := (hp.pairwise_iff Block.disj_symm).2 h.disj
  pos := fun b hb => h.pos b (hp.mem_iff.1 hb)

theorem Inv.sublist {s s' : State} (h : Inv s) (hp : s'.owned.Sublist s.owned) : Inv s' where
  disj := h.disj.sublist hp
  pos := fun b hb => h.pos b (hp.mem hb)

theorem mem_owned_used {s : State} {b : Block} (h : b ∈ s.used) : b ∈ s.owned := by
  simp [State.owned, h]

/-- The result of a successful allocation. -/
structure MallocPost (cfg : Cfg) (s : State) (backend : Backend) (size : Nat) (shared : Bool)
    (p : Nat) (s' : State) : Prop where
  inv : Inv s'
  /-- the new block is live, has the rounded size and the requested backend -/
  live : ∃ i : Info, s'.used = ⟨p, i⟩ :: s.used ∧ i.size = roundSize cfg backend size ∧
    i.backend = backend ∧ i.shared = (if backend = .none then false else shared)
  /-- it does not overlap any block that was live before -/
  fresh : ∀ b ∈ s.used, Disj p (roundSize cfg backend size) b.ptr b.info.size
  nonnull : p ≠ 0

theorem disj_ne {s : State} {p n : Nat} (hf : Fresh s p n) (hn : 0 < n) (hi : Inv s) :
    ∀ b ∈ s.used, b.ptr ≠ p := by
  intro b hb e
  have h1 := hf.2 b (mem_owned_used hb)
  have h2 := (hi.pos b (mem_owned_used hb)).2
  subst e
  rcases h1 with h1 | h1 <;> omega

theorem use_fresh (s : State) (p : Nat) (i : Info) (hi : Inv s) (hf : Fresh s p i.size)
    (hn : 0 < i.size) : Inv (s.use p i) ∧ (s.use p i).used = ⟨p, i⟩ :: s.used := by
  obtain ⟨h1, h2⟩ := owned_use s p i (disj_ne hf hn hi)
  refine ⟨⟨?_, ?_⟩, h2⟩
  · rw [h1, List.pairwise_cons]
    exact ⟨fun b hb => hf.2 b hb, hi.disj⟩
  · rw [h1]
    intro b hb
    rcases List.mem_cons.1 hb with rfl | hb
    · exact ⟨hf.1, hn⟩
    · exact hi.pos b hb

/-- Counters do not influence ownership. -/
def sameBlocks (s s' : State) : Prop :=
  s.used = s'.used ∧ s.free = s'.free ∧ s.later = s'.later ∧ s.next = s'.next ∧
    s.inflight = s'.inflight ∧ s.leaked = s'.leaked

theorem sameBlocks.owned {s s' : State} (h : sameBlocks s s') : s.owned = s'.owned := by
  obtain ⟨a, b, c, d, e, f⟩ := h
  simp [State.owned, a, b, c, d, e, f]

theorem sameBlocks.inv {s s' : State} (h : sameBlocks s s') (hi : Inv s) : Inv s' :=
  ⟨by rw [← h.owned]; exact hi.disj, by rw [← h.owned]; exact hi.pos⟩

theorem sameBlocks.fresh {s s' : State} (h : sameBlocks s s') {p n : Nat} (hf : Fresh s p n) :
    Fresh s' p n := ⟨hf.1, by rw [← h.owned]; exact hf.2⟩

theorem malloc_inv (cfg : Cfg) (s : State) (hi : Inv s) (backend : Backend) (size : Nat)
    (shared : Bool) (device : Nat) (os1 os2 : Option Nat) (fz : Env)
    (hok : MallocOk cfg s backend size os1 os2 fz) :
    Inv (s.malloc cfg backend size shared device os1 os2 fz).2 ∧
    ((s.malloc cfg backend size shared device os1 os2 fz).1 ≠ .unit) ∧
    (∀ p, (s.malloc cfg backend size shared device os1 os2 fz).1 = .ptr p → 0 < size →
      MallocPost cfg s backend size shared p (s.malloc cfg backend size shared device os1 os2 fz).2) ∧
    ((s.malloc cfg backend size shared device os1 os2 fz).1 = .raise →
      (s.malloc cfg backend size shared device os1 os2 fz).2.used = s.used) := by
  unfold State.malloc
  by_cases h0 : size = 0
  · rw [if_pos h0]
    exact ⟨hi, by simp, fun p _ h => by omega, by simp⟩
  rw [if_neg h0]
  simp only
  obtain ⟨r1, r2, r3, r4, _⟩ :=
    roundSize_ge cfg backend size (by omega) hok.size_le hok.width_le
  obtain ⟨_, _, hfr1, hfr2, hnf⟩ := hok
  generalize hsz : roundSize cfg backend size = sz at *
  generalize hsh : (if backend = Backend.none then false else shared) = sh
  generalize (if backend.isGpu = true then device else 0) = dev
  cases hfind' : (if fz.stale = true then none else
    s.free.find? (fun b => decide (b.info = (⟨sz, backend, sh, dev⟩ : Info)))) with
  | some b =>
    have hfind : s.free.find? (fun b => decide (b.info = (⟨sz, backend, sh, dev⟩ : Info))) = some b := by
      split at hfind'
      · cases hfind'
      · exact hfind'
    obtain ⟨hb1, hb2⟩ := find_mem hfind
    have hb2 : b.info = ⟨sz, backend, sh, dev⟩ := by simpa using hb2
    simp only
    have hperm : s.owned.Perm (b :: { s with free := s.free.erase b }.owned) := by
      apply perm_of_count
      intro a
      rw [count_cons', owned_count, owned_count]
      have := count_erase_add hb1 a
      simp only
      omega
    have hi2 := (hperm.pairwise_iff Block.disj_symm).1 hi.disj
    rw [List.pairwise_cons] at hi2
    have hbo : b ∈ s.owned := by simp [State.owned, hb1]
    have hinv : Inv { s with free := s.free.erase b } :=
      ⟨hi2.2, fun c hc => hi.pos c (hperm.mem_iff.2 (by simp [hc]))⟩
    have hfresh : Fresh { s with free := s.free.erase b } b.ptr sz := by
      refine ⟨(hi.pos b hbo).1, fun c hc => ?_⟩
      have := hi2.1 c hc
      rw [Block.disj, hb2] at this
      exact this
    obtain ⟨u1, u2⟩ := use_fresh _ b.ptr ⟨sz, backend, sh, dev⟩ hinv hfresh (by simp; omega)
    refine ⟨u1, by simp, ?_, by simp⟩
    intro p hp _
    injection hp with hp
    subst hp
    exact {
      inv := u1
      live := ⟨_, u2, by simp [hsz], rfl, by simp [hsh]⟩
      fresh := fun c hc => by
        rw [hsz]
        exact hfresh.2 c (by simp [State.owned, hc])
      nonnull := (hi.pos b hbo).1 }
  | none =>
    simp only
    have hraw : ∀ os q, (backend.isGpu = false → HUGEPAGE ≤ sz → os ≠ none) →
        rawAlloc backend sz os = some q → os = some q := by
      intro os q hn hq
      unfold rawAlloc at hq
      split at hq
      · exact hq
      · rename_i hg
        unfold alignedMalloc at hq
        split at hq
        · exact hq
        · split at hq
          · cases hq
          · exact absurd rfl (hn (by simpa using hg) (by omega))
    have hrawnone : ∀ os, rawAlloc backend sz os = none → os = none := by
      intro os hq
      unfold rawAlloc alignedMalloc at hq
      split at hq
      · exact hq
      · split at hq
        · cases hq
        · rfl
    -- successful allocation of a fresh block in a state with the same blocks as `s1`
    have succ : ∀ (s1 : State) (al wm : Backend → Int) (q : Nat), s1.used = s.used → Inv s1 →
        Fresh s1 q sz →
        Inv (({ s1 with allocated := al, watermark := wm } : State).use q ⟨sz, backend, sh, dev⟩) ∧
        MallocPost cfg s backend size shared q
          (({ s1 with allocated := al, watermark := wm } : State).use q ⟨sz, backend, sh, dev⟩) := by
      intro s1 al wm q hu hi1 hf
      have hs : sameBlocks s1 { s1 with allocated := al, watermark := wm } :=
        ⟨rfl, rfl, rfl, rfl, rfl, rfl⟩
      obtain ⟨u1, u2⟩ := use_fresh { s1 with allocated := al, watermark := wm } q ⟨sz, backend, sh, dev⟩ (hs.inv hi1) (hs.fresh hf)
        (by simp; omega)
      refine ⟨u1, ?_⟩
      exact {
        inv := u1
        live := ⟨_, by rw [u2, ← hs.1, hu], by simp [hsz], rfl, by simp [hsh]⟩
        fresh := fun c hc => by
          rw [hsz]
          exact hf.2 c (mem_owned_used (by rw [hu]; exact hc))
        nonnull := hf.1 }
    cases hr1 : rawAlloc backend sz os1 with
    | some q =>
      simp only
      have ho := hraw os1 q hnf hr1
      obtain ⟨u1, u2⟩ := succ s _ _ q rfl hi (hfr1 q ho)
      exact ⟨u1, by simp, fun p hp _ => by injection hp with hp; subst hp; exact u2, by simp⟩
    | none =>
      simp only
      have ho := hrawnone os1 hr1
      cases hfl : s.flush fz.freezing with
      | none => exact ⟨hi, by simp, by simp, by simp⟩
      | some s1 =>
        simp only
        obtain ⟨f1, f2, _⟩ := owned_flush s s1 fz.freezing hfl
        have hi1 := hi.sublist f1
        cases hr2 : rawAlloc backend sz os2 with
        | some q =>
          simp only
          have hsmall : backend.isGpu = false → HUGEPAGE ≤ sz → os2 ≠ none := by
            intro a b; exact absurd ho (hnf a b)
          have ho2 := hraw os2 q hsmall hr2
          obtain ⟨u1, u2⟩ := succ s1 _ _ q f2 hi1
            (hfr2 q s1 hfl ho ho2)
          exact ⟨u1, by simp, fun p hp _ => by injection hp with hp; subst hp; exact u2, by simp⟩
        | none =>
          simp only
          exact ⟨sameBlocks.inv (s := s1) ⟨rfl, rfl, rfl, rfl, rfl, rfl⟩ hi1, by simp, by simp, fun _ => f2⟩

theorem inv_retag (s : State) (hi : Inv s) (b : Block) (hb : b ∈ s.used) (dst : Backend) :
    Inv (s.retag b dst) := by
  have hperm : s.owned.Perm (b :: { s with used := s.used.erase b }.owned) := by
    apply perm_of_count
    intro a
    rw [count_cons', owned_count, owned_count]
    have := count_erase_add hb a
    simp only
    omega
  have h2 := (hperm.pairwise_iff Block.disj_symm).1 hi.disj
  rw [List.pairwise_cons] at h2
  have ho : (s.retag b dst).owned =
      ⟨b.ptr, ⟨b.info.size, dst, false, 0⟩⟩ :: { s with used := s.used.erase b }.owned := by
    simp [State.retag, State.owned]
  constructor
  · rw [ho, List.pairwise_cons]
    exact ⟨fun c hc => h2.1 c hc, h2.2⟩
  · rw [ho]
    intro c hc
    rcases List.mem_cons.1 hc with rfl | hc
    · exact hi.pos b (mem_owned_used hb)
    · exact hi.pos c (hperm.mem_iff.2 (by simp [hc]))

theorem inv_migrate (cfg : Cfg) (s : State) (hi : Inv s) (p : Nat) (dst : Backend) (mv : Bool)
    (t dev : Nat) (os : OsAnswers) (fz : Env) (hok : OpOk cfg s (.migrate p dst mv t dev os fz)) :
    Inv (s.migrate cfg p dst mv t dev os fz).2 := by
  unfold State.migrate
  split
  · exact hi
  · split
    · exact hi
    · rename_i b hb
      obtain ⟨hb1, hb2⟩ := find_mem hb
      have hb2 : b.ptr = p := by simpa using hb2
      obtain ⟨ok1, ok2⟩ := hok b hb1 hb2
      simp only
      split
      · exact hi
      · rename_i hcross
        split
        · rename_i hhost
          split
          · exact inv_retag s hi b hb1 dst
          · rw [migBackend, if_pos hhost] at ok1
            exact (malloc_inv cfg s hi _ _ _ _ _ _ _ ok1).1
        · rename_i hhost
          rw [migBackend, if_neg hhost] at ok1
          split
          · rename_i hsame
            split
            · exact hi
            · have : (if dst = Backend.none then b.info.backend else dst) = dst := by
                split
                · rename_i h; rw [hsame.1]
                · rfl
              rw [this] at ok1
              exact (malloc_inv cfg s hi _ _ _ _ _ _ _ ok1).1
          · have hbk : (if dst = Backend.none then
                (if b.info.backend.isGpu = true then b.info.backend else dst) else dst) =
                (if dst = Backend.none then b.info.backend else dst) := by
              split
              · rename_i hd
                subst hd
                have : b.info.backend.isGpu = true := by
                  have h0 : Backend.none.isGpu = false := rfl
                  rw [h0] at hhost
                  cases hg : b.info.backend.isGpu
                  · simp [hg] at hhost
                  · rfl
                simp [this]
              · rfl
            rw [hbk]
            have hm := (malloc_inv cfg s hi _ b.info.size (decide (dst = Backend.none)) dev _ _ _ ok1).1
            generalize hres : s.malloc cfg (if dst = Backend.none then b.info.backend else dst)
              b.info.size (decide (dst = Backend.none)) dev os.a1 os.a2 fz = res at *
            obtain ⟨r, s1⟩ := res
            cases r with
            | ptr q =>
              simp only at hm ⊢
              split
              · rename_i hsn
                have hdn : dst ≠ Backend.none := by
                  intro e; subst e; simp [hsn, Backend.isGpu] at hhost
                have ok2' := ok2 hsn
                simp only [hdn, if_false, decide_false] at hres
                have hgpu : (if b.info.backend.isGpu = true then b.info.backend else dst) = dst := by
                  simp [hsn, Backend.isGpu]
                rw [hres] at ok2'
                rw [hgpu]
                have hm2 := (malloc_inv cfg s1 hm dst b.info.size true dev _ _ _ ok2').1
                generalize s1.malloc cfg dst b.info.size true dev os.b1 os.b2 fz = res2 at *
                obtain ⟨r2, s2⟩ := res2
                cases r2 with
                | ptr tmp =>
                  simp only at hm2 ⊢
                  have hm3 := hm2.perm (owned_release s2 tmp t true)
                  split
                  · exact hm3.perm (owned_release _ p t true)
                  · exact hm3
                | unit => exact hm2
                | raise => exact hm2
              · split
                · exact hm.perm (owned_release s1 p t true)
                · exact hm
            | unit => exact hm
            | raise => exact hm

theorem inv_step (cfg : Cfg) (s : State) (hi : Inv s) (o : Op) (hok : OpOk cfg s o) :
    Inv (s.step cfg o).2 := by
  cases o with
  | malloc b n sh d o1 o2 fz => exact (malloc_inv cfg s hi b n sh d o1 o2 fz hok).1
  | free p t h => exact hi.perm (owned_release s p t h)
  | migrate p dst mv t d os fz => exact inv_migrate cfg s hi p dst mv t d os fz hok
  | flush fz =>
    simp only [State.step]
    cases h : s.flush fz with
    | none => exact hi
    | some s' => exact hi.sublist (owned_flush s s' fz h).1
  | submit t => exact hi.perm (owned_submit s t)
  | complete n => exact hi.perm (owned_complete s n)
  | threadExit t => exact hi.perm (owned_threadExit s t)
  | clearStats => exact sameBlocks.inv (s := s) ⟨rfl, rfl, rfl, rfl, rfl, rfl⟩ hi

theorem inv_init : Inv {} := ⟨by simp [State.owned], by simp [State.owned]⟩

theorem inv_run (cfg : Cfg) (ops : List Op) : ∀ s, Inv s → OkRun cfg s ops → Inv (s.run cfg ops) := by
  induction ops with
  | nil => intro s h _; exact h
  | cons o os ih => intro s h hok; exact ih _ (inv_step cfg s h o hok.1) hok.2

end Verif.Alloc
