import Verif.Alloc.Counters
/-!
# Properties of the allocator (C04–C07)
-/
namespace Verif.Alloc
open Verif.Arith

/-! ## C05: capacity, rounding and the packed descriptor -/

/-- **C05**: the capacity of the block for a request of `n` bytes is at least `n`, is a power of
two and a multiple of 64, and is less than twice the request rounded up by the
allocation granularity. -/
theorem C05_capacity (cfg : Cfg) (b : Backend) (n : Nat) (h0 : 0 < n) (h : n ≤ 2 ^ 52)
    (hw : cfg.width ≤ 2 ^ 32) :
    n ≤ roundSize cfg b n ∧ (∃ k, roundSize cfg b n = 2 ^ k) ∧ 64 ∣ roundSize cfg b n ∧
      roundSize cfg b n < 2 * (n + max 64 (cfg.width * 8)) :=
  have ⟨a, _, c, d, e⟩ := roundSize_ge cfg b n h0 h hw
  ⟨a, d, c, e⟩

example : roundSize {} .llvm 100 = 128 := by decide
example : roundSize { width := 16 } .llvm 129 = 256 := by decide

/-- **C05** boundary: a request just above `2^63` bytes is rounded to a block of
size 0, so the bound on the request is necessary. -/
theorem C05_huge_request_wraps : roundSize {} .llvm (2 ^ 63 + 1) = 0 := by decide

theorem getElem_ofNat64 (n k : Nat) (h : k < 64) : (BitVec.ofNat 64 n)[k] = n.testBit k := by
  rw [← BitVec.getLsbD_eq_getElem, BitVec.getLsbD_ofNat]; simp [h]

/-- **C05**: the packed descriptor is lossless. -/
theorem C05_descriptor_lossless (i : Info) (hs : i.size < 2 ^ 53) (hd : i.device < 256) :
    decode (encode i) = i := by
  obtain ⟨size, backend, shared, device⟩ := i
  simp only at hs hd
  have hb : backend.code < 4 := by cases backend <;> decide
  have hsh : shared.toNat < 2 := by cases shared <;> decide
  have e1 : (encode ⟨size, backend, shared, device⟩ >>> 11) = BitVec.ofNat 64 size := by
    apply BitVec.eq_of_getLsbD_eq
    intro k hk
    have d1 : device.testBit (11 + k) = false :=
      Nat.testBit_lt_two_pow (Nat.lt_of_lt_of_le hd (by
        calc 256 = 2 ^ 8 := rfl
          _ ≤ 2 ^ (11 + k) := Nat.pow_le_pow_right (by omega) (by omega)))
    have d2 : backend.code.testBit (11 + k - 8) = false :=
      Nat.testBit_lt_two_pow (Nat.lt_of_lt_of_le hb (by
        calc 4 = 2 ^ 2 := rfl
          _ ≤ 2 ^ (11 + k - 8) := Nat.pow_le_pow_right (by omega) (by omega)))
    have d3 : shared.toNat.testBit (11 + k - 10) = false :=
      Nat.testBit_lt_two_pow (Nat.lt_of_lt_of_le hsh (by
        calc 2 = 2 ^ 1 := rfl
          _ ≤ 2 ^ (11 + k - 10) := Nat.pow_le_pow_right (by omega) (by omega)))
    simp [encode, d1, d2, d3, BitVec.getLsbD_ofNat]
    intro _
    by_cases hk2 : 11 + k < 64
    · simp [hk2]
    · have : size.testBit k = false := Nat.testBit_lt_two_pow (Nat.lt_of_lt_of_le hs
        (Nat.pow_le_pow_right (by omega) (by omega)))
      simp [this]
  have e2 : ((encode ⟨size, backend, shared, device⟩ >>> 8) &&& 3#64) = BitVec.ofNat 64 backend.code := by
    apply BitVec.eq_of_getLsbD_eq
    intro k hk
    by_cases hk2 : k < 2
    · have d1 : device.testBit (8 + k) = false :=
        Nat.testBit_lt_two_pow (Nat.lt_of_lt_of_le hd (by
          calc 256 = 2 ^ 8 := rfl
            _ ≤ 2 ^ (8 + k) := Nat.pow_le_pow_right (by omega) (by omega)))
      have : k = 0 ∨ k = 1 := by omega
      rcases this with rfl | rfl <;>
        · simp at d1; simp [encode, getElem_ofNat64, d1, show Nat.testBit 3 1 = true by decide]
    · have h3 : (3#64).getLsbD k = false := by
        rw [BitVec.getLsbD_ofNat]
        rw [Nat.testBit_lt_two_pow (Nat.lt_of_lt_of_le (by decide : 3 < 2 ^ 2)
          (Nat.pow_le_pow_right (by omega) (by omega)))]
        simp
      have h4 : backend.code.testBit k = false :=
        Nat.testBit_lt_two_pow (Nat.lt_of_lt_of_le hb
          (by calc 4 = 2 ^ 2 := rfl
            _ ≤ 2 ^ k := Nat.pow_le_pow_right (by omega) (by omega)))
      rw [BitVec.getLsbD_and, h3]
      simp [BitVec.getLsbD_ofNat, h4]
  have e3 : ((encode ⟨size, backend, shared, device⟩ >>> 10) &&& 1#64) = BitVec.ofNat 64 shared.toNat := by
    apply BitVec.eq_of_getLsbD_eq
    intro k hk
    by_cases hk2 : k = 0
    · subst hk2
      have d1 : device.testBit 10 = false :=
        Nat.testBit_lt_two_pow (Nat.lt_of_lt_of_le hd (by decide))
      have d2 : backend.code.testBit 2 = false :=
        Nat.testBit_lt_two_pow (Nat.lt_of_lt_of_le hb (by decide))
      simp [encode, getElem_ofNat64, d1, d2]
    · have h3 : (1#64).getLsbD k = false := by
        rw [BitVec.getLsbD_ofNat]
        rw [Nat.testBit_lt_two_pow (Nat.lt_of_lt_of_le (by decide : 1 < 2 ^ 1)
          (Nat.pow_le_pow_right (by omega) (by omega)))]
        simp
      have h4 : shared.toNat.testBit k = false :=
        Nat.testBit_lt_two_pow (Nat.lt_of_lt_of_le hsh
          (by calc 2 = 2 ^ 1 := rfl
            _ ≤ 2 ^ k := Nat.pow_le_pow_right (by omega) (by omega)))
      rw [BitVec.getLsbD_and, h3]
      simp [BitVec.getLsbD_ofNat, h4]
  have e4 : (encode ⟨size, backend, shared, device⟩ &&& 0xFF#64) = BitVec.ofNat 64 device := by
    apply BitVec.eq_of_getLsbD_eq
    intro k hk
    by_cases hk2 : k < 8
    · have : (0xFF#64).getLsbD k = true := by
        have : k = 0 ∨ k = 1 ∨ k = 2 ∨ k = 3 ∨ k = 4 ∨ k = 5 ∨ k = 6 ∨ k = 7 := by omega
        rcases this with rfl | rfl | rfl | rfl | rfl | rfl | rfl | rfl <;> decide
      rw [BitVec.getLsbD_and, this]
      simp [encode, hk, hk2, show k < 11 by omega, show k < 10 by omega]
    · have h3 : (0xFF#64).getLsbD k = false := by
        rw [BitVec.getLsbD_ofNat]
        rw [Nat.testBit_lt_two_pow (Nat.lt_of_lt_of_le (by decide : 0xFF < 2 ^ 8)
          (Nat.pow_le_pow_right (by omega) (by omega)))]
        simp
      have h4 : device.testBit k = false :=
        Nat.testBit_lt_two_pow (Nat.lt_of_lt_of_le hd
          (by calc 256 = 2 ^ 8 := rfl
            _ ≤ 2 ^ k := Nat.pow_le_pow_right (by omega) (by omega)))
      rw [BitVec.getLsbD_and, h3]
      simp [BitVec.getLsbD_ofNat, h4]
  unfold decode
  rw [e1, e2, e3, e4]
  congr
  · simp; omega
  · cases backend <;> decide
  · cases shared <;> decide
  · simp; omega

example : decode (encode ⟨2 ^ 40, .metal, true, 7⟩) = ⟨2 ^ 40, .metal, true, 7⟩ := by decide

/-! ## C04: live allocations never overlap -/

theorem pairwise_forall {l : List Block} (h : l.Pairwise Block.disj) :
    ∀ {a b : Block}, a ∈ l → b ∈ l → a ≠ b → a.disj b := by
  induction l with
  | nil => intro a b ha; cases ha
  | cons x l ih =>
    intro a b ha hb hne
    rw [List.pairwise_cons] at h
    rcases List.mem_cons.1 ha with ea | ha' <;> rcases List.mem_cons.1 hb with eb | hb'
    · exact absurd (ea.trans eb.symm) hne
    · rw [ea]; exact h.1 b hb'
    · rw [eb]; exact Block.disj_symm (h.1 a ha')
    · exact ih h.2 ha' hb' hne

/-- **C04**: after every history the live blocks are pairwise disjoint. -/
theorem C04_live_blocks_disjoint (cfg : Cfg) (ops : List Op) (h : OkRun cfg {} ops) :
    (State.run cfg {} ops).used.Pairwise fun a b =>
      Disj a.ptr a.info.size b.ptr b.info.size :=
  (inv_run cfg ops {} inv_init h).disj.sublist (List.sublist_append_left _ _)

/-- **C04**: after every history, an allocation of `n > 0` bytes that returns a pointer `p` returns
a non-null block of at least `n` bytes that overlaps none of the blocks that were live before;
these stay live, and exactly the new block is added. -/
theorem C04_malloc_returns_fresh_block (cfg : Cfg) (ops : List Op) (h : OkRun cfg {} ops)
    (b : Backend) (n : Nat) (shared : Bool) (dev : Nat) (o1 o2 : Option Nat) (env : Env)
    (hn : 0 < n) (hok : MallocOk cfg (State.run cfg {} ops) b n o1 o2 env) (p : Nat) (s' : State)
    (hres : (State.run cfg {} ops).malloc cfg b n shared dev o1 o2 env = (.ptr p, s')) :
    p ≠ 0 ∧ ∃ i : Info, i.backend = b ∧ i.shared = (if b = .none then false else shared) ∧
      n ≤ i.size ∧ s'.used = ⟨p, i⟩ :: (State.run cfg {} ops).used ∧
      ∀ c ∈ (State.run cfg {} ops).used, Disj p i.size c.ptr c.info.size := by
  have hm := malloc_inv cfg _ (inv_run cfg ops {} inv_init h) b n shared dev o1 o2 env hok
  rw [hres] at hm
  have hp := hm.2.2.1 p rfl hn
  obtain ⟨i, h1, h2, h3, h4⟩ := hp.live
  refine ⟨hp.nonnull, i, h3, h4, ?_, h1, ?_⟩
  · rw [h2]; exact (C05_capacity cfg b n hn hok.size_le hok.width_le).1
  · rw [h2]; exact hp.fresh

/-- **C04**: a failing allocation leaves the set of live blocks as it was. -/
theorem C04_malloc_failure_keeps_live_blocks (cfg : Cfg) (ops : List Op) (h : OkRun cfg {} ops)
    (b : Backend) (n : Nat) (shared : Bool) (dev : Nat) (o1 o2 : Option Nat) (env : Env)
    (hok : MallocOk cfg (State.run cfg {} ops) b n o1 o2 env)
    (hres : ((State.run cfg {} ops).malloc cfg b n shared dev o1 o2 env).1 = .raise) :
    ((State.run cfg {} ops).malloc cfg b n shared dev o1 o2 env).2.used =
      (State.run cfg {} ops).used :=
  (malloc_inv cfg _ (inv_run cfg ops {} inv_init h) b n shared dev o1 o2 env hok).2.2.2 hres

/-- **C04**: freeing a pointer that is not live raises, and changes nothing. -/
theorem C04_free_unknown_raises (s : State) (p t : Nat) (ts : Bool) (hp : p ≠ 0)
    (h : ∀ b ∈ s.used, b.ptr ≠ p) : s.release p t ts = (.raise, s) := by
  unfold State.release
  rw [if_neg hp]
  have : s.used.find? (fun b => b.ptr == p) = none := by
    rw [List.find?_eq_none]
    intro b hb
    simpa using h b hb
  rw [this]

/-- `free` on a live block of a state satisfying the invariant. -/
theorem release_live (s : State) (hi : Inv s) (b : Block) (hb : b ∈ s.used) (t t' : Nat)
    (ts ts' : Bool) :
    (s.release b.ptr t ts).1 = .unit ∧ s.used.Perm (b :: (s.release b.ptr t ts).2.used) ∧
    ((s.release b.ptr t ts).2.release b.ptr t' ts').1 = .raise := by
  have hd : s.used.Pairwise Block.disj := hi.disj.sublist (List.sublist_append_left _ _)
  have hpos := hi.pos b (mem_owned_used hb)
  have huniq : ∀ c ∈ s.used, c.ptr = b.ptr → c = b := by
    intro c hc e
    by_contra hne
    have h1 := pairwise_forall hd hc hb hne
    have h2 := (hi.pos c (mem_owned_used hc)).2
    rw [Block.disj, e] at h1
    rcases h1 with h1 | h1 <;> omega
  have hf : s.used.find? (fun c => c.ptr == b.ptr) = some b := by
    cases hc : s.used.find? (fun c => c.ptr == b.ptr) with
    | none =>
      rw [List.find?_eq_none] at hc
      exact absurd (hc b hb) (by simp)
    | some c =>
      obtain ⟨m1, m2⟩ := find_mem hc
      rw [huniq c m1 (by simpa using m2)]
  have hperm : s.used.Perm (b :: s.used.erase b) := List.perm_cons_erase hb
  have hu : (s.release b.ptr t ts).1 = .unit ∧ (s.release b.ptr t ts).2.used = s.used.erase b := by
    unfold State.release
    rw [if_neg hpos.1, hf]
    simp only
    split
    · exact ⟨rfl, rfl⟩
    · split
      · exact ⟨rfl, rfl⟩
      · split <;> exact ⟨rfl, rfl⟩
  refine ⟨hu.1, by rw [hu.2]; exact hperm, ?_⟩
  rw [C04_free_unknown_raises _ _ _ _ hpos.1]
  rw [hu.2]
  intro c hc e
  have hd2 := (hperm.pairwise_iff Block.disj_symm).1 hd
  rw [List.pairwise_cons] at hd2
  have h1 := hd2.1 c hc
  have h2 := (hi.pos c (mem_owned_used (List.mem_of_mem_erase hc))).2
  rw [Block.disj, e] at h1
  rcases h1 with h1 | h1 <;> omega

/-- **C04**: freeing a live pointer succeeds, removes exactly its block from the live blocks,
and a second free raises. -/
theorem C04_free_live (cfg : Cfg) (ops : List Op) (h : OkRun cfg {} ops) (b : Block)
    (hb : b ∈ (State.run cfg {} ops).used) (t t' : Nat) (ts ts' : Bool) :
    ((State.run cfg {} ops).release b.ptr t ts).1 = .unit ∧
    (State.run cfg {} ops).used.Perm (b :: ((State.run cfg {} ops).release b.ptr t ts).2.used) ∧
    (((State.run cfg {} ops).release b.ptr t ts).2.release b.ptr t' ts').1 = .raise := by
  have hi := inv_run cfg ops {} inv_init h
  exact release_live _ hi b hb t t' ts ts'

/-- The hypotheses are met by a history in which a block is recycled. -/
def exOps : List Op :=
  [.malloc .llvm 100 false 0 (some 4096) none {}, .malloc .none 10 false 0 (some 8192) none {},
   .free 4096 0 true, .malloc .llvm 70 false 0 none none {}]

example : OkRun {} {} exOps := by
  refine ⟨⟨by decide, by decide, ?_, fun _ _ _ h => (by cases h), by decide⟩,
    ⟨by decide, by decide, ?_, fun _ _ _ h => (by cases h), by decide⟩, trivial,
    ⟨by decide, by decide, fun _ h => (by cases h), fun _ _ _ _ h => (by cases h), ?_⟩, trivial⟩
  · intro p hp; cases hp; decide
  · intro p hp; cases hp; decide
  · decide

example : (State.run {} {} exOps).used.map (·.ptr) = [4096, 8192] := by decide

/-- **C04** fails without the assumption that big host allocations succeed: when `mmap` fails for
two requests of 2 MiB or more, both calls return the same non-null pointer `MAP_FAILED`
and report success. -/
theorem C04_big_allocation_failure_aliases :
    let r1 := State.malloc {} {} .llvm (4 * 1024 * 1024) false 0 none none {}
    let r2 := State.malloc {} r1.2 .llvm (8 * 1024 * 1024) false 0 none none {}
    r1.1 = .ptr (2 ^ 64 - 1) ∧ r2.1 = .ptr (2 ^ 64 - 1) := by
  decide

/-! ## C06: statistics -/

/-- Is the result of every operation of the history different from an exception? -/
def NoRaise (cfg : Cfg) (s : State) : List Op → Prop
  | [] => True
  | o :: os => (s.step cfg o).1 ≠ .raise ∧ NoRaise cfg (s.step cfg o).2 os

/-- No host ↔ LLVM move occurs in the history. -/
def NoRetag (cfg : Cfg) (s : State) : List Op → Prop
  | [] => True
  | o :: os => isRetag s o = false ∧ NoRetag cfg (s.step cfg o).2 os

theorem run_counters (cfg : Cfg) (ops : List Op) : ∀ s, Inv s → OkRun cfg s ops →
    (UsageOk s → UsageOk (s.run cfg ops)) ∧ (∀ b, drift s b ≤ drift (s.run cfg ops) b) ∧
    (NoRaise cfg s ops → ∀ b, drift (s.run cfg ops) b = drift s b) ∧
    (NoRetag cfg s ops → (∀ b, s.allocated b ≤ s.watermark b) →
      ∀ b, (s.run cfg ops).allocated b ≤ (s.run cfg ops).watermark b) := by
  induction ops with
  | nil => intro s _ _; exact ⟨id, fun _ => Int.le_refl _, fun _ _ => rfl, fun _ => id⟩
  | cons o os ih =>
    intro s hi hok
    obtain ⟨c1, c2⟩ := step_counters cfg s hi o hok.1
    obtain ⟨a1, a2, a3, a4⟩ := ih _ (inv_step cfg s hi o hok.1) hok.2
    refine ⟨fun h => a1 (c1.usage h), fun b => Int.le_trans (c1.drift_le b) (a2 b), ?_, ?_⟩
    · intro h b; exact (a3 h.2 b).trans (c1.drift_eq h.1 b)
    · intro h hw
      refine a4 h.2 ?_
      by_cases hc : o = .clearStats
      · subst hc; intro b; exact Int.le_refl _
      · exact (c2 h.1 hc).dom hw

/-- **C06** (usage): after every history the reported usage is the total size of the live blocks. -/
theorem C06_usage_exact (cfg : Cfg) (ops : List Op) (h : OkRun cfg {} ops) (b : Backend) :
    (State.run cfg {} ops).usage b =
      (((State.run cfg {} ops).used.filter fun x => x.info.backend = b).map
        fun x => (x.info.size : Int)).sum :=
  (run_counters cfg ops {} inv_init h).1 (fun b => by simp [sizeOf]) b

/-- **C06** (allocated): the reported amount is never less than the total size of all blocks held. -/
theorem C06_allocated_ge (cfg : Cfg) (ops : List Op) (h : OkRun cfg {} ops) (b : Backend) :
    (((State.run cfg {} ops).owned.filter fun x => x.info.backend = b).map
        fun x => (x.info.size : Int)).sum ≤ (State.run cfg {} ops).allocated b := by
  have := (run_counters cfg ops {} inv_init h).2.1 b
  simp only [drift, sizeOf] at this
  simp [State.owned] at this ⊢
  omega

/-- **C06** (allocated, partial): the reported amount is exact as long as no call has raised.
Missing: histories with a failed allocation, for which the claim is false
(`C06_failed_allocation_is_counted`). -/
theorem C06_allocated_exact_partial (cfg : Cfg) (ops : List Op) (h : OkRun cfg {} ops)
    (hr : NoRaise cfg {} ops) (b : Backend) :
    (State.run cfg {} ops).allocated b =
      (((State.run cfg {} ops).owned.filter fun x => x.info.backend = b).map
        fun x => (x.info.size : Int)).sum := by
  have := (run_counters cfg ops {} inv_init h).2.2.1 hr b
  have h0 : drift {} b = 0 := by simp [drift, sizeOf, State.owned]
  rw [h0] at this
  simp only [drift, sizeOf] at this
  omega

/-- A failed allocation is counted in the reported allocated amount for ever: after it, no
block is held, yet the counter is positive. -/
theorem C06_failed_allocation_is_counted :
    let s := State.run {} {} [.malloc .llvm 100 false 0 none none {}]
    s.owned = [] ∧ s.allocated .llvm = 128 ∧ s.watermark .llvm = 128 := by
  decide

/-- **C06** (watermark, partial): the watermark is at least the current allocated amount after every
history without host ↔ LLVM moves.  Missing: histories with such moves, for which the
claim is false (`C06_move_ignores_watermark`). -/
theorem C06_watermark_ge_partial (cfg : Cfg) (ops : List Op) (h : OkRun cfg {} ops)
    (hr : NoRetag cfg {} ops) (b : Backend) :
    (State.run cfg {} ops).allocated b ≤ (State.run cfg {} ops).watermark b :=
  (run_counters cfg ops {} inv_init h).2.2.2 hr (fun _ => Int.le_refl _) b

/-- A host → LLVM move makes the allocated amount exceed the watermark. -/
theorem C06_move_ignores_watermark :
    let s := State.run {} {} [.malloc .none 100 false 0 (some 4096) none {},
      .migrate 4096 .llvm true 0 0 ⟨none, none, none, none⟩ {}]
    s.allocated .llvm = 128 ∧ s.watermark .llvm = 0 := by
  decide

/-- **C06**: between resets and without moves, the watermark never decreases, hence it dominates
every past allocated amount. -/
theorem C06_watermark_dominates_past_partial (cfg : Cfg) (ops ops' : List Op)
    (h : OkRun cfg {} (ops ++ ops')) (hr : NoRetag cfg {} (ops ++ ops'))
    (hc : ∀ o ∈ ops', o ≠ .clearStats) (b : Backend) :
    (State.run cfg {} ops).allocated b ≤ (State.run cfg {} (ops ++ ops')).watermark b := by
  have split_ok : ∀ (l : List Op) (s : State), OkRun cfg s (l ++ ops') →
      OkRun cfg s l ∧ OkRun cfg (s.run cfg l) ops' := by
    intro l
    induction l with
    | nil => intro s h; exact ⟨trivial, h⟩
    | cons o os ih => intro s h; exact ⟨⟨h.1, (ih _ h.2).1⟩, (ih _ h.2).2⟩
  have split_rt : ∀ (l : List Op) (s : State), NoRetag cfg s (l ++ ops') →
      NoRetag cfg s l ∧ NoRetag cfg (s.run cfg l) ops' := by
    intro l
    induction l with
    | nil => intro s h; exact ⟨trivial, h⟩
    | cons o os ih => intro s h; exact ⟨⟨h.1, (ih _ h.2).1⟩, (ih _ h.2).2⟩
  have split_run : ∀ (l : List Op) (s : State), s.run cfg (l ++ ops') = (s.run cfg l).run cfg ops' := by
    intro l
    induction l with
    | nil => intro s; rfl
    | cons o os ih => intro s; exact ih _
  obtain ⟨h1, h2⟩ := split_ok ops {} h
  obtain ⟨r1, r2⟩ := split_rt ops {} hr
  rw [split_run]
  have hw := C06_watermark_ge_partial cfg ops h1 r1 b
  have hi := inv_run cfg ops {} inv_init h1
  refine Int.le_trans hw ?_
  generalize State.run cfg {} ops = s at *
  clear hw h1 r1 split_ok split_rt split_run h hr
  induction ops' generalizing s with
  | nil => exact Int.le_refl _
  | cons o os ih =>
    have hstep := (step_counters cfg s hi o h2.1).2 r2.1 (hc o (by simp))
    exact Int.le_trans (hstep.mono b)
      (ih (fun o ho => hc o (by simp [ho])) _ h2.2 r2.2 (inv_step cfg s hi o h2.1))

example : let s := State.run {} {} exOps
    s.usage .llvm = 128 ∧ s.allocated .llvm = 128 ∧ s.usage .none = 64 ∧ s.watermark .none = 64 := by
  decide
example : NoRaise {} {} exOps ∧ NoRetag {} {} exOps := by
  refine ⟨⟨by decide, by decide, by decide, by decide, trivial⟩,
    ⟨by decide, by decide, by decide, by decide, trivial⟩⟩

/-! ## C07: deferred release -/

/-- The block is waiting for in-flight work: it is on the open list of a thread, or
in a batch whose work has not completed. -/
def Parked (s : State) (b : Block) : Prop :=
  (∃ t, (t, b) ∈ s.later) ∨ ∃ x ∈ s.inflight, b ∈ x.2

/-- The operation ends the wait of the block: the work to which it is attached completes, or
the thread that holds it exits. -/
def EndsWait (s : State) (b : Block) : Op → Prop
  | .complete n => ∃ x, s.inflight[n]? = some x ∧ b ∈ x.2
  | .threadExit t => (t, b) ∈ s.later
  | _ => False

/-- **C07**: releasing a live shared block (memory that asynchronous work accesses) parks it. -/
theorem C07_free_shared_parks (cfg : Cfg) (ops : List Op) (h : OkRun cfg {} ops) (b : Block)
    (hb : b ∈ (State.run cfg {} ops).used) (t : Nat)
    (hs : b.info.shared = true) (hbk : b.info.backend ≠ .none) :
    Parked ((State.run cfg {} ops).release b.ptr t true).2 b := by
  have hi := inv_run cfg ops {} inv_init h
  generalize State.run cfg {} ops = s at *
  have hd : s.used.Pairwise Block.disj := hi.disj.sublist (List.sublist_append_left _ _)
  have hpos := hi.pos b (mem_owned_used hb)
  have hf : s.used.find? (fun c => c.ptr == b.ptr) = some b := by
    cases hc : s.used.find? (fun c => c.ptr == b.ptr) with
    | none =>
      rw [List.find?_eq_none] at hc
      exact absurd (hc b hb) (by simp)
    | some c =>
      obtain ⟨m1, m2⟩ := find_mem hc
      by_contra hne
      have hne : c ≠ b := fun e => hne (by rw [e])
      have h1 := pairwise_forall hd m1 hb hne
      have h2 := (hi.pos c (mem_owned_used m1)).2
      rw [Block.disj, show c.ptr = b.ptr by simpa using m2] at h1
      rcases h1 with h1 | h1 <;> omega
  unfold State.release
  rw [if_neg hpos.1, hf]
  simp [hs, hbk, Parked]

theorem malloc_later (cfg : Cfg) (s : State) (b : Backend) (n : Nat) (sh : Bool) (d : Nat)
    (o1 o2 : Option Nat) (fz : Env) :
    (s.malloc cfg b n sh d o1 o2 fz).2.later = s.later ∧
    (s.malloc cfg b n sh d o1 o2 fz).2.inflight = s.inflight := by
  unfold State.malloc
  split
  · exact ⟨rfl, rfl⟩
  · simp only
    split
    · exact ⟨rfl, rfl⟩
    · split
      · exact ⟨rfl, rfl⟩
      · split
        · exact ⟨rfl, rfl⟩
        · rename_i s1 hfl
          have : s1.later = s.later ∧ s1.inflight = s.inflight := by
            unfold State.flush at hfl
            split at hfl
            · cases hfl
            · cases hfl; exact ⟨rfl, rfl⟩
          split <;> exact this

theorem release_later (s : State) (p t : Nat) (h : Bool) :
    (∀ x ∈ s.later, x ∈ (s.release p t h).2.later) ∧ (s.release p t h).2.inflight = s.inflight := by
  unfold State.release
  split
  · exact ⟨fun _ h => h, rfl⟩
  · split
    · exact ⟨fun _ h => h, rfl⟩
    · simp only
      split
      · exact ⟨fun _ h => h, rfl⟩
      · split
        · exact ⟨fun _ h => h, rfl⟩
        · split
          · exact ⟨fun _ h => List.mem_cons_of_mem _ h, rfl⟩
          · exact ⟨fun _ h => h, rfl⟩

theorem migrate_later (cfg : Cfg) (s : State) (p : Nat) (dst : Backend) (mv : Bool) (t d : Nat)
    (os : OsAnswers) (fz : Env) :
    (∀ x ∈ s.later, x ∈ (s.migrate cfg p dst mv t d os fz).2.later) ∧
    (s.migrate cfg p dst mv t d os fz).2.inflight = s.inflight := by
  have hm := fun (s : State) b n sh d o1 o2 => malloc_later cfg s b n sh d o1 o2 fz
  have hm' : ∀ (s : State) b n sh d o1 o2,
      (∀ x ∈ s.later, x ∈ (s.malloc cfg b n sh d o1 o2 fz).2.later) ∧
      (s.malloc cfg b n sh d o1 o2 fz).2.inflight = s.inflight := fun s b n sh d o1 o2 =>
    ⟨fun x h => by rw [(hm s b n sh d o1 o2).1]; exact h, (hm s b n sh d o1 o2).2⟩
  have hme : ∀ {s s1 : State} {b n sh d o1 o2 r}, s.malloc cfg b n sh d o1 o2 fz = (r, s1) →
      (∀ x ∈ s.later, x ∈ s1.later) ∧ s1.inflight = s.inflight := by
    intro s s1 b n sh d o1 o2 r h
    have := hm' s b n sh d o1 o2
    rw [h] at this
    exact this
  have htr : ∀ {s1 s2 s3 : State}, ((∀ x ∈ s1.later, x ∈ s2.later) ∧ s2.inflight = s1.inflight) →
      ((∀ x ∈ s2.later, x ∈ s3.later) ∧ s3.inflight = s2.inflight) →
      ((∀ x ∈ s1.later, x ∈ s3.later) ∧ s3.inflight = s1.inflight) :=
    fun h1 h2 => ⟨fun x h => h2.1 x (h1.1 x h), h2.2.trans h1.2⟩
  unfold State.migrate
  split
  · exact ⟨fun _ h => h, rfl⟩
  · split
    · exact ⟨fun _ h => h, rfl⟩
    · simp only
      split
      · exact ⟨fun _ h => h, rfl⟩
      · split
        · split
          · exact ⟨fun _ h => h, rfl⟩
          · exact hm' _ _ _ _ _ _ _
        · split
          · split
            · exact ⟨fun _ h => h, rfl⟩
            · exact hm' _ _ _ _ _ _ _
          · split
            · rename_i q s1 heq
              have h1 : (∀ x ∈ s.later, x ∈ s1.later) ∧ s1.inflight = s.inflight :=
                hme heq
              split
              · split
                · rename_i tmp s2 heq2
                  have h2 : (∀ x ∈ s1.later, x ∈ s2.later) ∧ s2.inflight = s1.inflight :=
                    hme heq2
                  have h3 := htr (htr h1 h2) (release_later s2 tmp t true)
                  split
                  · exact htr h3 (release_later _ p t true)
                  · exact h3
                · rename_i r s2 _ heq2
                  have h2 : (∀ x ∈ s1.later, x ∈ s2.later) ∧ s2.inflight = s1.inflight :=
                    hme heq2
                  exact htr h1 h2
              · split
                · exact htr h1 (release_later s1 p t true)
                · exact h1
            · rename_i r s1 _ heq
              exact hme heq

/-- A block keeps waiting until an operation ends its wait. -/
theorem parked_step (cfg : Cfg) (s : State) (b : Block) (hp : Parked s b) (o : Op)
    (ho : ¬ EndsWait s b o) : Parked (s.step cfg o).2 b := by
  have keep : ∀ s' : State, (∀ x ∈ s.later, x ∈ s'.later) → s'.inflight = s.inflight → Parked s' b := by
    intro s' h1 h2
    rcases hp with ⟨t, ht⟩ | ⟨x, hx, hb⟩
    · exact Or.inl ⟨t, h1 _ ht⟩
    · exact Or.inr ⟨x, by rw [h2]; exact hx, hb⟩
  cases o with
  | malloc bk n sh d o1 o2 fz =>
    have := malloc_later cfg s bk n sh d o1 o2 fz
    exact keep _ (fun x h => by simp only [State.step]; rw [this.1]; exact h) this.2
  | free p t h => exact keep _ (release_later s p t h).1 (release_later s p t h).2
  | migrate p dst mv t d os fz =>
    exact keep _ (migrate_later cfg s p dst mv t d os fz).1 (migrate_later cfg s p dst mv t d os fz).2
  | flush fz =>
    simp only [State.step]
    cases h : s.flush fz with
    | none => exact hp
    | some s' =>
      unfold State.flush at h
      split at h
      · cases h
      · cases h; exact hp
  | submit t =>
    rcases hp with ⟨u, hu⟩ | ⟨x, hx, hb⟩
    · by_cases e : u = t
      · subst e
        right
        refine ⟨(u, (s.later.filter fun x => x.1 == u).map (·.2)), by simp [State.step, State.submit], ?_⟩
        rw [List.mem_map]
        exact ⟨(u, b), by simp [hu], rfl⟩
      · left
        exact ⟨u, by simp [State.step, State.submit, hu, e]⟩
    · right
      exact ⟨x, by simp [State.step, State.submit, hx], hb⟩
  | complete n =>
    simp only [State.step, State.complete]
    cases hn : s.inflight[n]? with
    | none => exact hp
    | some y =>
      obtain ⟨t', batch⟩ := y
      simp only
      rcases hp with h | ⟨x, hx, hb⟩
      · exact Or.inl h
      · right
        obtain ⟨i, hi, hxi⟩ := List.mem_iff_getElem.1 hx
        have hne : i ≠ n := by
          rintro rfl
          apply ho
          refine ⟨x, ?_, hb⟩
          rw [List.getElem?_eq_getElem hi, hxi]
        refine ⟨x, ?_, hb⟩
        rw [List.mem_eraseIdx_iff_getElem]
        exact ⟨i, hi, hne, hxi⟩
  | threadExit t =>
    rcases hp with ⟨u, hu⟩ | h
    · left
      have e : u ≠ t := by
        rintro rfl; exact ho hu
      exact ⟨u, by simp [State.step, State.threadExit, hu, e]⟩
    · exact Or.inr h
  | clearStats => exact hp

/-- No operation of the history ends the wait of `b`. -/
def NeverEnds (cfg : Cfg) (s : State) (b : Block) : List Op → Prop
  | [] => True
  | o :: os => ¬ EndsWait s b o ∧ NeverEnds cfg (s.step cfg o).2 b os

theorem parked_run (cfg : Cfg) (b : Block) (ops : List Op) : ∀ s, Parked s b →
    NeverEnds cfg s b ops → Parked (s.run cfg ops) b := by
  induction ops with
  | nil => intro s h _; exact h
  | cons o os ih => intro s h hn; exact ih _ (parked_step cfg s b h o hn.1) hn.2

theorem parked_owned {s : State} {b : Block} (h : Parked s b) : b ∈ s.owned := by
  rcases h with ⟨t, ht⟩ | ⟨x, hx, hb⟩
  · simp only [State.owned, List.mem_append, List.mem_map]
    exact Or.inr (Or.inr (Or.inl ⟨(t, b), ht, rfl⟩))
  · simp only [State.owned, List.mem_append, List.mem_flatten, List.mem_map]
    exact Or.inr (Or.inr (Or.inr (Or.inr (Or.inl ⟨x.2, ⟨x, hx, rfl⟩, hb⟩))))

theorem OkRun.append {cfg : Cfg} (l l' : List Op) : ∀ s, OkRun cfg s (l ++ l') →
    OkRun cfg s l ∧ OkRun cfg (s.run cfg l) l' := by
  induction l with
  | nil => intro s h; exact ⟨trivial, h⟩
  | cons o os ih => intro s h; exact ⟨⟨h.1, (ih _ h.2).1⟩, (ih _ h.2).2⟩

theorem run_append (cfg : Cfg) (l l' : List Op) : ∀ s : State,
    s.run cfg (l ++ l') = (s.run cfg l).run cfg l' := by
  induction l with
  | nil => intro s; rfl
  | cons o os ih => intro s; exact ih _

/-- **C07**: a shared live block `b` is released after the history `ops`.  Whatever happens next
(`ops'`), as long as neither the work to which it is attached completes nor its thread
exits, no allocation returns memory that overlaps it. -/
theorem C07_no_reuse_while_in_flight (cfg : Cfg) (ops ops' : List Op) (b : Block) (t : Nat)
    (hok : OkRun cfg {} (ops ++ .free b.ptr t true :: ops'))
    (hb : b ∈ (State.run cfg {} ops).used) (hs : b.info.shared = true)
    (hbk : b.info.backend ≠ .none)
    (hend : NeverEnds cfg ((State.run cfg {} ops).release b.ptr t true).2 b ops')
    (bk : Backend) (n : Nat) (sh : Bool) (d : Nat) (o1 o2 : Option Nat) (env : Env) (hn : 0 < n)
    (hm : MallocOk cfg (State.run cfg {} (ops ++ .free b.ptr t true :: ops')) bk n o1 o2 env)
    (p : Nat) (s' : State)
    (hres : (State.run cfg {} (ops ++ .free b.ptr t true :: ops')).malloc cfg bk n sh d o1 o2 env =
      (.ptr p, s')) :
    Disj p (roundSize cfg bk n) b.ptr b.info.size := by
  obtain ⟨h1, h2⟩ := OkRun.append ops _ _ hok
  have hp := C07_free_shared_parks cfg ops h1 b hb t hs hbk
  have hp2 := parked_run cfg b ops' _ hp hend
  have hrun : State.run cfg {} (ops ++ .free b.ptr t true :: ops') =
      ((State.run cfg {} ops).release b.ptr t true).2.run cfg ops' := by
    rw [run_append]; rfl
  rw [← hrun] at hp2
  have hi := inv_run cfg _ _ inv_init hok
  have hpost := malloc_inv cfg _ hi bk n sh d o1 o2 env hm
  have hlat := malloc_later cfg (State.run cfg {} (ops ++ .free b.ptr t true :: ops')) bk n sh d o1 o2 env
  rw [hres] at hpost hlat
  obtain ⟨i, hu, hsz, _⟩ := (hpost.2.2.1 p rfl hn).live
  have hi' : Inv s' := hpost.1
  have hp3 : Parked s' b := by
    rcases hp2 with ⟨u, hu⟩ | ⟨x, hx, hb⟩
    · exact Or.inl ⟨u, by rw [hlat.1]; exact hu⟩
    · exact Or.inr ⟨x, by rw [hlat.2]; exact hx, hb⟩
  -- the new block heads the list of owned blocks, `b` is further down
  have hd := hi'.disj
  unfold State.owned at hd
  rw [hu, List.cons_append, List.pairwise_cons] at hd
  have hbm : b ∈ (State.run cfg {} (ops ++ .free b.ptr t true :: ops')).used ++ (s'.free ++
      (s'.later.map (·.2) ++ (s'.next.map (·.2) ++
        ((s'.inflight.map (·.2)).flatten ++ s'.leaked)))) := by
    rcases hp3 with ⟨u, hu⟩ | ⟨x, hx, hb⟩
    · simp only [List.mem_append, List.mem_map]
      exact Or.inr (Or.inr (Or.inl ⟨(u, b), hu, rfl⟩))
    · simp only [List.mem_append, List.mem_flatten, List.mem_map]
      exact Or.inr (Or.inr (Or.inr (Or.inr (Or.inl ⟨x.2, ⟨x, hx, rfl⟩, hb⟩))))
  have := hd.1 b hbm
  rw [Block.disj] at this
  simp only at this
  rw [hsz] at this
  exact this

/-- A shared block is allocated, released, attached to in-flight work; a request of the same kind then
needs new memory, and after completion the block is recycled. -/
def exShared : List Op :=
  [.malloc .llvm 100 true 0 (some 4096) none {}, .free 4096 1 true, .submit 1]

example : NeverEnds {} ((State.run {} {} (exShared.take 1)).release 4096 1 true).2
    ⟨4096, ⟨128, .llvm, true, 0⟩⟩ (exShared.drop 2) := ⟨id, trivial⟩
example : (⟨4096, ⟨128, .llvm, true, 0⟩⟩ : Block) ∈ (State.run {} {} (exShared.take 1)).used := by decide
example : ((State.run {} {} exShared).malloc {} .llvm 100 true 0 (some 16384) none {}).1 =
    .ptr 16384 := by decide
example : ((State.run {} {} (exShared ++ [.complete 0])).malloc {} .llvm 100 true 0 (some 16384) none
    {}).1 = .ptr 4096 := by decide

end Verif.Alloc
