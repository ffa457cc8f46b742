import Verif.CudaLaunch.Lemmas

/-!
# C88: Launches on CUDA devices, `jit_memset_async`, `jit_poke`, `jit_aggregate`
-/
namespace Verif.CudaLaunch
open Verif.CudaPerm (Config launchConfig u32)
open Verif.Llvm.Mem (Byte Entry aggStep putBytes aggStep_wp putBytes_wp single)
open Verif.Par

/-! ### Launches -/

/-- **C88.**  Generated kernels: every element is evaluated exactly once, for every number of multiprocessors, block
size of the kernel and size up to 2^32 - 1024. -/
theorem C88_each_once_partial (sm size mt : Nat) (hsm : 0 < sm) (hsm2 : sm < 2 ^ 16) (hs : 0 < size) (hs2 : size ≤ 2 ^ 32 - 1024)
    (hm : 0 < mt) (hm2 : mt ≤ 1024) : (evaluated sm size mt).Perm (List.range size) := by
  obtain ⟨h1, h2, h3, h4, h5, h6⟩ := config_spec hsm hsm2 hs (by omega) hm hm2
  unfold evaluated
  simp only
  rw [indices_eq (by omega), filter_range h5]

example : (evaluated 108 1000003 768).Perm (List.range 1000003) :=
  C88_each_once_partial _ _ _ (by omega) (by omega) (by omega) (by omega) (by omega) (by omega)

theorem optix_spec (pre : Bool) (size offset : Nat) (h : offset + size ≤ 2 ^ 32) :
    ((optixLaunches pre size offset).flatMap fun x => (List.range x.2).map fun i => u32 (i + x.1)) = (List.range size).map fun i => offset + i := by
  induction size using Nat.strong_induction_on generalizing offset with
  | _ size ih =>
    rw [optixLaunches]
    by_cases hs : 0 < size
    · rw [dif_pos hs]
      have hl := optixLimit_pos pre
      obtain ⟨sub, hsub⟩ : ∃ sub, sub = if size < optixLimit pre then size else optixLimit pre := ⟨_, rfl⟩
      have hb : 0 < sub ∧ sub ≤ size := by rw [hsub]; split <;> omega
      simp only [← hsub]
      rw [List.flatMap_cons]
      have h1 : (List.range sub).map (fun i => u32 (i + offset)) = (List.range sub).map fun i => offset + i := by
        apply List.map_congr_left
        intro i hi
        have := List.mem_range.1 hi
        unfold u32
        rw [Nat.mod_eq_of_lt (by omega), Nat.add_comm]
      obtain ⟨d, rfl⟩ := Nat.exists_eq_add_of_le hb.2
      rw [h1, Nat.add_sub_cancel_left, List.range_add, List.map_append]
      congr 1
      rw [List.map_map]
      by_cases hd : d = 0
      · subst hd; rw [optixLaunches]; simp
      · have hu : u32 (offset + sub) = offset + sub := by unfold u32; rw [Nat.mod_eq_of_lt (by omega)]
        rw [hu, ih d (by omega) (offset + sub) (by omega)]
        apply List.map_congr_left
        intro i _
        simp only [Function.comp_apply]
        omega
    · rw [dif_neg hs]
      have : size = 0 := by omega
      subst this
      simp

/-- **C88.**  Launches with OptiX, which are split up: every element is evaluated exactly once, for all sizes. -/
theorem C88_optix_each_once (preemptable : Bool) (size : Nat) (h : size < 2 ^ 32) : optixEvaluated preemptable size = List.range size := by
  unfold optixEvaluated
  rw [optix_spec _ _ _ (by omega)]
  simp

/-- **C88.**  OptiX accepts at most 2^30 threads per launch, and no empty launches. -/
theorem C88_optix_limits (preemptable : Bool) (size offset : Nat) : ∀ x ∈ optixLaunches preemptable size offset, 0 < x.2 ∧ x.2 ≤ 2 ^ 30 := by
  induction size using Nat.strong_induction_on generalizing offset with
  | _ size ih =>
    rw [optixLaunches]
    by_cases hs : 0 < size
    · rw [dif_pos hs]
      have hl := optixLimit_pos preemptable
      have hl2 : optixLimit preemptable ≤ 2 ^ 30 := by cases preemptable <;> decide
      obtain ⟨sub, hsub⟩ : ∃ sub, sub = if size < optixLimit preemptable then size else optixLimit preemptable := ⟨_, rfl⟩
      have hb : 0 < sub ∧ sub ≤ size ∧ sub ≤ 2 ^ 30 := by rw [hsub]; split <;> omega
      simp only [← hsub]
      intro x hx
      rcases List.mem_cons.1 hx with rfl | hx
      · exact ⟨hb.1, hb.2.2⟩
      · exact ih (size - sub) (by omega) _ x hx
    · rw [dif_neg hs]; simp

example : optixEvaluated false 5000000 = List.range 5000000 := C88_optix_each_once _ _ (by omega)

/-- **C88.**  Launches respect the limits of CUDA (up to 2^31 - 1 thread blocks, at least one; 1024 threads; whole warps) and
the block size of the kernel (rounded up to warps). -/
theorem C88_launch_limits (sm size mt : Nat) (hsm : 0 < sm) (hsm2 : sm < 2 ^ 16) (hs : 0 < size) (hs2 : size ≤ 2 ^ 32 - 32)
    (hm : 0 < mt) (hm2 : mt ≤ 1024) :
    0 < (launchConfig sm size mt 0).blocks ∧ (launchConfig sm size mt 0).blocks < 2 ^ 31 ∧
    0 < (launchConfig sm size mt 0).threads ∧ (launchConfig sm size mt 0).threads ≤ (mt + 31) / 32 * 32 ∧
    (launchConfig sm size mt 0).threads ≤ 1024 := by
  obtain ⟨h1, h2, h3, h4, h5, h6⟩ := config_spec hsm hsm2 hs hs2 hm hm2
  exact ⟨h1, h2, h3, h4, by omega⟩

/-- **C88**, counterexample: with the largest 31 sizes, kernels are launched without thread blocks, i.e. not at all. -/
theorem C88_no_blocks_counterexample (sm size mt : Nat) (hs : 2 ^ 32 - 32 < size) (hs2 : size < 2 ^ 32) :
    (launchConfig sm size mt 0).blocks = 0 ∧ evaluated sm size mt = [] := by
  have hw : u32 (size + 31) / 32 = 0 := by unfold u32; omega
  have h : (launchConfig sm size mt 0).blocks = 0 := by
    unfold launchConfig
    simp [hw]
  refine ⟨h, ?_⟩
  unfold evaluated threads
  simp [h]

/-- The launch of a kernel with block size 768 for 2^32 - 32 elements on a device with 108 multiprocessors -/
theorem config_768 : launchConfig 108 (2 ^ 32 - 32) 768 0 = ⟨5592406, 768⟩ := by decide

/-- **C88**, counterexample: element 0 is evaluated twice (by the first thread, and by a thread of the last block whose index
wraps around), if the size is 2^32 - 32 and the block size of the kernel is 768. -/
theorem C88_twice_counterexample : ¬ (evaluated 108 (2 ^ 32 - 32) 768).Nodup := by
  unfold evaluated
  rw [config_768]
  simp only
  rw [List.filter_map]
  intro h
  have hmem : ∀ b t : Nat, b < 5592406 → t < 768 → threadIndex ⟨5592406, 768⟩ b t = 0 →
      (b, t) ∈ (threads ⟨5592406, 768⟩).filter ((fun i => decide (i < 2 ^ 32 - 32)) ∘ fun x => threadIndex ⟨5592406, 768⟩ x.1 x.2) :=
    fun b t hb ht h0 => List.mem_filter.2 ⟨List.mem_flatMap.2 ⟨b, List.mem_range.2 hb, List.mem_map.2 ⟨t, List.mem_range.2 ht, rfl⟩⟩,
      by simp only [Function.comp_apply, h0]; decide⟩
  have h1 : threadIndex ⟨5592406, 768⟩ 0 0 = 0 := by decide
  have h2 : threadIndex ⟨5592406, 768⟩ 5592405 256 = 0 := by decide
  have := List.inj_on_of_nodup_map h (hmem 0 0 (by omega) (by omega) h1) (hmem 5592405 256 (by omega) (by omega) h2) (by rw [h1, h2])
  simp at this

/-! ### Memory -/

/-- **C88.**  `jit_memset_async` raises an exception exactly for element sizes other than 1, 2, 4, 8. -/
theorem C88_memset_raises (sm size isize : Nat) (src : Nat → Byte) :
    memset sm size isize src = .raise ↔ ¬ (isize = 1 ∨ isize = 2 ∨ isize = 4 ∨ isize = 8) := by
  unfold memset
  by_cases h : isize ≠ 1 ∧ isize ≠ 2 ∧ isize ≠ 4 ∧ isize ≠ 8
  · rw [if_pos h]; exact ⟨fun _ => by omega, fun _ => rfl⟩
  · rw [if_neg h]
    constructor
    · intro h2; exfalso; revert h2; split_ifs <;> simp
    · intro h2; exact absurd (by omega) h

/-- **C88.**  `jit_memset_async` on CUDA devices: whatever the order of the threads, the `size * isize` bytes at `p`
are the repeated pattern, nothing else changes, and the call ends.  The size is at most 2^32 - 1024, or elements
have less than 8 bytes, or the pattern is zero. -/
theorem C88_memset_partial (sm p size isize : Nat) (src : Nat → Byte) (hsm : 0 < sm) (hsm2 : sm < 2 ^ 16)
    (hi : isize = 1 ∨ isize = 2 ∨ isize = 4 ∨ isize = 8)
    (hs : size ≤ 2 ^ 32 - 1024 ∨ isize ≠ 8 ∨ ∀ k, k < isize → src k = 0) (m : Nat → Byte) :
    (∃ m', (memset sm size isize src).Exec p src m m') ∧
    ∀ m', (memset sm size isize src).Exec p src m m' →
      (∀ k, k < size * isize → m' (p + k) = src (k % isize)) ∧ ∀ l, ¬ (p ≤ l ∧ l < p + size * isize) → m' l = m l := by
  unfold memset
  rw [if_neg (by omega)]
  by_cases h0 : size = 0
  · rw [if_pos h0]
    refine ⟨⟨m, rfl⟩, ?_⟩
    intro m' (hm : m' = m)
    subst hm h0
    exact ⟨fun k hk => by omega, fun _ _ => rfl⟩
  rw [if_neg h0]
  by_cases hz : ((List.range isize).all fun k => src k = 0) = true
  · rw [if_pos hz]
    have hz' : ∀ k, k < isize → src k = 0 := fun k hk => by
      have := List.all_eq_true.1 hz k (List.mem_range.2 hk)
      simpa using this
    refine ⟨⟨_, rfl⟩, ?_⟩
    intro m' (hm : m' = _)
    subst hm
    obtain ⟨h1, h2⟩ := apply_elements (p := p) (n := size * isize) (isize := 1) (src := src) (by omega)
      (ws := (List.range (size * isize)).flatMap fun i => storeBytes p 1 i src)
      (fun w => by simp [List.mem_flatMap]) m
    rw [Nat.mul_one] at h1 h2
    refine ⟨fun k hk => ?_, h2⟩
    rw [h1 k hk, hz' _ (Nat.mod_lt _ (by omega)), hz' _ (by omega)]
  rw [if_neg hz]
  by_cases h8 : isize = 8
  · rw [if_pos h8]
    have hs' : size ≤ 2 ^ 32 - 1024 := by
      rcases hs with hs | hs | hs
      · exact hs
      · exact absurd h8 hs
      · refine absurd (List.all_eq_true.2 fun k hk => ?_) hz
        simpa using hs k (List.mem_range.1 hk)
    obtain ⟨c1, c2, c3, c4, c5, c6⟩ := config_spec (size := size) (mt := 1024) hsm hsm2 (by omega) (by omega) (by omega) (by omega)
    generalize launchConfig sm size 1024 0 = c at *
    have hT : c.blocks * c.threads < 2 ^ 32 := by omega
    have hst : u32 (c.threads * c.blocks) = c.blocks * c.threads := by
      unfold u32; rw [Nat.mul_comm, Nat.mod_eq_of_lt hT]
    have hidx : ∀ x ∈ threads c, threadIndex c x.1 x.2 ∈ List.range (c.blocks * c.threads) := fun x hx => by
      rw [← indices_eq hT]; exact List.mem_map.2 ⟨x, hx, rfl⟩
    constructor
    · have hv : ∀ x : Nat × Nat, ∃ l, x ∈ threads c → Visits (u32 (c.threads * c.blocks)) size (threadIndex c x.1 x.2) l := by
        intro x
        by_cases hx : x ∈ threads c
        · have hlt := List.mem_range.1 (hidx x hx)
          obtain ⟨l, hl⟩ := visits_exists (step := u32 (c.threads * c.blocks)) (size := size) (by rw [hst]; exact c5) (by rw [hst]; exact hT) (threadIndex c x.1 x.2) (by omega)
          exact ⟨l, fun _ => hl⟩
        · exact ⟨[], fun h => absurd h hx⟩
      choose vis hvis using hv
      exact ⟨_, c1, vis, hvis, _, List.Perm.refl _, rfl⟩
    · rintro m' ⟨-, vis, hvis, ws, hws, rfl⟩
      rw [h8]
      refine apply_elements (by omega) (fun w => ?_) m
      rw [hws.mem_iff]
      constructor
      · intro hw
        obtain ⟨x, hx, hw⟩ := List.mem_flatMap.1 hw
        obtain ⟨i, hi, hw⟩ := List.mem_flatMap.1 hw
        exact ⟨i, visits_lt (hvis x hx) i hi, hw⟩
      · rintro ⟨i, hi, hw⟩
        have hmem : i ∈ (threads c).map fun x => threadIndex c x.1 x.2 := by
          rw [indices_eq hT]; exact List.mem_range.2 (by omega)
        obtain ⟨x, hx, hxi⟩ := List.mem_map.1 hmem
        refine List.mem_flatMap.2 ⟨x, hx, List.mem_flatMap.2 ⟨i, ?_, hw⟩⟩
        have := visits_mem (hvis x hx) (by rw [hxi]; exact hi)
        rwa [hxi] at this
  · rw [if_neg h8]
    refine ⟨⟨_, rfl⟩, ?_⟩
    intro m' (hm : m' = _)
    subst hm
    exact apply_elements (by omega) (fun w => by simp [List.mem_flatMap]) m

/-- Five elements of eight bytes: the hypotheses can be met, and the pattern is not constant. -/
example (m m' : Nat → Byte) (h : (memset 108 5 8 (fun k => BitVec.ofNat 8 k)).Exec 1000 (fun k => BitVec.ofNat 8 k) m m') :
    m' 1039 = 7 ∧ m' 1040 = m 1040 := by
  obtain ⟨h1, h2⟩ := (C88_memset_partial 108 1000 5 8 (fun k => BitVec.ofNat 8 k) (by omega) (by omega) (by omega) (by omega) m).2 m' h
  exact ⟨h1 39 (by omega), h2 1040 (by omega)⟩

/-- For the sizes just below 2^32 - 32, launches with 1024 threads per block have exactly 2^32 threads. -/
theorem config_full {sm size : Nat} (hsm : 0 < sm) (hsm2 : sm < 2 ^ 16) (h1 : 2 ^ 32 - 1024 < size) (h2 : size ≤ 2 ^ 32 - 32) :
    launchConfig sm size 1024 0 = ⟨2 ^ 22, 1024⟩ := by
  have hw : u32 (size + 31) / 32 = (size + 31) / 32 := by
    unfold u32; rw [Nat.mod_eq_of_lt (by omega)]
  unfold launchConfig
  rw [hw]
  obtain ⟨w, hwd⟩ : ∃ w, w = (size + 31) / 32 := ⟨_, rfl⟩
  rw [← hwd]
  simp only
  have hq : 32 < (w + sm - 1) / sm := by
    refine (Nat.le_div_iff_mul_le hsm).2 ?_
    omega
  rw [if_neg (by omega), if_neg (by omega), if_neg (by omega : ¬ (w + (1024 + 31) / 32 - 1) / ((1024 + 31) / 32) < sm * 4),
    if_neg (by omega)]
  have hb : (w + (1024 + 31) / 32 - 1) / ((1024 + 31) / 32) = 2 ^ 22 := by omega
  rw [hb]
  have hp : (w + 2 ^ 22 - 1) / 2 ^ 22 = 32 := by omega
  rw [hp]
  congr 1

/-- **C88**, counterexample: with more than 2^32 - 1024 elements of 8 bytes that are not zero, `jit_memset_async` does not end
(the step of the loop is zero) or fails (no thread blocks), on every device. -/
theorem C88_memset_counterexample (sm p size : Nat) (src : Nat → Byte) (hsm : 0 < sm) (hsm2 : sm < 2 ^ 16)
    (h1 : 2 ^ 32 - 1024 < size) (h2 : size < 2 ^ 32) (hsrc : src 0 ≠ 0) (m : Nat → Byte) :
    ¬ ∃ m', (memset sm size 8 src).Exec p src m m' := by
  have hz : ¬ ((List.range 8).all fun k => src k = 0) = true := by
    intro h
    have := List.all_eq_true.1 h 0 (by simp)
    exact hsrc (by simpa using this)
  unfold memset
  rw [if_neg (by omega), if_neg (by omega), if_neg hz, if_pos rfl]
  rintro ⟨m', h3, vis, hvis, -⟩
  by_cases h4 : size ≤ 2 ^ 32 - 32
  · rw [config_full hsm hsm2 h1 h4] at hvis
    have := hvis (0, 0) (List.mem_flatMap.2 ⟨0, List.mem_range.2 (by simp), List.mem_map.2 ⟨0, List.mem_range.2 (by simp), rfl⟩⟩)
    have e : u32 (1024 * 2 ^ 22) = 0 := by decide
    simp only [e] at this
    refine visits_zero ?_ ?_ this <;> unfold threadIndex u32 <;> simp only <;> omega
  · rw [(C88_no_blocks_counterexample sm size 1024 (by omega) h2).1] at h3
    omega

/-- **C88.**  `jit_poke` on CUDA devices -/
theorem C88_poke (dst size : Nat) (src : Nat → Byte) (m : Nat → Byte) :
    (poke dst size src = none ↔ ¬ (size = 1 ∨ size = 2 ∨ size = 4 ∨ size = 8)) ∧
    ∀ ph, poke dst size src = some ph →
      Safe (fun w l => w = true ∧ dst ≤ l ∧ l < dst + size) [ph] m ∧ (∃ m', Ends [ph] m m') ∧
      ∀ m', Ends [ph] m m' → (∀ k, k < size → m' (dst + k) = src k) ∧ ∀ l, ¬ (dst ≤ l ∧ l < dst + size) → m' l = m l := by
  unfold poke
  refine ⟨by split_ifs <;> simp_all, fun ph hph => ?_⟩
  by_cases h : size = 1 ∨ size = 2 ∨ size = 4 ∨ size = 8
  · rw [if_pos h] at hph
    cases hph
    exact Verif.Llvm.Mem.C50_poke dst size src m
  · rw [if_neg h] at hph
    cases hph

/-- **C88.**  `jit_aggregate` on CUDA devices, one entry per thread, in any interleaving of the accesses of all threads: if the targets
of the entries are disjoint, and disjoint from the sources, then every entry is written to its place, nothing else is
changed, and only sources are read. -/
theorem C88_aggregate_partial (sm dst size : Nat) (agg : Nat → Entry) (hsm : 0 < sm) (hsm2 : sm < 2 ^ 16) (hsz : 0 < size)
    (hsz2 : size ≤ 2 ^ 32 - 1024) (hv : ∀ i, i < size → (agg i).Valid)
    (hd : ∀ i j, i < size → j < size → i ≠ j → ∀ l, l ∈ (agg i).target dst → l ∉ (agg j).target dst)
    (hs : ∀ i j, i < size → j < size → ∀ l, l ∈ (agg i).target dst → l ∉ (agg j).source) (m : Nat → Byte) :
    ∃ ph, aggregate sm dst size agg = some ph ∧
    Safe (fun w l => ∃ i, i < size ∧ if w then l ∈ (agg i).target dst else l ∈ (agg i).source) [ph] m ∧
    (∃ m', Ends [ph] m m') ∧
    ∀ m', Ends [ph] m m' →
      (∀ i k, i < size → k < (agg i).bytes → m' (dst + (agg i).offset + k) = (agg i).byte m k) ∧
      ∀ l, (∀ i, i < size → l ∉ (agg i).target dst) → m' l = m l := by
  obtain ⟨c1, c2, c3, c4, c5, c6⟩ := config_spec (size := size) (mt := 1024) hsm hsm2 hsz (by omega) (by omega) (by omega)
  unfold aggregate
  generalize launchConfig sm size 1024 0 = c at *
  have hT : c.blocks * c.threads < 2 ^ 32 := by omega
  simp only
  rw [if_neg (by omega)]
  refine ⟨_, rfl, ?_⟩
  have hit : Items size (fun i => (agg i).source) (fun i => (agg i).target dst)
      (fun i m' => ∀ k, k < (agg i).bytes → m' (dst + (agg i).offset + k) = (agg i).byte m k) m (fun i => aggStep dst (agg i)) := by
    refine ⟨fun i j hi hj hij l hl => ⟨hs i j hi hj l hl, hd i j hi hj hij l hl⟩, fun i m1 m2 _ h1 h2 k hk => ?_, fun i m1 hi h1 => ?_⟩
    · rw [h1 _ ⟨by omega, by omega⟩]; exact h2 k hk
    · refine wp_mono (aggStep_wp (hv i hi)) ?_
      intro _ m2 h2 k hk
      rw [h2 k hk]
      unfold Entry.byte
      split
      · rename_i hneg
        exact h1 _ (Or.inl ⟨hneg, by omega, by omega⟩)
      · rfl
  let hi : Nat → Nat := fun n => if n < size then n + 1 else 0
  have hsplit : Split size (c.blocks * c.threads) (fun n => n) hi := by
    refine ⟨fun t _ => ?_, fun t t' _ _ hne i h1 h2 h3 => ?_, fun i hi' => ⟨i, by omega, le_rfl, ?_⟩⟩
    · simp only [hi]; split <;> omega
    · simp only [hi] at h2 h3
      split at h2 <;> split at h3 <;> omega
    · simp only [hi]; rw [if_pos hi']; omega
  have htasks : tasks (c.blocks * c.threads) (fun n =>
        if threadIndex c (n / c.threads) (n % c.threads) ≥ size then Prog.pure () else
          aggStep dst (agg (threadIndex c (n / c.threads) (n % c.threads)))) =
      tasks (c.blocks * c.threads) (fun n => forLt n (hi n) fun i => aggStep dst (agg i)) := by
    funext n
    unfold tasks
    by_cases hn : n < c.blocks * c.threads
    · rw [if_pos hn, if_pos hn]
      have e : threadIndex c (n / c.threads) (n % c.threads) = n := by
        rw [threadIndex_eq hT ((Nat.div_lt_iff_lt_mul c3).2 hn) (Nat.mod_lt _ c3), Nat.mul_comm, Nat.div_add_mod]
      simp only [e, hi]
      by_cases hns : n < size
      · rw [if_neg (by omega), if_pos hns]
        unfold forLt
        rw [show n + 1 - n = 1 by omega]
        rfl
      · rw [if_pos (by omega), if_neg hns]
        unfold forLt
        rw [show 0 - n = 0 by omega]
        rfl
    · rw [if_neg hn, if_neg hn]
  have hsafe := items_safe hsplit hit (ok := fun w l => ∃ i, i < size ∧ if w then l ∈ (agg i).target dst else l ∈ (agg i).source)
    (fun i hi l hl => ⟨i, hi, hl⟩) (fun i hi l hl => ⟨i, hi, hl⟩)
  refine ⟨⟨?_, fun _ _ => trivial⟩, ends_exists _ m, ?_⟩
  · unfold Phase.Safe at *
    simp only
    rw [htasks]
    exact hsafe
  · rintro m' ⟨m1, h3, h4⟩
    have h4 : m' = m1 := h4
    subst h4
    have h3' : Phase.Ends (c.blocks * c.threads, fun n => forLt n (hi n) fun i => aggStep dst (agg i)) m m' := by
      unfold Phase.Ends at *
      simp only at h3
      rw [htasks] at h3
      exact h3
    obtain ⟨h5, h6⟩ := items_spec hsplit hit h3'
    exact ⟨fun i k hi hk => h5 i hi k hk, h6⟩

/-- Two entries, a pointer and a value of four bytes behind a pointer: the hypotheses can be met. -/
example (m : Nat → Byte) : ∃ ph, aggregate 20 1000 2 (fun i => if i = 0 then ⟨8, 0, 5000⟩ else ⟨-4, 8, 2000⟩) = some ph ∧
    ∀ m', Ends [ph] m m' → m' 1001 = 19 ∧ m' 1010 = m 2002 := by
  obtain ⟨ph, h1, -, -, h2⟩ := C88_aggregate_partial 20 1000 2 (fun i => if i = 0 then ⟨8, 0, 5000⟩ else ⟨-4, 8, 2000⟩)
    (by omega) (by omega) (by omega) (by omega)
    (fun i hi => by
      have : i = 0 ∨ i = 1 := by omega
      rcases this with rfl | rfl <;> simp [Entry.Valid, Entry.bytes])
    (fun i j hi hj hij l => by
      have h1 : i = 0 ∨ i = 1 := by omega
      have h2 : j = 0 ∨ j = 1 := by omega
      rcases h1 with rfl | rfl <;> rcases h2 with rfl | rfl <;> simp [Entry.target, Entry.bytes] at * <;> omega)
    (fun i j hi hj l => by
      have h1 : i = 0 ∨ i = 1 := by omega
      have h2 : j = 0 ∨ j = 1 := by omega
      rcases h1 with rfl | rfl <;> rcases h2 with rfl | rfl <;> simp [Entry.target, Entry.source, Entry.bytes] <;> omega) m
  refine ⟨ph, h1, fun m' hm => ?_⟩
  obtain ⟨h3, -⟩ := h2 m' hm
  exact ⟨h3 0 1 (by omega) (by simp [Entry.bytes]), h3 1 2 (by omega) (by simp [Entry.bytes])⟩

/-- **C88**, counterexample: CUDA refuses `jit_aggregate` without entries, which the LLVM backend accepts. -/
theorem C88_aggregate_empty_counterexample (sm dst : Nat) (agg : Nat → Entry) : aggregate sm dst 0 agg = none := by
  have : (launchConfig sm 0 1024 0).blocks = 0 := by
    unfold launchConfig
    simp [u32]
  unfold aggregate
  simp [this]

end Verif.CudaLaunch
