import Verif.CudaPerm.Spec
import Verif.CudaPerm.Phase3

/-! C86: sorting permutations on CUDA devices -/

namespace Verif.CudaPerm

/-! ### The plan -/

theorem plan_config {sm shmem size bs bc : Nat} (h : Ok sm shmem size bs bc) :
    (mkPlan sm shmem size bs bc).n = (size + bs - 1) / bs ∧ 0 < (mkPlan sm shmem size bs bc).G ∧ (mkPlan sm shmem size bs bc).G ≤ sm ∧
    0 < (mkPlan sm shmem size bs bc).W ∧ (mkPlan sm shmem size bs bc).W ≤ 32 := by
  have h1 := h.fit
  obtain ⟨c1, c2, w, c3, c4, c5⟩ := config_limit h.sm0 h.bpos (show bs + 31 < 2 ^ 32 by omega)
  have hW : (mkPlan sm shmem size bs bc).W = w := by
    change ((launchConfig sm bs 1024 1).threads + 31) / 32 = w
    rw [c5]
    omega
  rw [hW]
  refine ⟨?_, c1, c2, c3, c4⟩
  change u32 (size + bs - 1) / bs = _
  rw [u32_eq (by omega)]

theorem mkPlan_good {sm shmem size bs bc : Nat} (h : Ok sm shmem size bs bc) : Good (mkPlan sm shmem size bs bc) := by
  obtain ⟨c1, c2, c3, c4, c5⟩ := plan_config h
  have hsm := h.sm1
  have hfit := h.fit
  have hb := h.bpos
  have hs := h.spos
  have hbk := h.buckets
  have hcp := h.cpos
  have hgr := h.groups
  have d1 := Nat.div_add_mod (size + bs - 1) bs
  have d2 := Nat.mod_lt (size + bs - 1) hb
  have d3 : 0 < (size + bs - 1) / bs := Nat.div_pos (by omega) hb
  rw [← c1, Nat.mul_comm] at d1
  rw [← c1] at d3 hgr
  have hGW : (mkPlan sm shmem size bs bc).G * (mkPlan sm shmem size bs bc).W ≤ 32767 * 32 := Nat.mul_le_mul (by omega) c5
  have hnG : (mkPlan sm shmem size bs bc).n * (mkPlan sm shmem size bs bc).G ≤ 65535 * 32767 := Nat.mul_le_mul hgr (by omega)
  have hR : (mkPlan sm shmem size bs bc).R = if (mkPlan sm shmem size bs bc).variant = .tiny then
      (mkPlan sm shmem size bs bc).G * (mkPlan sm shmem size bs bc).W else (mkPlan sm shmem size bs bc).G := by
    change (if (mkPlan sm shmem size bs bc).variant = .tiny then u32 ((mkPlan sm shmem size bs bc).G * (mkPlan sm shmem size bs bc).W)
      else (mkPlan sm shmem size bs bc).G) = _
    rw [u32_eq (x := (mkPlan sm shmem size bs bc).G * (mkPlan sm shmem size bs bc).W) (by omega)]
  have hGR : (mkPlan sm shmem size bs bc).G ≤ (mkPlan sm shmem size bs bc).R := by
    rw [hR]
    split
    · exact Nat.le_mul_of_pos_right _ c4
    · exact Nat.le_refl _
  have hR2 : (mkPlan sm shmem size bs bc).R ≤ 32767 * 32 := by
    rw [hR]
    split <;> omega
  have hmem := h.mem
  have hm1 := Nat.mul_le_mul_left (4 * bc) (Nat.mul_le_mul_left (mkPlan sm shmem size bs bc).n hGR)
  have hm2 := Nat.mul_le_mul_left (4 * bc) (Nat.mul_le_mul_right (mkPlan sm shmem size bs bc).R (show 1 ≤ (mkPlan sm shmem size bs bc).n from d3))
  have hRb : (mkPlan sm shmem size bs bc).R * bc < 2 ^ 32 := by
    have e : 4 * bc * (1 * (mkPlan sm shmem size bs bc).R) = 4 * ((mkPlan sm shmem size bs bc).R * bc) := by
      rw [Nat.one_mul, Nat.mul_assoc, Nat.mul_comm bc]
    omega
  have hps : (mkPlan sm shmem size bs bc).psum = (mkPlan sm shmem size bs bc).n * ((mkPlan sm shmem size bs bc).R * bc) := by
    change (if (mkPlan sm shmem size bs bc).variant = .tiny then
      u32 (u32 (u32 (bc * 4) * u32 ((mkPlan sm shmem size bs bc).n * (mkPlan sm shmem size bs bc).G)) * (mkPlan sm shmem size bs bc).W)
      else u32 (u32 (bc * 4) * u32 ((mkPlan sm shmem size bs bc).n * (mkPlan sm shmem size bs bc).G))) / 4 = _
    have e1 : bc * 4 * ((mkPlan sm shmem size bs bc).n * (mkPlan sm shmem size bs bc).G) = 4 * bc * ((mkPlan sm shmem size bs bc).n * (mkPlan sm shmem size bs bc).G) := by
      rw [Nat.mul_comm bc 4]
    rw [u32_eq (x := bc * 4) (by omega), u32_eq (x := (mkPlan sm shmem size bs bc).n * (mkPlan sm shmem size bs bc).G) (by omega), e1,
      u32_eq (x := 4 * bc * ((mkPlan sm shmem size bs bc).n * (mkPlan sm shmem size bs bc).G)) (by omega)]
    have e3 : ∀ R, 4 * bc * ((mkPlan sm shmem size bs bc).n * R) = 4 * ((mkPlan sm shmem size bs bc).n * (R * bc)) := by
      intro R
      rw [Nat.mul_assoc, Nat.mul_left_comm bc, Nat.mul_comm bc]
    split
    · rename_i ht
      rw [if_pos ht] at hR
      have e2 : 4 * bc * ((mkPlan sm shmem size bs bc).n * (mkPlan sm shmem size bs bc).G) * (mkPlan sm shmem size bs bc).W =
          4 * bc * ((mkPlan sm shmem size bs bc).n * (mkPlan sm shmem size bs bc).R) := by
        rw [hR, Nat.mul_assoc, Nat.mul_assoc (mkPlan sm shmem size bs bc).n]
      rw [e2, u32_eq hmem, e3]
      omega
    · rename_i ht
      rw [if_neg ht] at hR
      rw [← hR, e3]
      omega
  exact {
    spos := hs, bpos := hb, cpos := hcp, gpos := c2, wpos := c4, w32 := c5, g16 := by omega
    nle := by change size ≤ _ * bs; omega
    nlt := by
      change (_ - 1) * bs < size
      rw [Nat.sub_mul, Nat.one_mul]
      omega
    spb := by
      change u32 (bs + (mkPlan sm shmem size bs bc).G - 1) / (mkPlan sm shmem size bs bc).G = _
      rw [u32_eq (by omega)]
      rfl
    fit := by change _ * bs + 2 ^ 20 ≤ _; omega
    rows := hR
    entries := hps
    block := by
      change u32 ((mkPlan sm shmem size bs bc).R * bc) = _
      rw [u32_eq hRb]
      rfl
    b32 := hRb
    grid := fun _ => ⟨by omega, hbk⟩ }

theorem ok_accepted {sm shmem size bs bc : Nat} (h : Ok sm shmem size bs bc) : (mkPlan sm shmem size bs bc).Accepted := by
  have hg := mkPlan_good h
  have h1 := h.groups
  rw [← (plan_config h).1] at h1
  refine ⟨hg.npos, h1, hg.gpos, fun hr => ?_⟩
  have hr0 := hg.rpos
  have hc0 := hg.cpos
  obtain ⟨g1, g2⟩ := hg.grid hr
  have := transposeGrid_ok g1 g2
  have := transposeGrid_ok g2 g1
  omega

/-! ### Phase 3 -/

theorem config3_facts {sm shmem size bs bc : Nat} (h : Ok sm shmem size bs bc) :
    ∃ w, 0 < w ∧ ((mkPlan sm shmem size bs bc).config3 sm).1.threads = w * 32 ∧ bc ≤ ((mkPlan sm shmem size bs bc).config3 sm).2 ∧
      ((mkPlan sm shmem size bs bc).config3 sm).2 ≤ ((mkPlan sm shmem size bs bc).config3 sm).1.blocks * (w * 32) := by
  have hg := mkPlan_good h
  have hbk := h.buckets
  have hcp := h.cpos
  have hGR : (mkPlan sm shmem size bs bc).G ≤ (mkPlan sm shmem size bs bc).R := by
    rw [hg.rows]
    split
    · exact Nat.le_mul_of_pos_right _ hg.wpos
    · exact Nat.le_refl _
  have hmem := h.mem
  have hm1 := Nat.mul_le_mul_left (4 * bc) (Nat.mul_le_mul_left (mkPlan sm shmem size bs bc).n hGR)
  have hpos := Nat.mul_pos hg.npos hg.gpos
  have hm3 := Nat.mul_le_mul_left bc (show 1 ≤ (mkPlan sm shmem size bs bc).n * (mkPlan sm shmem size bs bc).G from hpos)
  have e3 : 4 * bc * ((mkPlan sm shmem size bs bc).n * (mkPlan sm shmem size bs bc).G) = 4 * (bc * ((mkPlan sm shmem size bs bc).n * (mkPlan sm shmem size bs bc).G)) := Nat.mul_assoc ..
  have hm4 := Nat.mul_le_mul_right ((mkPlan sm shmem size bs bc).n * (mkPlan sm shmem size bs bc).G) (show 1 ≤ bc from hcp)
  obtain ⟨k1, w, k2, k3, k4⟩ := config_cover (sm := sm) (size := bc * ((mkPlan sm shmem size bs bc).n * (mkPlan sm shmem size bs bc).G)) h.sm0 (by omega) (by omega)
  have hc : (mkPlan sm shmem size bs bc).config3 sm =
      (launchConfig sm (bc * ((mkPlan sm shmem size bs bc).n * (mkPlan sm shmem size bs bc).G)) 1024 0,
        u32 (u32 (bc + (launchConfig sm (bc * ((mkPlan sm shmem size bs bc).n * (mkPlan sm shmem size bs bc).G)) 1024 0).threads - 1) /
          (launchConfig sm (bc * ((mkPlan sm shmem size bs bc).n * (mkPlan sm shmem size bs bc).G)) 1024 0).threads *
          (launchConfig sm (bc * ((mkPlan sm shmem size bs bc).n * (mkPlan sm shmem size bs bc).G)) 1024 0).threads)) := by
    unfold Plan.config3
    simp only
    have e1 : u32 ((mkPlan sm shmem size bs bc).n * (mkPlan sm shmem size bs bc).G) = (mkPlan sm shmem size bs bc).n * (mkPlan sm shmem size bs bc).G := u32_eq (by omega)
    have e2 : (mkPlan sm shmem size bs bc).bc = bc := rfl
    rw [e1, e2, u32_eq (x := bc * ((mkPlan sm shmem size bs bc).n * (mkPlan sm shmem size bs bc).G)) (by omega)]
  rw [hc]
  simp only
  generalize launchConfig sm (bc * ((mkPlan sm shmem size bs bc).n * (mkPlan sm shmem size bs bc).G)) 1024 0 = c at *
  rw [k4] at k1 ⊢
  have hf := ceil_facts (a := bc) (b := w * 32) (by omega)
  have hle := hf.2.2 c.blocks (by omega)
  have hd := Nat.div_mul_le_self (bc + w * 32 - 1) (w * 32)
  have hm5 := Nat.mul_le_mul_right (w * 32) hle
  refine ⟨w, k2, rfl, ?_⟩
  rw [u32_eq (x := bc + w * 32 - 1) (by omega), u32_eq (by omega)]
  exact ⟨hf.1, hm5⟩

theorem sum_lt_count (l : List Nat) (v : Nat → Nat) (b : Nat) :
    ((List.range b).map fun c => (l.filter fun i => v i = c).length).sum = l.countP fun i => v i < b := by
  have h := sum_buckets b v (l.filter fun i => v i < b) (fun i hi => by simpa using (List.mem_filter.1 hi).2)
  rw [List.countP_eq_length_filter, ← h]
  congr 1
  apply List.map_congr_left
  intro c hc
  have hc := List.mem_range.1 hc
  rw [List.filter_filter]
  congr 1
  apply List.filter_congr
  intro i _
  by_cases e : v i = c
  · simp [e, hc]
  · simp [e]

theorem group_eq (sm shmem size bs bc g : Nat) : (mkPlan sm shmem size bs bc).group g = groupIdx size bs g := rfl

theorem Good.zero_one {p : Plan} (h : Good p) (hn : p.n = 1) : p.group 0 = List.range p.size := by
  have := h.nle
  rw [hn] at this
  unfold Plan.group
  rw [Nat.zero_mul, List.range_eq_range']
  congr 1
  omega

theorem phase3_result {sm shmem size bs bc : Nat} (h : Ok sm shmem size bs bc) {v m₀ m₁ m₂ : Nat → Nat} (hv : ∀ i, i < size → v i < bc)
    (h1 : (mkPlan sm shmem size bs bc).Phase1 v m₀ m₁) (h2 : (mkPlan sm shmem size bs bc).Phase2 m₁ m₂) (hn : (mkPlan sm shmem size bs bc).n = 1)
    {f f' : Nat → Nat × Nat × Nat × Nat} {c : Nat} (h3 : (mkPlan sm shmem size bs bc).Phase3 sm m₂ f c f') :
    c = (full size bc v).length ∧ ((List.range c).map f').Perm ((full size bc v).map (entryOf size v)) ∧ ∀ a, c ≤ a → f' a = f a := by
  have hg := mkPlan_good h
  obtain ⟨w, w0, w1, w2, w3⟩ := config3_facts h
  obtain ⟨τ, hτ, he⟩ := h3
  rw [w1] at hτ
  have hfl := hτ.flatten
  have hbc : (mkPlan sm shmem size bs bc).bc = bc := rfl
  have hsz : (mkPlan sm shmem size bs bc).size = size := rfl
  rw [hbc, hsz, events3_flat w0 w3 w2] at hfl
  obtain ⟨s1, s2, s3⟩ := store3_spec τ 0 f
  rw [he] at s1 s2 s3
  simp only [Nat.zero_add] at s1 s2 s3
  have hgz : (mkPlan sm shmem size bs bc).group 0 = List.range size := hg.zero_one hn
  have hm : ∀ i, i < bc → m₂ i = ((List.range i).map fun b => ((List.range size).filter fun k => v k = b).length).sum := by
    intro i hi
    have hp := phase2_spec h2 hg.rpos hg.cpos hg.b32 hg.block hg.entries hg.grid (g := 0) (r := 0) (v := i) (by omega) hg.rpos hi
    rw [Nat.zero_mul, Nat.zero_mul, Nat.zero_add, Nat.zero_add, Nat.add_zero] at hp
    rw [hp]
    have hs := hg.sum_before hv (List.Perm.refl ((mkPlan sm shmem size bs bc).events v)) (g := 0) (b := i) (by omega) (Nat.le_of_lt hi)
    rw [hgz] at hs
    rw [← hs]
    congr 1
    apply List.map_congr_left
    intro t ht
    have ht := List.mem_range.1 ht
    have htb : t / (mkPlan sm shmem size bs bc).R < i := by
      rw [Nat.div_lt_iff_lt_mul hg.rpos]
      exact ht
    have hp1 := hg.phase1 h1 (g := 0) (by omega) (Nat.mod_lt t hg.rpos) (show t / (mkPlan sm shmem size bs bc).R < (mkPlan sm shmem size bs bc).bc by rw [hbc]; omega)
    rw [Nat.zero_mul] at hp1
    rw [hp1]
    rfl
  have ht : ((List.range bc).map fun b => ((List.range size).filter fun k => v k = b).length).sum = size := by
    rw [sum_buckets bc v (List.range size) (fun i hi => hv i (List.mem_range.1 hi)), List.length_range]
  have hent := found_entries _ hm ht
  have hcnt : ∀ b, ((List.range size).filter fun k => v k = b).length = countOf size v b := fun b => by
    unfold countOf
    rw [List.countP_eq_length_filter]
  have hfin : (((List.range bc).filterMap (q3 m₂ bc size)).map conv) = (full size bc v).map (entryOf size v) := by
    rw [hent]
    unfold full entryOf
    simp only [sum_lt_count]
    simp only [hcnt]
  have hmap : (List.range c).map f' = τ.flatten.map conv := by
    apply List.ext_getElem
    · rw [List.length_map, List.length_map, List.length_range, s1]
    · intro a h1 h2
      rw [List.getElem_map, List.getElem_map, List.getElem_range]
      exact s2 a (by rw [List.length_map] at h2; exact h2)
  have hperm : (τ.flatten.map conv).Perm ((full size bc v).map (entryOf size v)) := by
    rw [← hfin]
    exact hfl.map _
  refine ⟨?_, ?_, fun a ha => s3 a (by omega)⟩
  · have := hperm.length_eq
    rw [List.length_map, List.length_map] at this
    rw [s1, this]
  · rw [hmap]
    exact hperm

/-! ### The property -/

/-- **C86.**  For every array of bucket numbers, every group size, every device and all orders in which the
warps and thread blocks proceed:

* within each group, the permutation lists the elements bucket by bucket, and every element once;
* nothing is stored behind the permutation;
* if the buckets of a single group are requested, the return value is the number of nonempty buckets, and
  the first entries of the output describe these buckets, in some order; nothing else is stored;
* otherwise, the return value is zero, and nothing is stored. -/
theorem C86_mkperm_partial {sm shmem size bs bc : Nat} (h : Ok sm shmem size bs bc) {v perm : Nat → Nat} (hv : ∀ i, i < size → v i < bc)
    {offs : Option (Nat → Nat × Nat × Nat × Nat)} {o : Out} (hr : Runs sm shmem size bs bc v perm offs o) :
    Grouped size bs bc v o.perm ∧ (∀ a, size ≤ a → o.perm a = perm a) ∧
    (∀ f, offs = some f → size ≤ bs → o.ret = (full size bc v).length ∧
      ((List.range o.ret).map o.offs).Perm ((full size bc v).map (entryOf size v)) ∧ ∀ a, o.ret ≤ a → o.offs a = f a) ∧
    (∀ f, offs = some f → bs < size → o.ret = 0 ∧ o.offs = f) ∧ (offs = none → o.ret = 0) := by
  obtain ⟨_, m₀, m₁, m₂, h1, h2, h3, h4⟩ := hr
  have hg := mkPlan_good h
  have hn1 : (mkPlan sm shmem size bs bc).n = 1 ↔ size ≤ bs := by
    have a1 : size ≤ (mkPlan sm shmem size bs bc).n * bs := hg.nle
    have a2 : ((mkPlan sm shmem size bs bc).n - 1) * bs < size := hg.nlt
    have a3 := hg.npos
    constructor
    · intro e
      rw [e] at a1
      omega
    · intro e
      by_contra hne
      have := Nat.mul_le_mul_right bs (show 1 ≤ (mkPlan sm shmem size bs bc).n - 1 by omega)
      omega
  refine ⟨?_, ?_, ?_, ?_, ?_⟩
  · intro g hgs
    have hgn : g < (mkPlan sm shmem size bs bc).n := by
      have a1 : size ≤ (mkPlan sm shmem size bs bc).n * bs := hg.nle
      exact Nat.lt_of_mul_lt_mul_right (a := bs) (by omega)
    obtain ⟨σ, ho, hs, _⟩ := hg.main hv h1 h2 h4
    exact ⟨_, fun b hb => hg.bucket hv ho.1 hgn hb, hs g hgn⟩
  · obtain ⟨σ, ho, _, hs⟩ := hg.main hv h1 h2 h4
    exact hs
  · rintro f rfl hle
    simp only at h3
    rw [if_pos (hn1.2 hle)] at h3
    exact phase3_result h hv h1 h2 (hn1.2 hle) h3
  · rintro f rfl hlt
    simp only at h3
    rw [if_neg (fun e => by have := hn1.1 e; omega)] at h3
    exact h3
  · rintro rfl
    exact h3

/-- If 128 bytes of shared memory are available per bucket, then the permutation is stable. -/
theorem C86_stable_partial {sm shmem size bs bc : Nat} (h : Ok sm shmem size bs bc) (hsh : 128 * bc ≤ shmem) {v perm : Nat → Nat}
    (hv : ∀ i, i < size → v i < bc) {offs : Option (Nat → Nat × Nat × Nat × Nat)} {o : Out} (hr : Runs sm shmem size bs bc v perm offs o) :
    GroupedStable size bs bc v o.perm := by
  obtain ⟨_, m₀, m₁, m₂, h1, h2, _, h4⟩ := hr
  have hg := mkPlan_good h
  have ht : (mkPlan sm shmem size bs bc).variant = .tiny := by
    change (if u32 (u32 (bc * 4) * (mkPlan sm shmem size bs bc).W) ≤ shmem then Variant.tiny else _) = _
    rw [if_pos]
    have hw := hg.w32
    have hb := h.buckets
    rw [u32_eq (x := bc * 4) (by omega)]
    have := Nat.mod_le (bc * 4 * (mkPlan sm shmem size bs bc).W) (2 ^ 32)
    have := Nat.mul_le_mul_left (bc * 4) hw
    unfold u32
    omega
  intro g hgs
  have hgn : g < (mkPlan sm shmem size bs bc).n := by
    have a1 : size ≤ (mkPlan sm shmem size bs bc).n * bs := hg.nle
    exact Nat.lt_of_mul_lt_mul_right (a := bs) (by omega)
  obtain ⟨σ, ho, hs, _⟩ := hg.main hv h1 h2 h4
  have hs := hs g hgn
  rw [group_eq] at hs
  rw [hs, List.flatMap_def, List.flatMap_def]
  congr 1
  apply List.map_congr_left
  intro b hb
  have hb := List.mem_range.1 hb
  rw [← group_eq sm shmem size bs bc g]
  unfold Plan.group
  rw [← hg.group_tiny ht hgn, flatMap_filter, List.flatMap_def, List.flatMap_def]
  congr 1
  apply List.map_congr_left
  intro r hr
  exact hg.stable ht hv ho hgn (List.mem_range.1 hr) hb

/-- The permutation maps the indices of each group to the indices of the same group, and every index
appears once. -/
theorem C86_permutation {size bs bc : Nat} {v perm : Nat → Nat} (hv : ∀ i, i < size → v i < bc) (h : Grouped size bs bc v perm) {g : Nat} (hg : g * bs < size) :
    ((groupIdx size bs g).map perm).Perm (groupIdx size bs g) := by
  obtain ⟨L, h1, h2⟩ := h g hg
  rw [h2]
  refine (perm_flatMap_congr _ _ (fun b => (groupIdx size bs g).filter fun i => v i = b) fun b hb => h1 b (List.mem_range.1 hb)).trans ?_
  have hnd : ((List.range bc).flatMap fun b => (groupIdx size bs g).filter fun i => v i = b).Nodup := by
    rw [List.nodup_flatMap]
    refine ⟨fun b _ => (List.nodup_range' ..).filter _, ?_⟩
    refine List.Pairwise.imp ?_ (List.nodup_range (n := bc))
    intro a b hab i h1 h2
    rw [List.mem_filter] at h1 h2
    have e1 := h1.2
    have e2 := h2.2
    simp only [decide_eq_true_eq] at e1 e2
    exact hab (e1.symm.trans e2)
  rw [List.perm_ext_iff_of_nodup hnd (show (groupIdx size bs g).Nodup from List.nodup_range' ..)]
  intro i
  simp only [List.mem_flatMap, List.mem_range, List.mem_filter, decide_eq_true_eq]
  constructor
  · rintro ⟨_, _, h, _⟩
    exact h
  · intro h
    refine ⟨v i, hv i ?_, h, rfl⟩
    unfold groupIdx at h
    rw [List.mem_range'_1] at h
    omega

/-! ### Executions exist -/

theorem iter_fields {p : Plan} {v : Nat → Nat} {g sub w base : Nat} {e : Ev} (h : e ∈ p.iter v g sub w base) :
    e.g = g ∧ e.sub = sub ∧ e.w = w ∧ e.base = base := by
  unfold Plan.iter at h
  rw [List.mem_map] at h
  obtain ⟨l, _, rfl⟩ := h
  exact ⟨rfl, rfl, rfl, rfl⟩

theorem bases_sorted (p : Plan) (g sub w : Nat) : (p.bases g sub w).Pairwise (· ≤ ·) := by
  unfold Plan.bases strided
  rw [List.pairwise_map]
  refine List.Pairwise.imp ?_ List.pairwise_lt_range
  intro a b hab
  have := Nat.mul_le_mul_right (p.loop g sub w 0).2.2 (Nat.le_of_lt hab)
  omega

theorem events_order (p : Plan) (v : Nat → Nat) : p.Order4 v (p.events v) := by
  refine ⟨.refl _, fun _ => ?_⟩
  unfold Plan.events
  rw [List.pairwise_flatMap]
  constructor
  · intro g _
    rw [List.pairwise_flatMap]
    constructor
    · intro sub _
      rw [List.pairwise_flatMap]
      constructor
      · intro w _
        rw [List.pairwise_flatMap]
        constructor
        · intro base _
          refine List.Pairwise.imp_of_mem (R := fun _ _ => True) ?_ (List.pairwise_of_forall fun _ _ => trivial)
          intro e e' he he' _ _ _ _
          exact Nat.le_of_eq ((iter_fields he).2.2.2.trans (iter_fields he').2.2.2.symm)
        · refine (bases_sorted p g sub w).imp ?_
          intro a b hab e he e' he' _ _ _
          rw [(iter_fields he).2.2.2, (iter_fields he').2.2.2]
          exact hab
      · refine List.Pairwise.imp ?_ (List.nodup_range (n := p.W))
        intro a b hab e he e' he' _ _ e3
        obtain ⟨_, _, he⟩ := List.mem_flatMap.1 he
        obtain ⟨_, _, he'⟩ := List.mem_flatMap.1 he'
        rw [(iter_fields he).2.2.1, (iter_fields he').2.2.1] at e3
        exact absurd e3 hab
    · refine List.Pairwise.imp ?_ (List.nodup_range (n := p.G))
      intro a b hab e he e' he' _ e2 _
      obtain ⟨_, _, he⟩ := List.mem_flatMap.1 he
      obtain ⟨_, _, he⟩ := List.mem_flatMap.1 he
      obtain ⟨_, _, he'⟩ := List.mem_flatMap.1 he'
      obtain ⟨_, _, he'⟩ := List.mem_flatMap.1 he'
      rw [(iter_fields he).2.1, (iter_fields he').2.1] at e2
      exact absurd e2 hab
  · refine List.Pairwise.imp ?_ (List.nodup_range (n := p.n))
    intro a b hab e he e' he' e1 _ _
    obtain ⟨_, _, he⟩ := List.mem_flatMap.1 he
    obtain ⟨_, _, he⟩ := List.mem_flatMap.1 he
    obtain ⟨_, _, he⟩ := List.mem_flatMap.1 he
    obtain ⟨_, _, he'⟩ := List.mem_flatMap.1 he'
    obtain ⟨_, _, he'⟩ := List.mem_flatMap.1 he'
    obtain ⟨_, _, he'⟩ := List.mem_flatMap.1 he'
    rw [(iter_fields he).1, (iter_fields he').1] at e1
    exact absurd e1 hab

/-- Under these conditions the driver accepts all launches, and the call completes. -/
theorem C86_execution_exists {sm shmem size bs bc : Nat} (h : Ok sm shmem size bs bc) (v perm : Nat → Nat)
    (offs : Option (Nat → Nat × Nat × Nat × Nat)) : ∃ o, Runs sm shmem size bs bc v perm offs o := by
  have hp1 : ∃ m₁, (mkPlan sm shmem size bs bc).Phase1 v (fun _ => 0) m₁ := by
    unfold Plan.Phase1
    cases (mkPlan sm shmem size bs bc).variant
    · exact ⟨_, fun _ => 0, _, _, _, .refl _, .refl _, .refl _, rfl⟩
    · exact ⟨_, fun _ => 0, _, _, _, .refl _, .refl _, .refl _, rfl⟩
    · exact ⟨_, _, .refl _, rfl⟩
  obtain ⟨m₁, h1⟩ := hp1
  obtain ⟨m₂, h2⟩ := phase2_exists (mkPlan sm shmem size bs bc) m₁
  have hp4 : ∃ perm', (mkPlan sm shmem size bs bc).Phase4 v m₂ perm perm' := by
    have ho := events_order (mkPlan sm shmem size bs bc) v
    unfold Plan.Phase4
    cases (mkPlan sm shmem size bs bc).variant
    · exact ⟨_, _, ho, fun _ => 0, _, .refl _, rfl⟩
    · exact ⟨_, _, ho, fun _ => 0, _, .refl _, rfl⟩
    · exact ⟨_, _, ho, rfl⟩
  obtain ⟨perm', h4⟩ := hp4
  cases offs with
  | none => exact ⟨⟨0, perm', fun _ => (0, 0, 0, 0)⟩, ok_accepted h, _, m₁, m₂, h1, h2, rfl, h4⟩
  | some f =>
    by_cases hn : (mkPlan sm shmem size bs bc).n = 1
    · obtain ⟨c, f', h3⟩ : ∃ c f', (mkPlan sm shmem size bs bc).Phase3 sm m₂ f c f' := ⟨_, _, _, .refl _, rfl⟩
      refine ⟨⟨c, perm', f'⟩, ok_accepted h, _, m₁, m₂, h1, h2, ?_, h4⟩
      simp only [if_pos hn]
      exact h3
    · refine ⟨⟨0, perm', f⟩, ok_accepted h, _, m₁, m₂, h1, h2, ?_, h4⟩
      simp only [if_neg hn]
      exact ⟨trivial, trivial⟩

/-! ### Collective operations, shared memory, launch configurations -/

/-- All lanes of a warp perform the same number of iterations (they all have to take part in
`__ballot_sync`), and lane `l` processes the element `l` places behind that of lane 0. -/
theorem C86_lanes {sm shmem size bs bc : Nat} (h : Ok sm shmem size bs bc) {g sub w l : Nat} (hg : g < (mkPlan sm shmem size bs bc).n)
    (hs : sub < (mkPlan sm shmem size bs bc).G) (hw : w < (mkPlan sm shmem size bs bc).W) (hl : l < 32) :
    strided ((mkPlan sm shmem size bs bc).loop g sub w l).1 ((mkPlan sm shmem size bs bc).loop g sub w l).2.1 ((mkPlan sm shmem size bs bc).loop g sub w l).2.2 =
      ((mkPlan sm shmem size bs bc).bases g sub w).map fun i => i + l := by
  have hgood := mkPlan_good h
  generalize mkPlan sm shmem size bs bc = p at *
  have key : ∀ s D k, strided (s + l) (s + D * 32) (k * 32) = (strided s (s + D * 32) (k * 32)).map fun i => i + l := by
    intro s D k
    unfold strided
    rcases Nat.eq_zero_or_pos k with rfl | hk
    · simp
    · have e : (s + D * 32 - (s + l) + k * 32 - 1) / (k * 32) = (s + D * 32 - s + k * 32 - 1) / (k * 32) := by
        have hlt : ∀ j, j < (s + D * 32 - (s + l) + k * 32 - 1) / (k * 32) ↔ j < (s + D * 32 - s + k * 32 - 1) / (k * 32) := by
          intro j
          rw [ceil_iff (by omega), ceil_iff (by omega), ← Nat.mul_assoc]
          omega
        have h1 := hlt ((s + D * 32 - (s + l) + k * 32 - 1) / (k * 32))
        have h2 := hlt ((s + D * 32 - s + k * 32 - 1) / (k * 32))
        omega
      rw [e, List.map_map]
      apply List.map_congr_left
      intro j _
      simp only [Function.comp]
      omega
  obtain ⟨b1, b2, b3, b4, b5⟩ := hgood.bounds hg hs
  obtain ⟨e1, e2, e3⟩ := hgood.starts hg hs
  have hfit := hgood.fit
  have hg16 := hgood.g16
  by_cases ht : p.variant = .tiny
  · obtain ⟨q, hq, _, q2⟩ := hgood.perWarp hg hs
    have hm := Nat.mul_le_mul_right (q * 32) (show w + 1 ≤ p.W from hw)
    rw [Nat.add_mul, Nat.one_mul] at hm
    unfold Plan.bases Plan.loop
    rw [ht]
    simp only
    rw [hq, u32_eq (x := w * (q * 32)) (by omega), u32_eq (x := p.blockStart g sub + w * (q * 32)) (by omega), u32_eq (by omega), Nat.add_zero]
    exact key _ q 1
  · have hlp : ∀ l, p.loop g sub w l = (p.blockStart g sub + (32 * w + l), p.blockStart g sub + (p.spb + 31) / 32 * 32, 32 * p.W) := by
      intro l
      unfold Plan.loop
      have hu : u32 (p.blockStart g sub + (p.spb + 31) / 32 * 32) = p.blockStart g sub + (p.spb + 31) / 32 * 32 := u32_eq (by omega)
      cases hc : p.variant with
      | tiny => exact absurd hc ht
      | small => simp only [hu]
      | large => simp only [hu]
    unfold Plan.bases
    rw [hlp, hlp]
    simp only
    rw [Nat.add_zero, ← Nat.add_assoc, Nat.mul_comm 32 p.W]
    by_cases hle : w ≤ (p.spb + 31) / 32
    · rw [show p.blockStart g sub + (p.spb + 31) / 32 * 32 = p.blockStart g sub + 32 * w + ((p.spb + 31) / 32 - w) * 32 by omega]
      exact key _ _ _
    · unfold strided
      have hz : ∀ x, p.blockStart g sub + 32 * w ≤ x → (p.blockStart g sub + (p.spb + 31) / 32 * 32 - x + p.W * 32 - 1) / (p.W * 32) = 0 := by
        intro x hx
        apply Nat.div_eq_of_lt
        omega
      rw [hz _ (by omega), hz _ (by omega)]
      rfl

/-- The loop that collects nonempty buckets is executed at most once (it uses shared memory and has a
single barrier, so that a second iteration might overwrite values that have not been read). -/
theorem C86_single_iteration {sm shmem size bs bc : Nat} (h : Ok sm shmem size bs bc) (b : Nat) :
    iters3 ((mkPlan sm shmem size bs bc).config3 sm).2 ((mkPlan sm shmem size bs bc).config3 sm).1.threads
      ((mkPlan sm shmem size bs bc).config3 sm).1.blocks b ≤ 1 := by
  obtain ⟨w, w0, w1, w2, w3⟩ := config3_facts h
  rw [w1]
  exact iters3_le (by omega) w3

/-- A launch configuration provides a thread for every element, with full warps and at most 1024 threads
per thread block (hence, the internal error at the end of the function does not occur); if the number of
thread blocks is limited, it does not exceed the number of multiprocessors. -/
theorem C86_launch_config {sm size : Nat} (hsm : 0 < sm) (hs : 0 < size) (h32 : size + 31 < 2 ^ 32) :
    (size ≤ (launchConfig sm size 1024 0).blocks * (launchConfig sm size 1024 0).threads ∧
      32 ∣ (launchConfig sm size 1024 0).threads ∧ (launchConfig sm size 1024 0).threads ≤ 1024) ∧
    0 < (launchConfig sm size 1024 1).blocks ∧ (launchConfig sm size 1024 1).blocks ≤ sm ∧ 0 < (launchConfig sm size 1024 1).threads ∧
      32 ∣ (launchConfig sm size 1024 1).threads ∧ (launchConfig sm size 1024 1).threads ≤ 1024 := by
  obtain ⟨a1, w, a2, a3, a4⟩ := config_cover hsm hs h32
  obtain ⟨b1, b2, w', b3, b4, b5⟩ := config_limit hsm hs h32
  rw [a4, b5]
  exact ⟨⟨by rw [← a4]; exact a1, ⟨w, Nat.mul_comm ..⟩, by omega⟩, b1, b2, by omega, ⟨w', Nat.mul_comm ..⟩, by omega⟩

/-! ### The conditions can be met, and are needed -/

/-- A million elements, four groups, 1000 buckets: the variant with atomic operations in shared memory -/
example : Ok 80 101376 1000000 250000 1000 ∧ (mkPlan 80 101376 1000000 250000 1000).variant = .small := by
  refine ⟨⟨by decide, by decide, by decide, by decide, by decide, by decide, by decide, by decide, by decide⟩, by decide⟩

/-- One group, 100 buckets: the stable variant -/
example : Ok 80 101376 1000000 1000000 100 ∧ (mkPlan 80 101376 1000000 1000000 100).variant = .tiny := by
  refine ⟨⟨by decide, by decide, by decide, by decide, by decide, by decide, by decide, by decide, by decide⟩, by decide⟩

/-- One group, 30000 buckets: the variant with atomic operations in global memory -/
example : Ok 80 101376 1000000 1000000 30000 ∧ (mkPlan 80 101376 1000000 1000000 30000).variant = .large := by
  refine ⟨⟨by decide, by decide, by decide, by decide, by decide, by decide, by decide, by decide, by decide⟩, by decide⟩

/-- With more than 65535 groups, the call fails (here: 65536 groups of 16 elements and two buckets, on a
device with 80 multiprocessors). -/
theorem C86_groups_counterexample : ∀ v perm offs o, ¬ Runs 80 101376 1048576 16 2 v perm offs o := by
  intro v perm offs o h
  have := h.1.2.1
  revert this
  decide

/-- With 2²⁰ buckets and more than one thread block, the number of thread blocks of the transpose kernel
is zero (16-bit arithmetic), and the call fails. -/
theorem C86_buckets_counterexample : ∀ v perm offs o, ¬ Runs 80 101376 1000 1000 1048576 v perm offs o := by
  intro v perm offs o h
  have := (h.1.2.2.2 (by decide)).1
  revert this
  decide

/-- With 16 more buckets, only the first 16 columns are transposed: the remaining part of the output is
uninitialised memory. -/
theorem C86_transpose_counterexample (inp out out' : Nat → Nat) (rows : Nat) (hr : 0 < rows)
    (h : Transpose inp out out' rows 1048592 1 (rows * 1048592)) : ∀ a, 16 * rows ≤ a → out' a = out a := by
  obtain ⟨order, garbage, ws, ho, hw, rfl⟩ := h
  intro a ha
  apply applyWrites_not
  intro w hm
  have hm := hw.mem_iff.1 hm
  unfold transposeOut tileOut at hm
  simp only [List.mem_flatMap, List.mem_range, List.mem_map, List.mem_filter, decide_eq_true_eq] at hm
  obtain ⟨z, hz, y, _, x, hx, t, ⟨ht, hc, hr'⟩, rfl⟩ := hm
  have hx0 : x = 0 := by
    have : (transposeGrid rows 1048592).1 = 1 := rfl
    omega
  have h16 := mem_threads16.1 ht
  have hz0 : z = 0 := by omega
  subst hx0 hz0
  have := mul_add_lt (s := rows) (n := 16) (z := t.2) (a := y * 16 + t.1) h16.2 hr'
  simp only [Nat.zero_mul, Nat.zero_add]
  omega

/-- The size of the histograms is computed with 32 bits: for 65535 groups of 1024 elements and 513 buckets,
the memory allocated has 2080736 entries, but the first phase stores more than 10⁹ of them. -/
theorem C86_histogram_counterexample :
    let p := mkPlan 80 101376 67107840 1024 513
    p.n = 65535 ∧ p.psum = 2080736 ∧ p.psum < p.n * (p.R * p.bc) := by
  decide

/-- The number of groups is computed with 32 bits: it is zero for arrays with more than 2³¹ elements that form
a single group, and the call fails. -/
theorem C86_size_counterexample : ∀ v perm offs o, ¬ Runs 80 101376 2147483649 2147483649 2 v perm offs o := by
  intro v perm offs o h
  have := h.1.1
  revert this
  decide

end Verif.CudaPerm
