import Verif.Cuda.ReduceGeo

/-!
# Block reductions on CUDA devices
-/
namespace Verif.Cuda

open Verif.Arith

variable {T V : Type}

/-- Elements of a chunk: chunks have `w` elements, and there are `cpb` chunks per block. -/
def chunkOf (size bs w cpb n : Nat) : Finset Nat := (Finset.range size).filter fun j => j / bs = n / cpb ∧ j % bs / w = n % cpb

section
variable {R : Red T V} {x : Nat → T}

theorem vecTree_comb (op : V → V → V) (init : V) (f : Nat → V) (n : Nat) : ∀ i, Comb op init ((Finset.Ico i (i + 2 ^ n)).val.map f) (vecTree op f n i) := by
  induction n with
  | zero =>
    intro i
    have : Finset.Ico i (i + 2 ^ 0) = {i} := by ext e; simp only [Finset.mem_Ico, Finset.mem_singleton]; simp; omega
    rw [this]
    exact .one _
  | succ n ih =>
    intro i
    have h := Comb.node (ih i) (ih (i + 2 ^ n))
    have e : Finset.Ico i (i + 2 ^ (n + 1)) = (Finset.Ico i (i + 2 ^ n)).disjUnion (Finset.Ico (i + 2 ^ n) (i + 2 ^ n + 2 ^ n)) (by
        rw [Finset.disjoint_left]; intro e; simp only [Finset.mem_Ico]; omega) := by
      ext e
      rw [Finset.mem_disjUnion]
      simp only [Finset.mem_Ico]
      rw [Nat.pow_succ]; omega
    rw [e]
    show Comb op init (((Finset.Ico i (i + 2 ^ n)).val + (Finset.Ico (i + 2 ^ n) (i + 2 ^ n + 2 ^ n)).val).map f) _
    rw [Multiset.map_add]
    exact h

/-- The value that a thread loads -/
theorem load_rounded (K : RLaunch) {n : Nat} (hvw : K.vw = 2 ^ n) (i : Nat) :
    Rounded R.red R.init R.toV R.ofV ((Finset.Ico (i * 2 ^ n) (i * 2 ^ n + 2 ^ n)).val.map fun j => R.toV (x j)) (K.load R x i) := by
  unfold RLaunch.load
  split
  · rename_i h
    have hn : n = 0 := by
      by_contra hc
      have := Nat.one_lt_two_pow hc
      omega
    subst hn
    have : Finset.Ico (i * 2 ^ 0) (i * 2 ^ 0 + 2 ^ 0) = {i} := by ext e; simp only [Finset.mem_Ico, Finset.mem_singleton]; simp; omega
    rw [this]
    exact .one _
  · rw [hvw, Nat.log2_two_pow]
    exact .round (vecTree_comb R.red R.init (fun j => R.toV (x j)) n (i * 2 ^ n)).rounded

/-- One kernel, in terms of elements -/
theorem RGeo.runs_rounded {K : RLaunch} {cp : Nat} (g : RGeo K cp) {size bs w n : Nat} (hvw : K.vw = 2 ^ n) (hbs : bs = 2 ^ n * K.L.bs) (hsz : size = 2 ^ n * K.L.size) (hw : w = 2 ^ n * K.L.cs)
    {y y' : Nat → T} (h : K.Runs R x y y') :
    (∀ c, c < K.count → ∃ v, Rounded R.red R.init R.toV R.ofV ((chunkOf size bs w K.L.cpb c).val.map fun j => R.toV (x j)) v ∧ y' c = R.ofV v) ∧ ∀ c, K.count ≤ c → y' c = y c := by
  obtain ⟨h1, h2⟩ := g.runs h
  have h2n := Nat.two_pow_pos n
  refine ⟨fun c hc => ?_, h2⟩
  obtain ⟨v, hv, hy⟩ := h1 c hc
  refine ⟨v, ?_, hy⟩
  have hv' : Comb R.red R.init ((K.vecs c).val.map (K.load R x)) v := hv
  have e : chunkOf size bs w K.L.cpb c = (K.vecs c).biUnion fun i => Finset.Ico (i * 2 ^ n) (i * 2 ^ n + 2 ^ n) := by
    ext j
    simp only [Finset.mem_biUnion, Finset.mem_Ico]
    unfold chunkOf RLaunch.vecs
    simp only [Finset.mem_filter, Finset.mem_range]
    have hdm := Nat.div_add_mod j (2 ^ n)
    have hm := Nat.mod_lt j h2n
    have key : (j < size ∧ j / bs = c / K.L.cpb ∧ j % bs / w = c % K.L.cpb) ↔ (j / 2 ^ n < K.L.size ∧ j / 2 ^ n / K.L.bs = c / K.L.cpb ∧ j / 2 ^ n % K.L.bs / K.L.cs = c % K.L.cpb) := by
      rw [hsz, hbs, hw, ← Nat.div_div_eq_div_mul, ← Nat.div_div_eq_div_mul, Nat.mod_mul_right_div_self, Nat.div_lt_iff_lt_mul h2n, Nat.mul_comm (2 ^ n) K.L.size]
    rw [key]
    constructor
    · intro h
      exact ⟨j / 2 ^ n, h, by rw [Nat.mul_comm]; omega, by rw [Nat.mul_comm]; omega⟩
    · rintro ⟨i, hi, i1, i2⟩
      have : j / 2 ^ n = i := by
        apply Nat.div_eq_of_lt_le i1
        rw [Nat.succ_mul]; exact i2
      rw [this]; exact hi
  rw [e]
  refine Rounded.biUnion ?_ hv'.rounded fun i _ => load_rounded K hvw i
  intro i j _ _ hij
  rw [Finset.disjoint_left]
  intro e
  simp only [Finset.mem_Ico]
  rintro ⟨a1, a2⟩ ⟨b1, b2⟩
  apply hij
  have e1 : e / 2 ^ n = i := Nat.div_eq_of_lt_le a1 (by rw [Nat.succ_mul]; exact a2)
  have e2 : e / 2 ^ n = j := Nat.div_eq_of_lt_le b1 (by rw [Nat.succ_mul]; exact b2)
  rw [← e1, ← e2]

theorem roundPow2_lt {bs : Nat} (hb : 2 ≤ bs) (h : bs ≤ 2 ^ 31) : roundPow2_32 bs < 1024 ↔ bs ≤ 512 := by
  have hrp := roundPow2_32_eq bs (by omega) (by omega)
  rw [if_neg (by omega)] at hrp
  rw [hrp]
  have hlog1 : 2 ^ Nat.log2 (bs - 1) ≤ bs - 1 := Nat.log2_self_le (by omega)
  have hlog2 : bs - 1 < 2 ^ (Nat.log2 (bs - 1) + 1) := Nat.lt_log2_self
  constructor
  · intro hlt
    have : Nat.log2 (bs - 1) + 1 < 10 := (Nat.pow_lt_pow_iff_right (a := 2) (by omega)).1 hlt
    have : 2 ^ (Nat.log2 (bs - 1) + 1) ≤ 2 ^ 9 := Nat.pow_le_pow_right (by omega) (by omega)
    omega
  · intro h512
    have : Nat.log2 (bs - 1) < 9 := (Nat.pow_lt_pow_iff_right (a := 2) (by omega)).1 (show 2 ^ Nat.log2 (bs - 1) < 2 ^ 9 by omega)
    have : 2 ^ (Nat.log2 (bs - 1) + 1) ≤ 2 ^ 9 := Nat.pow_le_pow_right (by omega) (by omega)
    omega

theorem reduceUb_false {size bs : Nat} (hb : 2 ≤ bs) (hle : bs ≤ size) (hs : size + 2 ^ 17 ≤ 2 ^ 31) : reduceUb size bs = false := by
  unfold reduceUb
  by_cases h : roundPow2_32 bs < 1024
  · have h512 := (roundPow2_lt hb (by omega)).1 h
    obtain ⟨hL, _, _, _, cp, g⟩ := mkReduce_small (tsize := 4) (addr := 0) hb hle hs h512
    have hcs : (mkReduce 4 size bs 0).L.cs = roundPow2_32 bs := by
      unfold mkReduce; simp only [if_pos h]
    have h1 := g.cs0
    have h2 := g.threads
    have h3 := g.cp1
    rw [hcs] at h1 h2
    have : (mkReduce 4 size bs 0).L.threads / roundPow2_32 bs = cp := by rw [h2, Nat.mul_div_cancel _ (by omega)]
    simp only [this, h, decide_true, Bool.true_and, Bool.or_eq_false_iff, decide_eq_false_iff_not]
    omega
  · simp [h]

theorem block_lt {size bs b : Nat} (hb : 1 ≤ bs) (hs : 1 ≤ size) : b * bs < size ↔ b < (size + bs - 1) / bs := by
  rw [Nat.lt_div_iff_mul_lt (by omega), Nat.mul_comm]
  omega

/-- Several chunks per block -/
theorem count_facts {size bs : Nat} (hle : bs ≤ size) (hb : 1024 < bs) :
    2 ≤ (bs + 1024 - 1) / 1024 ∧ (bs + 1024 - 1) / 1024 ≤ (size + bs - 1) / bs * ((bs + 1024 - 1) / 1024) ∧ (size + bs - 1) / bs * ((bs + 1024 - 1) / 1024) < size := by
  obtain ⟨c1, c2, c3⟩ := ceil_spec (a := size) (b := bs) (by omega) (by omega)
  obtain ⟨g1, g2, g3⟩ := ceil_spec (a := bs) (b := 1024) (by omega) (by omega)
  generalize (size + bs - 1) / bs = bc at *
  generalize (bs + 1024 - 1) / 1024 = cpb at *
  refine ⟨by omega, Nat.le_mul_of_pos_left _ (by omega), ?_⟩
  have e1 : bc * (cpb * 1024) ≤ bc * (2 * bs) := Nat.mul_le_mul_left _ (by omega)
  have e2 : bc * (2 * bs) = 2 * (bc * bs) := by rw [← Nat.mul_assoc, Nat.mul_comm bc 2, Nat.mul_assoc]
  rw [← Nat.mul_assoc] at e1
  omega

/-- The chunks of a block make up the block. -/
theorem chunks_block {size bs w cpb bc b : Nat} (hbs : 1 ≤ bs) (hw : 1 ≤ w) (hc1 : 1 ≤ cpb) (hcpb : bs ≤ cpb * w) (hbc : size ≤ bc * bs) :
    (blockOf (bc * cpb) cpb b).biUnion (chunkOf size bs w cpb) = blockOf size bs b := by
  ext j
  rw [Finset.mem_biUnion]
  unfold blockOf chunkOf
  simp only [Finset.mem_filter, Finset.mem_range]
  constructor
  · rintro ⟨n, ⟨h1, h2⟩, h3, h4, h5⟩
    exact ⟨h3, by rw [h4, h2]⟩
  · rintro ⟨h1, h2⟩
    have hr : j % bs / w < cpb := Nat.div_lt_of_lt_mul (by
      have := Nat.mod_lt j (show 0 < bs by omega)
      rw [Nat.mul_comm]; omega)
    have hb : b < bc := by rw [← h2]; exact Nat.div_lt_of_lt_mul (by rw [Nat.mul_comm]; omega)
    have e1 : (b * cpb + j % bs / w) / cpb = b := by
      rw [Nat.mul_comm, Nat.mul_add_div (by omega), Nat.div_eq_of_lt hr, Nat.add_zero]
    have e2 : (b * cpb + j % bs / w) % cpb = j % bs / w := by
      rw [Nat.mul_comm, Nat.mul_add_mod, Nat.mod_eq_of_lt hr]
    refine ⟨b * cpb + j % bs / w, ⟨?_, e1⟩, h1, by rw [e1, h2], e2.symm⟩
    calc b * cpb + j % bs / w < (b + 1) * cpb := by rw [Nat.succ_mul]; omega
      _ ≤ bc * cpb := Nat.mul_le_mul_right _ hb

theorem chunkOf_disj {size bs w cpb n n' : Nat} (h : n ≠ n') : Disjoint (chunkOf size bs w cpb n) (chunkOf size bs w cpb n') := by
  rw [Finset.disjoint_left]
  unfold chunkOf
  simp only [Finset.mem_filter, Finset.mem_range]
  rintro j ⟨_, h1, h2⟩ ⟨_, h3, h4⟩
  apply h
  have d1 := Nat.div_add_mod n cpb
  have d2 := Nat.div_add_mod n' cpb
  rw [← d1, ← d2, ← h1, ← h2, ← h3, ← h4]

/-- The block itself -/
theorem chunkOf_block {size bs w b : Nat} (hbs : 1 ≤ bs) (hw : bs ≤ w) : chunkOf size bs w 1 b = blockOf size bs b := by
  ext j
  unfold chunkOf blockOf
  simp only [Finset.mem_filter, Finset.mem_range, Nat.div_one, Nat.mod_one]
  have : j % bs / w = 0 := Nat.div_eq_of_lt (by have := Nat.mod_lt j (show 0 < bs by omega); omega)
  tauto

/-- What the first kernel computes -/
theorem first_kernel {tsize size bs a : Nat} (ht : tsize = 2 ∨ tsize = 4 ∨ tsize = 8) (hb : 2 ≤ bs) (hle : bs ≤ size) (hs : size + 2 ^ 17 ≤ 2 ^ 31) {y y' : Nat → T} (h : (mkReduce tsize size bs a).Runs R x y y') :
    ∃ w, 1 ≤ w ∧ 1 ≤ (mkReduce tsize size bs a).L.cpb ∧ bs ≤ (mkReduce tsize size bs a).L.cpb * w ∧ (mkReduce tsize size bs a).count = (size + bs - 1) / bs * (mkReduce tsize size bs a).L.cpb ∧
      ((mkReduce tsize size bs a).L.cpb ≠ 1 → 1024 < bs ∧ (mkReduce tsize size bs a).L.cpb = (bs + 1024 - 1) / 1024) ∧
      (∀ c, c < (mkReduce tsize size bs a).count → ∃ v, Rounded R.red R.init R.toV R.ofV ((chunkOf size bs w (mkReduce tsize size bs a).L.cpb c).val.map fun j => R.toV (x j)) v ∧ y' c = R.ofV v) ∧
      ∀ c, (mkReduce tsize size bs a).count ≤ c → y' c = y c := by
  by_cases h512 : bs ≤ 512
  · obtain ⟨hL, hvw, hcnt, hcpb, cp, g⟩ := mkReduce_small (tsize := tsize) (addr := a) hb hle hs h512
    have hbs : (mkReduce tsize size bs a).L.bs = bs := by rw [hL]; unfold mkLaunch; simp only; split <;> rfl
    have hsz : (mkReduce tsize size bs a).L.size = size := by rw [hL]; unfold mkLaunch; simp only; split <;> rfl
    obtain ⟨h1, h2⟩ := g.runs_rounded (n := 0) (size := size) (bs := bs) (w := (mkReduce tsize size bs a).L.cs) hvw (by rw [hbs, Nat.pow_zero, Nat.one_mul]) (by rw [hsz, Nat.pow_zero, Nat.one_mul]) (by rw [Nat.pow_zero, Nat.one_mul]) h
    have hbl := g.bs_le
    rw [hbs] at hbl
    have := g.cs0
    refine ⟨(mkReduce tsize size bs a).L.cs, by omega, by omega, hbl, by rw [hcnt, hcpb, Nat.mul_one], fun hne => absurd hcpb hne, h1, h2⟩
  · obtain ⟨n, p, q, hn, hvw, hp, hq, hbs, hsz, hcs, hcpb, hcnt, g⟩ := mkReduce_large (tsize := tsize) (addr := a) ht hle hs (by omega)
    obtain ⟨h1, h2⟩ := g.runs_rounded (n := n) (size := size) (bs := bs) (w := 1024) hvw (by rw [hbs]; exact hp) (by rw [hsz]; exact hq) (by rw [Nat.mul_comm]; exact hcs.symm) h
    refine ⟨1024, by omega, by rw [hcpb]; omega, by rw [hcpb]; omega, by rw [hcnt, hcpb], fun hne => ⟨?_, hcpb⟩, h1, h2⟩
    rw [hcpb] at hne
    omega

end

/-- **C84**: in every execution, block reductions on CUDA devices store the reductions of the blocks, and nothing else: sums, products, minima, maxima and bitwise operations of all elements of the
block, each used once.  This covers the loads of vectors of elements, several blocks per thread block, and blocks that are split into chunks whose results are reduced again.

Partial: arrays of more than `2 ^ 31 - 2 ^ 17` elements are excluded, and the copies made for blocks of one element must have less than `2 ^ 32` bytes; `C84_copy_counterexample` and
`C84_division_counterexample` show what happens otherwise. -/
theorem C84_reduce_partial {R : Red T V} {tsize : Nat} (ht : tsize = 2 ∨ tsize = 4 ∨ tsize = 8) (hT : ∀ x, R.ofV (R.toV x) = x) {size bs a : Nat} {x y : Nat → T} {o : PrefixOut T}
    (h : Reduce R tsize size bs a x y o) (hb : 1 ≤ bs) (hle : bs ≤ size) (hs : size + 2 ^ 17 ≤ 2 ^ 31) (hcopy : bs = 1 → size * tsize < 2 ^ 32) :
    ∃ y', o = .ok y' ∧ IsReduce R.red R.init R.toV R.ofV size bs x y y' := by
  induction h with
  | empty => omega
  | raise _ _ _ _ _ _ h => omega
  | copy size a x y h0 =>
    refine ⟨_, rfl, ?_, ?_⟩
    · intro b hbb
      refine ⟨R.toV (x b), ?_, ?_⟩
      · have : blockOf size 1 b = {b} := by
          ext j
          unfold blockOf
          simp only [Finset.mem_filter, Finset.mem_range, Nat.div_one, Finset.mem_singleton]
          omega
        rw [this]
        exact .one _
      · show (if b < u32 (size * tsize) / tsize then x b else y b) = _
        rw [u32_lt (hcopy rfl), Nat.mul_div_cancel _ (by omega), if_pos (by omega), hT]
    · intro b hbb
      show (if b < u32 (size * tsize) / tsize then x b else y b) = y b
      rw [u32_lt (hcopy rfl), Nat.mul_div_cancel _ (by omega), if_neg (by omega)]
  | ub size bs a x y h1 h2 h3 => exact absurd h3 (by rw [reduceUb_false h1 h2 hs]; simp)
  | one size bs a x y y' h1 h2 h3 h4 h5 =>
    obtain ⟨w, hw, hc1, hcw, hcnt, _, k1, k2⟩ := first_kernel ht h1 h2 hs h5
    rw [h4, Nat.mul_one] at hcnt
    rw [h4] at k1 hcw
    refine ⟨y', rfl, fun b hbb => ?_, fun b hbb => ?_⟩
    · rw [block_lt (by omega) (by omega), ← hcnt] at hbb
      have := k1 b hbb
      rwa [chunkOf_block (by omega) (by omega)] at this
    · apply k2
      by_contra hc
      rw [hcnt, Nat.not_le, ← block_lt (by omega) (by omega)] at hc
      omega
  | more size bs a a' x y z z' o h1 h2 h3 h4 h5 _ ih =>
    obtain ⟨w, hw, hc1, hcw, hcnt, hne, k1, k2⟩ := first_kernel ht h1 h2 hs h5
    obtain ⟨hbig, hcpb⟩ := hne h4
    obtain ⟨f1, f2, f3⟩ := count_facts h2 hbig
    obtain ⟨s1, s2, s3⟩ := ceil_spec (a := size) (b := bs) (by omega) (by omega)
    rw [← hcpb, ← hcnt] at f2 f3
    rw [← hcpb] at f1
    obtain ⟨y', rfl, i1, i2⟩ := ih (by omega) f2 (by omega) (by omega)
    have hblk : ∀ b, b * (mkReduce tsize size bs a).L.cpb < (mkReduce tsize size bs a).count ↔ b * bs < size := by
      intro b
      rw [block_lt (size := size) (by omega) (by omega), hcnt]
      constructor
      · intro h
        by_contra hc
        have := Nat.mul_le_mul_right (mkReduce tsize size bs a).L.cpb (Nat.not_lt.1 hc)
        omega
      · intro h
        exact Nat.mul_lt_mul_of_pos_right h (by omega)
    refine ⟨y', rfl, fun b hbb => ?_, fun b hbb => ?_⟩
    · obtain ⟨v, hv, hy⟩ := i1 b ((hblk b).2 hbb)
      refine ⟨v, ?_, hy⟩
      rw [← chunks_block (w := w) (cpb := (mkReduce tsize size bs a).L.cpb) (bc := (size + bs - 1) / bs) (by omega) hw hc1 hcw s2, ← hcnt]
      refine Rounded.biUnion (fun _ _ _ _ hij => chunkOf_disj hij) hv fun n hn => ?_
      unfold blockOf at hn
      rw [Finset.mem_filter, Finset.mem_range] at hn
      obtain ⟨v', r1, r2⟩ := k1 n hn.1
      rw [r2]
      exact .round r1
    · apply i2
      by_contra hc
      have := (hblk b).1 (by omega)
      omega

/-- **C84**: for element types that are not promoted, and associative and commutative operations, such as integer sums, there is only one result. -/
theorem C84_result_unique {R : Red T V} [Std.Commutative R.red] [Std.Associative R.red] (hi : ∀ v, R.red R.init v = v) (hr : ∀ v, R.toV (R.ofV v) = v)
    {tsize : Nat} (ht : tsize = 2 ∨ tsize = 4 ∨ tsize = 8) (hT : ∀ x, R.ofV (R.toV x) = x) {size bs a : Nat} {x y : Nat → T} {o : PrefixOut T}
    (h : Reduce R tsize size bs a x y o) (hb : 1 ≤ bs) (hle : bs ≤ size) (hs : size + 2 ^ 17 ≤ 2 ^ 31) (hcopy : bs = 1 → size * tsize < 2 ^ 32) :
    o = .ok fun b => if b * bs < size then R.ofV (((blockOf size bs b).val.map fun j => R.toV (x j)).fold R.red R.init) else y b := by
  obtain ⟨y', rfl, h1, h2⟩ := C84_reduce_partial ht hT h hb hle hs hcopy
  congr 1
  funext b
  by_cases hbb : b * bs < size
  · obtain ⟨v, hv, hy⟩ := h1 b hbb
    rw [if_pos hbb, hy, hv.eq_fold hi hr]
  · rw [if_neg hbb]
    exact h2 b (by omega)

/-! ### Executions -/

/-- Kernels can be executed. -/
theorem runs_exists (K : RLaunch) (R : Red T V) (x y : Nat → T) : ∃ y', K.Runs R x y y' := by
  classical
  have h1 : ∀ c i, ∃ v : V, (∃ t, t < K.L.threads ∧ t % 32 = 0 ∧ t / K.active = i ∧ v = K.warp R x (K.L.at c).1 (K.L.at c).2 t) ∨ ∀ t, t < K.L.threads → t % 32 = 0 → t / K.active ≠ i := by
    intro c i
    by_cases h : ∃ t, t < K.L.threads ∧ t % 32 = 0 ∧ t / K.active = i
    · obtain ⟨t, a1, a2, a3⟩ := h
      exact ⟨_, Or.inl ⟨t, a1, a2, a3, rfl⟩⟩
    · exact ⟨R.init, Or.inr fun t a1 a2 a3 => h ⟨t, a1, a2, a3⟩⟩
  choose sh hsh using h1
  have h2 : ∀ e, ∃ v : T, (∃ c t, c < K.L.gx * K.L.gy ∧ t < K.L.threads ∧ K.Stores R x (K.L.at c).1 (K.L.at c).2 (sh c) t e v) ∨
      ((∀ c t v, c < K.L.gx * K.L.gy → t < K.L.threads → ¬ K.Stores R x (K.L.at c).1 (K.L.at c).2 (sh c) t e v) ∧ v = y e) := by
    intro e
    by_cases h : ∃ v c t, c < K.L.gx * K.L.gy ∧ t < K.L.threads ∧ K.Stores R x (K.L.at c).1 (K.L.at c).2 (sh c) t e v
    · obtain ⟨v, h⟩ := h
      exact ⟨v, Or.inl h⟩
    · exact ⟨y e, Or.inr ⟨fun c t v a1 a2 a3 => h ⟨v, c, t, a1, a2, a3⟩, rfl⟩⟩
  choose y' hy' using h2
  exact ⟨y', sh, fun c _ => hsh c, hy'⟩

/-- Block reductions can be executed, whatever addresses and content temporary memory has. -/
theorem C84_execution_exists (R : Red T V) {tsize : Nat} (ht : tsize = 2 ∨ tsize = 4 ∨ tsize = 8) (size : Nat) : ∀ {bs a : Nat} {x y : Nat → T}, 1 ≤ bs → bs ≤ size → size + 2 ^ 17 ≤ 2 ^ 31 →
    ∃ o, Reduce R tsize size bs a x y o := by
  induction size using Nat.strong_induction_on with
  | _ size ih =>
    intro bs a x y hb hle hs
    by_cases h1 : bs = 1
    · subst h1
      exact ⟨_, .copy size a x y (by omega)⟩
    · have hub := reduceUb_false (size := size) (bs := bs) (by omega) hle hs
      by_cases hc : (mkReduce tsize size bs a).L.cpb = 1
      · obtain ⟨y', hr⟩ := runs_exists (mkReduce tsize size bs a) R x y
        exact ⟨_, .one size bs a x y y' (by omega) hle hub hc hr⟩
      · obtain ⟨z', hr⟩ := runs_exists (mkReduce tsize size bs a) R x x
        obtain ⟨w, hw, hc1, hcw, hcnt, hne, k1, k2⟩ := first_kernel ht (show 2 ≤ bs by omega) hle hs hr
        obtain ⟨hbig, hcpb⟩ := hne hc
        obtain ⟨f1, f2, f3⟩ := count_facts hle hbig
        rw [← hcpb, ← hcnt] at f2 f3
        obtain ⟨o, ho⟩ := ih _ f3 (a := 0) (x := z') (y := y) hc1 f2 (by omega)
        exact ⟨o, .more size bs a 0 x y x z' o (by omega) hle hub hc hr ho⟩

/-- **C84**: invalid block sizes are reported, and only those. -/
theorem C84_raise {R : Red T V} {tsize size bs a : Nat} {x y : Nat → T} {o : PrefixOut T} (h0 : size ≠ 0) (hbad : bs = 0 ∨ size < bs) (h : Reduce R tsize size bs a x y o) : o = .raise := by
  cases h with
  | empty => omega
  | raise => rfl
  | copy => omega
  | ub => omega
  | one => omega
  | more => omega

/-! ### Shared memory -/

theorem RGeo.smem {K : RLaunch} {cp : Nat} (g : RGeo K cp) (hr : 1 < K.reduced) : K.active = 32 ∧ K.L.cs = K.reduced * 32 ∧ K.smem = K.reduced * cp := by
  obtain ⟨a, r, h1, h2, h3, h4, _, _⟩ := g.active_pow
  have ha := h4 hr
  subst ha
  have e : K.L.cs = K.reduced * 32 := by rw [h3, Nat.pow_add, h2]
  have hcs := g.cs0
  have hmin : min K.L.cs 32 = 32 := Nat.min_eq_right (by omega)
  have hd : K.L.cs / 32 = K.reduced := by rw [e, Nat.mul_div_cancel _ (by omega)]
  refine ⟨h1, e, ?_⟩
  unfold RLaunch.smem
  rw [hmin, hd, if_neg (by omega), g.threads, Nat.mul_div_cancel _ (by omega)]

theorem rgeo_mk {tsize size bs addr : Nat} (ht : tsize = 2 ∨ tsize = 4 ∨ tsize = 8) (hb : 2 ≤ bs) (hle : bs ≤ size) (hs : size + 2 ^ 17 ≤ 2 ^ 31) : ∃ cp, RGeo (mkReduce tsize size bs addr) cp := by
  by_cases h : bs ≤ 512
  · obtain ⟨_, _, _, _, cp, g⟩ := mkReduce_small (tsize := tsize) (addr := addr) hb hle hs h
    exact ⟨cp, g⟩
  · obtain ⟨_, _, _, _, _, _, _, _, _, _, _, _, g⟩ := mkReduce_large (tsize := tsize) (addr := addr) ht hle hs (by omega)
    exact ⟨1, g⟩

/-- **C84**: kernels never write beyond the shared memory that the host requested. -/
theorem C84_shared_writes {tsize size bs addr : Nat} (ht : tsize = 2 ∨ tsize = 4 ∨ tsize = 8) (hb : 2 ≤ bs) (hle : bs ≤ size) (hs : size + 2 ^ 17 ≤ 2 ^ 31) {t i : Nat}
    (h : (mkReduce tsize size bs addr).Writes t i) : i < (mkReduce tsize size bs addr).smem := by
  obtain ⟨cp, g⟩ := rgeo_mk (addr := addr) ht hb hle hs
  obtain ⟨h1, h2, _, rfl⟩ := h
  obtain ⟨a1, a2, a3⟩ := g.smem h2
  rw [a1, a3]
  refine Nat.div_lt_of_lt_mul ?_
  calc t < cp * (mkReduce tsize size bs addr).L.cs := by rw [← g.threads]; exact h1
    _ = 32 * ((mkReduce tsize size bs addr).reduced * cp) := by rw [a2, Nat.mul_comm cp, Nat.mul_comm 32, Nat.mul_right_comm]

/-- **C84**: kernels do not read beyond it either, with an exception: thread blocks of 64 threads.

Partial: `C84_shared_reads_counterexample` is the exception. -/
theorem C84_shared_reads_partial {tsize size bs addr : Nat} (ht : tsize = 2 ∨ tsize = 4 ∨ tsize = 8) (hb : 2 ≤ bs) (hle : bs ≤ size) (hs : size + 2 ^ 17 ≤ 2 ^ 31) {t i : Nat}
    (h64 : (mkReduce tsize size bs addr).L.threads ≠ 64) (h : (mkReduce tsize size bs addr).Reads t i) : i < (mkReduce tsize size bs addr).smem := by
  obtain ⟨cp, g⟩ := rgeo_mk (addr := addr) ht hb hle hs
  obtain ⟨h1, h2, h3, rfl⟩ := h
  obtain ⟨a1, a2, a3⟩ := g.smem h2
  have hth := g.threads
  have hcp := g.cp1
  rw [a1] at h3
  rw [a3]
  by_cases hm : (mkReduce tsize size bs addr).multi = true
  · have hlt : (mkReduce tsize size bs addr).L.cs < 128 := by simpa [RLaunch.multi] using hm
    have hbd : (mkReduce tsize size bs addr).blockDim = 128 := by unfold RLaunch.blockDim; rw [if_pos hm]
    rw [hbd] at h3
    obtain ⟨k, _, _, hk⟩ := g.pow
    have hk6 : k = 6 := by
      have h7 : 2 ^ k < 2 ^ 7 := by rw [← hk]; exact hlt
      have h5 : 2 ^ 5 < 2 ^ k := by rw [← hk]; omega
      have := (Nat.pow_lt_pow_iff_right (a := 2) (by omega)).1 h7
      have := (Nat.pow_lt_pow_iff_right (a := 2) (by omega)).1 h5
      omega
    have hcs : (mkReduce tsize size bs addr).L.cs = 64 := by rw [hk, hk6]; rfl
    rw [hcs] at hth a2
    have hr : (mkReduce tsize size bs addr).reduced = 2 := by omega
    rw [hr]
    omega
  · have hge : ¬ (mkReduce tsize size bs addr).L.cs < 128 := by simpa [RLaunch.multi] using hm
    have hbd : (mkReduce tsize size bs addr).blockDim = (mkReduce tsize size bs addr).L.cs := by unfold RLaunch.blockDim; rw [if_neg hm]
    rw [hbd, a2, Nat.mul_div_cancel _ (by omega)] at h3
    exact Nat.lt_of_lt_of_le h3 (Nat.le_mul_of_pos_right _ hcp)

/-- **C84**: one block of 33 to 64 elements: two entries of shared memory are requested, and four are read.  The values are not used (`C84_reduce_partial`). -/
theorem C84_shared_reads_counterexample {tsize addr : Nat} : (mkReduce tsize 40 40 addr).smem = 2 ∧ (mkReduce tsize 40 40 addr).Reads 3 3 := by
  have h : mkReduce tsize 40 40 addr = mkReduce 4 40 40 0 := rfl
  rw [h]
  exact ⟨by decide, by decide, by decide, by decide, rfl⟩

/-- Integer sums -/
def sum32 : Red (BitVec 32) (BitVec 32) := { red := fun a b => a + b, init := 0, toV := id, ofV := id }

/-- **C84**: `2 ^ 30` single precision values, with blocks of one element: nothing is copied, since the number of bytes is a 32 bit product. -/
theorem C84_copy_counterexample {R : Red T V} {a : Nat} {x y : Nat → T} {o : PrefixOut T} (h : Reduce R 4 (2 ^ 30) 1 a x y o) : o = .ok y := by
  cases h with
  | raise _ _ _ _ _ _ h => omega
  | copy =>
    have h0 : u32 (2 ^ 30 * 4) / 4 = 0 := by decide
    simp only [h0, Nat.not_lt_zero, if_false]
  | ub => omega
  | one => omega
  | more => omega

/-- **C84**: blocks of more than `2 ^ 31` elements: the block size, rounded to a power of two, is zero, and the host divides by it. -/
theorem C84_division_counterexample {R : Red T V} {tsize a : Nat} {x y : Nat → T} {o : PrefixOut T} (h : Reduce R tsize (2 ^ 31 + 1) (2 ^ 31 + 1) a x y o) : o = .ub := by
  have hub : reduceUb (2 ^ 31 + 1) (2 ^ 31 + 1) = true := by decide
  cases h with
  | raise _ _ _ _ _ _ h => omega
  | ub => rfl
  | one _ _ _ _ _ _ _ _ h => rw [hub] at h; exact absurd h (by simp)
  | more _ _ _ _ _ _ _ _ _ _ _ h => rw [hub] at h; exact absurd h (by simp)

/-- 5000 elements, in blocks of 1500: two chunks per block, and vectors of four elements -/
example (x y : Nat → BitVec 32) : (mkReduce 4 5000 1500 0).vw = 4 ∧ (mkReduce 4 5000 1500 0).L.cpb = 2 ∧ ∃ o, Reduce sum32 4 5000 1500 0 x y o ∧
    ∃ y', o = .ok y' ∧ IsReduce (fun a b => a + b) 0 id id 5000 1500 x y y' := by
  refine ⟨by decide, by decide, ?_⟩
  obtain ⟨o, ho⟩ := C84_execution_exists sum32 (tsize := 4) (by omega) 5000 (bs := 1500) (a := 0) (x := x) (y := y) (by omega) (by omega) (by omega)
  exact ⟨o, ho, C84_reduce_partial (by omega) (fun _ => rfl) ho (by omega) (by omega) (by omega) (by omega)⟩

/-- Blocks of 50 elements: several blocks per thread block, in two steps -/
example (x y : Nat → BitVec 32) : (mkReduce 4 120 50 0).L.cs = 64 ∧ (mkReduce 4 120 50 0).L.threads = 128 ∧ ∃ o, Reduce sum32 4 120 50 0 x y o ∧
    ∃ y', o = .ok y' ∧ IsReduce (fun a b => a + b) 0 id id 120 50 x y y' := by
  refine ⟨by decide, by decide, ?_⟩
  obtain ⟨o, ho⟩ := C84_execution_exists sum32 (tsize := 4) (by omega) 120 (bs := 50) (a := 0) (x := x) (y := y) (by omega) (by omega) (by omega)
  exact ⟨o, ho, C84_reduce_partial (by omega) (fun _ => rfl) ho (by omega) (by omega) (by omega) (by omega)⟩

end Verif.Cuda
