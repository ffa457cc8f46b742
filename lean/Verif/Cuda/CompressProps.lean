import Verif.Cuda.CompressRun
import Verif.Cuda.Progress
import Verif.Cuda.PrefixProps
import Verif.Arith.Lemmas

/-!
# C83: compression of masks on CUDA devices
-/
namespace Verif.Cuda

open Verif.Par Verif.Arith

/-! ### The launch configuration -/

theorem roundPow2_32_spec {x : Nat} (h1 : 1 ≤ x) (h2 : x ≤ 2 ^ 31) : ∃ k, roundPow2_32 x = 2 ^ k ∧ x ≤ 2 ^ k ∧ (x = 1 ∧ k = 0 ∨ 2 ^ k < 2 * x) := by
  rw [roundPow2_32_eq x h1 h2]
  by_cases hx : x = 1
  · subst hx; exact ⟨0, rfl, by omega, Or.inl ⟨rfl, rfl⟩⟩
  · rw [if_neg hx]
    have h0 : x - 1 ≠ 0 := by omega
    have a := Nat.log2_self_le h0
    have b := Nat.lt_log2_self (n := x - 1)
    have hpow : 2 ^ ((x - 1).log2 + 1) = 2 * 2 ^ (x - 1).log2 := by rw [Nat.pow_succ, Nat.mul_comm]
    exact ⟨_, rfl, by omega, Or.inr (by omega)⟩

theorem mkCompress_spec {size : Nat} (h0 : 1 ≤ size) (h1 : size + 2048 ≤ 2 ^ 32) :
    (mkCompress size).Geo ∧ size ≤ (mkCompress size).blocks * (mkCompress size).threads * (mkCompress size).items ∧
    size + (mkCompress size).trailer size = (mkCompress size).blocks * (mkCompress size).threads * (mkCompress size).items := by
  unfold mkCompress
  split
  · rename_i hs
    have e : sub32 (u32 (size + 4)) 1 / 4 = (size + 3) / 4 := by
      unfold u32; rw [Nat.mod_eq_of_lt (by omega), sub32_le (by omega) (by omega)]; rfl
    rw [e]
    obtain ⟨k, hk, h2, h3⟩ := roundPow2_32_spec (x := (size + 3) / 4) (by omega) (by omega)
    rw [hk]
    have hb : 2 ^ k ≤ 2048 := by
      rcases h3 with ⟨_, h3⟩ | h3
      · rw [h3]; omega
      · omega
    refine ⟨⟨⟨k, rfl⟩, by simp only; omega, Nat.le_refl 1, by simp only; omega, by simp only; omega, fun _ => rfl, fun h => by simp at h⟩, by simp only; omega, ?_⟩
    unfold CLaunch.trailer u32
    simp only
    rw [Nat.mul_one, Nat.mod_mod, Nat.mod_eq_of_lt (show 4 * 2 ^ k < 2 ^ 32 by omega), sub32_le (by omega) (by omega)]
    omega
  · rename_i hs
    have e : sub32 (u32 (size + 16 * 128)) 1 / (16 * 128) = (size + 2047) / 2048 := by
      unfold u32
      by_cases h : size + 2048 = 2 ^ 32
      · have : size = 2 ^ 32 - 2048 := by omega
        subst this; decide
      · rw [Nat.mod_eq_of_lt (by omega), sub32_le (by omega) (by omega)]; rfl
    rw [e]
    refine ⟨⟨⟨7, rfl⟩, by simp only; omega, by simp only; omega, by simp only; omega, by simp only; omega, fun h => by simp at h, fun _ => by simp only; omega⟩, by simp only; omega, ?_⟩
    unfold CLaunch.trailer u32
    simp only
    rw [Nat.mod_eq_of_lt (show 16 * 128 < 2 ^ 32 by omega), Nat.mod_eq_of_lt (by omega), sub32_le (by omega) (by omega)]
    omega

/-! ### Counting -/

/-- Number of nonzero entries before position `n` -/
def before (x : Nat → BitVec 8) (n : Nat) : Nat := ((List.range n).filter fun i => x i ≠ 0).length

theorem before_succ (x : Nat → BitVec 8) (n : Nat) : before x (n + 1) = before x n + if x n ≠ 0 then 1 else 0 := by
  unfold before
  rw [List.range_succ, List.filter_append, List.length_append]
  congr 1
  by_cases h : x n = 0
  · rw [if_neg (fun hh => hh h), List.filter_cons_of_neg (by simpa using h)]; rfl
  · rw [if_pos h, List.filter_cons_of_pos (by simpa using h)]; rfl

theorem before_le (x : Nat → BitVec 8) (n : Nat) : before x n ≤ n := by
  unfold before
  exact Nat.le_trans (List.length_filter_le _ _) (by simp)

theorem before_mono (x : Nat → BitVec 8) {a b : Nat} (h : a ≤ b) : before x a ≤ before x b := by
  induction b with
  | zero => have : a = 0 := by omega
            subst this; exact Nat.le_refl _
  | succ b ih =>
    by_cases hab : a = b + 1
    · subst hab; exact Nat.le_refl _
    · have := ih (by omega)
      rw [before_succ]; omega

theorem sum_before {x : Nat → BitVec 8} (n : Nat) (hx : ∀ i, i < n → x i = 0 ∨ x i = 1) : ∑ j ∈ Finset.range n, ext8 x j = BitVec.ofNat 32 (before x n) := by
  induction n with
  | zero => rfl
  | succ n ih =>
    rw [Finset.sum_range_succ, ih fun i hi => hx i (by omega), before_succ]
    rcases hx n (by omega) with h | h
    · simp [ext8, h]
    · simp only [ext8, h]
      have h10 : (1 : BitVec 8) ≠ 0 := by decide
      rw [if_pos h10, BitVec.ofNat_add]
      rfl

/-- Reading ranks as a list -/
theorem ranks_list (x : Nat → BitVec 8) (out : Nat → BitVec 32) (n : Nat) (hn : n ≤ 2 ^ 32) (h : ∀ i, i < n → x i ≠ 0 → out (before x i) = BitVec.ofNat 32 i) :
    (List.range (before x n)).map (fun k => (out k).toNat) = (List.range n).filter fun i => x i ≠ 0 := by
  induction n with
  | zero => rfl
  | succ n ih =>
    have ih := ih (by omega) fun i hi => h i (by omega)
    rw [before_succ, List.range_succ (n := n), List.filter_append]
    by_cases hp : x n = 0
    · rw [if_neg (by simpa using hp), Nat.add_zero, ih]
      simp [hp]
    · rw [if_pos hp, List.range_succ, List.map_append, ih]
      congr 1
      have : [n].filter (fun i => x i ≠ 0) = [n] := by rw [List.filter_cons_of_pos (by simpa using hp)]; rfl
      rw [this, List.map_singleton, h n (by omega) hp, BitVec.toNat_ofNat, Nat.mod_eq_of_lt (by omega)]

/-- The positions of the input are distributed over blocks, threads and items. -/
theorem CLaunch.Geo.split {L : CLaunch} (g : L.Geo) {p : Nat} (hp : p < L.blocks * L.threads * L.items) :
    ∃ c t i, c < L.blocks ∧ t < L.threads ∧ i < L.items ∧ (c * L.threads + t) * L.items + i = p := by
  have hth : 0 < L.threads := by obtain ⟨k, hk⟩ := g.pow; rw [hk]; exact Nat.two_pow_pos k
  have hit := g.items
  refine ⟨p / L.items / L.threads, p / L.items % L.threads, p % L.items, ?_, Nat.mod_lt _ hth, Nat.mod_lt _ (by omega), ?_⟩
  · rw [Nat.div_lt_iff_lt_mul hth, Nat.div_lt_iff_lt_mul (by omega)]
    exact hp
  · rw [Nat.div_add_mod', Nat.div_add_mod']

theorem CLaunch.Geo.index {L : CLaunch} (g : L.Geo) {c t i : Nat} (hc : c < L.blocks) (ht : t < L.threads) (hi : i < L.items) :
    (c * L.threads + t) * L.items + i < L.blocks * L.threads * L.items ∧ u32 (u32 (L.vec c t * L.items) + i) = (c * L.threads + t) * L.items + i := by
  have h1 := (g.bound hc ht).2
  rw [Nat.succ_mul] at h1
  have h2 := g.total
  rw [g.vec hc ht]
  unfold u32
  rw [Nat.mod_eq_of_lt (show (c * L.threads + t) * L.items < 2 ^ 32 by omega), Nat.mod_eq_of_lt (by omega)]
  exact ⟨by omega, rfl⟩

/-- What the threads store -/
theorem CLaunch.Geo.stores {L : CLaunch} (g : L.Geo) {x : Nat → BitVec 8} (hx : ∀ i, i < L.blocks * L.threads * L.items → x i = 0 ∨ x i = 1) {m : Nat → SLoc → BitVec 32}
    (hm : ∀ c, c < L.blocks → L.Scan x c (m c)) {sum : Nat → Nat → BitVec 32} (hs : L.Sums m sum) (e : Nat) (v : BitVec 32) :
    L.Stores x sum e v ↔ ∃ p, p < L.blocks * L.threads * L.items ∧ x p ≠ 0 ∧ e = before x p ∧ v = BitVec.ofNat 32 p := by
  have htot := g.total
  have key : ∀ c t i, c < L.blocks → t < L.threads → i < L.items →
      (L.value x sum c t i ≠ L.value x sum c t (i + 1) ↔ x ((c * L.threads + t) * L.items + i) ≠ 0) ∧ (L.value x sum c t i).toNat = before x ((c * L.threads + t) * L.items + i) := by
    intro c t i hc ht hi
    obtain ⟨h1, h2⟩ := g.index hc ht hi
    have hb := before_le x ((c * L.threads + t) * L.items + i)
    rw [g.value hm hs hc ht (by omega), g.value hm hs hc ht (show i + 1 ≤ L.items by omega), sum_before _ fun j hj => hx j (by omega), sum_before _ fun j hj => hx j (by omega),
      ← Nat.add_assoc, before_succ]
    refine ⟨?_, by rw [BitVec.toNat_ofNat, Nat.mod_eq_of_lt (by omega)]⟩
    generalize hq : (c * L.threads + t) * L.items + i = q at *
    by_cases h0 : x q = 0
    · simp [h0]
    · rw [if_pos h0]
      refine ⟨fun _ => h0, fun _ h => ?_⟩
      have := congrArg BitVec.toNat h
      rw [BitVec.toNat_ofNat, BitVec.toNat_ofNat, Nat.mod_eq_of_lt (by omega), Nat.mod_eq_of_lt (by omega)] at this
      omega
  constructor
  · rintro ⟨c, t, i, hc, ht, hi, h1, h2, h3⟩
    obtain ⟨k1, k2⟩ := key c t i hc ht hi
    obtain ⟨i1, i2⟩ := g.index hc ht hi
    exact ⟨_, i1, k1.1 h1, by rw [← h2, k2], by rw [h3, i2]⟩
  · rintro ⟨p, hp, h1, h2, h3⟩
    obtain ⟨c, t, i, hc, ht, hi, rfl⟩ := g.split hp
    obtain ⟨k1, k2⟩ := key c t i hc ht hi
    obtain ⟨i1, i2⟩ := g.index hc ht hi
    exact ⟨c, t, i, hc, ht, hi, k1.2 h1, by rw [k2, h2], by rw [h3, i2]⟩

theorem CLaunch.Geo.runs {L : CLaunch} (g : L.Geo) {x : Nat → BitVec 8} (hx : ∀ i, i < L.blocks * L.threads * L.items → x i = 0 ∨ x i = 1) {y y' : Nat → BitVec 32} {n : BitVec 32}
    (h : L.Runs x y n y') : n.toNat = before x (L.blocks * L.threads * L.items) ∧ (∀ p, p < L.blocks * L.threads * L.items → x p ≠ 0 → y' (before x p) = BitVec.ofNat 32 p) ∧
      ∀ e, before x (L.blocks * L.threads * L.items) ≤ e → y' e = y e := by
  obtain ⟨m, sum, hm, hs, hn, hy⟩ := h
  have hth : 0 < L.threads := by obtain ⟨k, hk⟩ := g.pow; rw [hk]; exact Nat.two_pow_pos k
  have hb := g.blocks
  have htot := g.total
  have hst := g.stores hx hm hs
  refine ⟨?_, ?_, ?_⟩
  · have e : (L.blocks - 1) * L.threads + (L.threads - 1) + 1 = L.blocks * L.threads := by
      have : L.blocks * L.threads = (L.blocks - 1) * L.threads + L.threads := by rw [← Nat.succ_mul]; congr 1; omega
      omega
    rw [hn, g.sums hm hs (by omega) (by omega), e, sum_before _ hx, BitVec.toNat_ofNat, Nat.mod_eq_of_lt]
    have := before_le x (L.blocks * L.threads * L.items)
    omega
  · intro p hp hne
    rcases hy (before x p) with h | ⟨h, _⟩
    · obtain ⟨q, hq, h1, h2, h3⟩ := (hst _ _).1 h
      rw [h3]
      -- ranks of set entries are distinct
      have inj : ∀ a b, a < b → x a ≠ 0 → before x a < before x b := by
        intro a b hab ha
        have := before_mono x (show a + 1 ≤ b by omega)
        rw [before_succ, if_pos ha] at this
        omega
      rcases Nat.lt_trichotomy p q with hpq | hpq | hpq
      · have := inj p q hpq hne; omega
      · rw [hpq]
      · have := inj q p hpq h1; omega
    · exact absurd ((hst _ _).2 ⟨p, hp, hne, rfl, rfl⟩) (h _)
  · intro e he
    rcases hy e with h | ⟨_, h⟩
    · obtain ⟨q, hq, h1, h2, h3⟩ := (hst _ _).1 h
      have := before_mono x (show q + 1 ≤ _ from hq)
      rw [before_succ, if_pos h1] at this
      omega
    · exact h

/-! ### The property -/

theorem before_clear {size : Nat} (x : Nat → BitVec 8) {tr : Nat} : before (clearTail size tr x) (size + tr) = before x size := by
  have h1 : ∀ n, n ≤ size → before (clearTail size tr x) n = before x n := by
    intro n
    induction n with
    | zero => intro _; rfl
    | succ n ih =>
      intro h
      have : clearTail size tr x n = x n := if_neg (by omega)
      rw [before_succ, before_succ, ih (by omega), this]
  have h2 : ∀ k, k ≤ tr → before (clearTail size tr x) (size + k) = before x size := by
    intro k
    induction k with
    | zero => intro _; exact h1 size (Nat.le_refl _)
    | succ k ih =>
      intro h
      have : clearTail size tr x (size + k) = 0 := if_pos (by omega)
      rw [← Nat.add_assoc, before_succ, ih (by omega), this]
      simp
  exact h2 tr (Nat.le_refl _)

/-- **C83.**  For every mask of zeros and ones with at most `2 ^ 32 - 2048` entries and every interleaving of the threads and thread blocks: the returned number is the number of set
entries, and the output lists their indices in increasing order; nothing is written behind them, and the mask itself is not modified.  (Larger masks: `C83_large_counterexample`.) -/
theorem C83_compress_partial (size : Nat) (hs : size + 2048 ≤ 2 ^ 32) (x : Nat → BitVec 8) (hx : ∀ i, i < size → x i = 0 ∨ x i = 1) (y : Nat → BitVec 32) (o : CompressOut)
    (h : Compress size x y o) :
    let set := (List.range size).filter fun i => x i ≠ 0
    ∃ n x' y', o = .ok n x' y' ∧ n.toNat = set.length ∧ (List.range set.length).map (fun k => (y' k).toNat) = set ∧ (∀ e, set.length ≤ e → y' e = y e) ∧ ∀ i, i < size → x' i = x i := by
  intro set
  unfold Compress at h
  by_cases h0 : size = 0
  · subst h0
    rw [if_pos rfl] at h
    exact ⟨0, x, y, h, rfl, rfl, fun _ _ => rfl, fun _ _ => rfl⟩
  rw [if_neg h0] at h
  obtain ⟨g, hle, htr⟩ := mkCompress_spec (size := size) (by omega) hs
  have hb := g.blocks
  dsimp only at h
  rw [if_neg (by omega)] at h
  obtain ⟨n, y', hr, rfl⟩ := h
  generalize mkCompress size = L at *
  have hx' : ∀ i, i < L.blocks * L.threads * L.items → clearTail size (L.trailer size) x i = 0 ∨ clearTail size (L.trailer size) x i = 1 := by
    intro i hi
    unfold clearTail
    split
    · exact Or.inl rfl
    · exact hx i (by omega)
  obtain ⟨r1, r2, r3⟩ := g.runs hx' hr
  rw [← htr, before_clear] at r1 r3
  have hlen : set.length = before x size := rfl
  refine ⟨n, _, y', rfl, by rw [hlen, r1], ?_, fun e he => r3 e (by rw [← hlen]; exact he), fun i hi => if_neg (by omega)⟩
  have hl := ranks_list (clearTail size (L.trailer size) x) y' size (by omega) fun i hi hne => r2 i (by omega) hne
  have e1 : ∀ k, k ≤ size → before (clearTail size (L.trailer size) x) k = before x k := by
    intro k hk
    unfold before
    congr 1
    refine List.filter_congr fun i hi => ?_
    rw [List.mem_range] at hi
    have : clearTail size (L.trailer size) x i = x i := if_neg (by omega)
    rw [this]
  rw [e1 size (Nat.le_refl _)] at hl
  rw [hlen, hl]
  refine List.filter_congr fun i hi => ?_
  rw [List.mem_range] at hi
  have : clearTail size (L.trailer size) x i = x i := if_neg (by omega)
  rw [this]

/-- **C83 (memory).**  Reads of the mask, and the zeros written behind it, stay within an allocation of `jit_malloc` for `size` bytes: these are rounded up to a multiple of 64 and then to a power
of two (malloc.cpp:113-124). -/
theorem C83_mask_bounds (size : Nat) (h0 : 1 ≤ size) (hs : size + 2048 ≤ 2 ^ 32) :
    size + (mkCompress size).trailer size ≤ roundPow2_64 ((size + 63) / 64 * 64) ∧
    ∀ c t j, c < (mkCompress size).blocks → t < (mkCompress size).threads → j < (mkCompress size).items →
      (mkCompress size).vec c t * (mkCompress size).items + j < size + (mkCompress size).trailer size := by
  obtain ⟨g, hle, htr⟩ := mkCompress_spec h0 hs
  constructor
  · rw [htr]
    have ha : 1 ≤ (size + 63) / 64 * 64 := by omega
    rw [roundPow2_64_eq _ ha (by omega), if_neg (by omega)]
    have b := Nat.lt_log2_self (n := (size + 63) / 64 * 64 - 1)
    generalize hk : Nat.log2 ((size + 63) / 64 * 64 - 1) + 1 = k at *
    unfold mkCompress
    split
    · simp only
      have e : sub32 (u32 (size + 4)) 1 / 4 = (size + 3) / 4 := by
        unfold u32; rw [Nat.mod_eq_of_lt (by omega), sub32_le (by omega) (by omega)]; rfl
      rw [e]
      obtain ⟨j, hj, h2, h3⟩ := roundPow2_32_spec (x := (size + 3) / 4) (by omega) (by omega)
      rw [hj]
      have hkj : j + 2 ≤ k := by
        by_contra hc
        have h6 : 6 ≤ k := by
          by_contra h
          have : 2 ^ k ≤ 2 ^ 5 := Nat.pow_le_pow_right (by omega) (by omega)
          omega
        have h4 : 2 ^ k ≤ 2 ^ (j + 1) := Nat.pow_le_pow_right (by omega) (by omega)
        have h5 : 2 ^ (j + 1) = 2 * 2 ^ j := by rw [Nat.pow_succ, Nat.mul_comm]
        rcases h3 with h3 | h3
        · omega
        · omega
      have h4 : 2 ^ (j + 2) ≤ 2 ^ k := Nat.pow_le_pow_right (by omega) hkj
      have h5 : 2 ^ (j + 2) = 4 * 2 ^ j := by rw [Nat.pow_add, Nat.mul_comm]
      omega
    · rename_i hbig
      simp only
      have e : sub32 (u32 (size + 16 * 128)) 1 / (16 * 128) = (size + 2047) / 2048 := by
        unfold u32
        by_cases h : size + 2048 = 2 ^ 32
        · have : size = 2 ^ 32 - 2048 := by omega
          subst this; decide
        · rw [Nat.mod_eq_of_lt (by omega), sub32_le (by omega) (by omega)]; rfl
      rw [e]
      have h12 : 12 ≤ k := by
        by_contra h
        have : 2 ^ k ≤ 2 ^ 11 := Nat.pow_le_pow_right (by omega) (by omega)
        omega
      have h13 : 2 ^ k = 2048 * 2 ^ (k - 11) := by
        rw [show (2048 : Nat) = 2 ^ 11 from rfl, ← Nat.pow_add]; congr 1; omega
      omega
  · intro c t j hc ht hj
    rw [htr, g.vec hc ht]
    exact (g.index hc ht hj).1

/-- **C83 (scratch memory).**  In every reachable state, lanes read words of the scratch memory only: positions count from the start of the padding, chunk `c` has position `c + 32`, and no position is
negative or behind the last chunk.  The values assumed for the padding and for chunks without result are those of the initialisation. -/
theorem C83_scratch_bounds (size : Nat) (hs : size + 2048 ≤ 2 ^ 32) (hl : 4096 < size) (x : Nat → BitVec 8) (m : Nat → SLoc → BitVec 32)
    (hm : ∀ c, c < (mkCompress size).blocks → (mkCompress size).Scan x c (m c)) (s : LState (BitVec 32) (BitVec 32))
    (h : LRun ((mkCompress size).cfg m) (fun _ => True) (LState.start ((mkCompress size).cfg m)) s) (c w l : Nat) (hc : c < (mkCompress size).blocks) (hw : w < 4) (hll : l < 32) :
    ∃ i, i < (mkCompress size).blocks + 32 ∧ i + 32 * (s.round c w + 1) = c + 32 + l ∧
      ((mkCompress size).cfg m).fetch s c w l 0 = (if 32 ≤ i then s.word (i - 32) 0 else scratchInit i) ∧
      (LState.start ((mkCompress size).cfg m)).word (i - 32) 0 = (if 32 ≤ i then scratchInit i else (0, 0)) := by
  obtain ⟨g, _, _⟩ := mkCompress_spec (size := size) (by omega) hs
  have hlg : (mkCompress size).large = true := by unfold mkCompress; rw [if_neg (by omega)]
  have hth : (mkCompress size).threads = 128 := by unfold mkCompress; rw [if_neg (by omega)]
  generalize mkCompress size = L at *
  have ok := g.cfg_ok hlg hm
  have inv := run_inv ok (inv_start ok) h
  have hr := inv.round c w hc (by show w < L.threads / 32; omega)
  have hrel : (L.cfg m).rel c = c := Nat.mod_eq_of_lt hc
  rw [hrel] at hr
  refine ⟨c + 32 + l - 32 * (s.round c w + 1), by omega, by omega, ?_, ?_⟩
  · unfold Cfg.fetch
    rw [hrel]
    by_cases h1 : 32 * (s.round c w + 1) ≤ c + l
    · rw [if_pos h1, if_pos (by omega)]
      congr 1; omega
    · rw [if_neg h1, if_neg (by omega)]
      unfold scratchInit
      rw [if_pos (by omega)]
      rfl
  · split
    · unfold scratchInit
      rw [if_neg (by omega)]; rfl
    · rfl

theorem compress_look (L : CLaunch) (m : Nat → SLoc → BitVec 32) (hw : 1 ≤ L.threads / 32) (hc : 1 ≤ L.blocks) :
    ∃ s, LRun (L.cfg m) (fun _ => True) (LState.start (L.cfg m)) s ∧ ∀ c, c < L.blocks → (L.cfg m).Terminated s c := by
  have h1 : 1 ≤ (L.cfg m).nw := Nat.le_refl 1
  have h2 : 1 ≤ (L.cfg m).warps := hw
  have h3 : 1 ≤ (L.cfg m).cpb := hc
  have h4 : WInv (L.cfg m) (LState.start (L.cfg m)) := winv_start
  have h5 : (L.cfg m).chunks = L.blocks := rfl
  rw [← h5]
  exact run_all h1 h2 h3 _ h4

/-- **C83 (executions exist).** -/
theorem C83_execution_exists (size : Nat) (hs : size + 2048 ≤ 2 ^ 32) (x : Nat → BitVec 8) (y : Nat → BitVec 32) : ∃ o, Compress size x y o := by
  classical
  unfold Compress
  by_cases h0 : size = 0
  · simp only [if_pos h0]; exact ⟨_, rfl⟩
  obtain ⟨g, _, _⟩ := mkCompress_spec (size := size) (by omega) hs
  have hb := g.blocks
  have hb0 : (mkCompress size).blocks ≠ 0 := by omega
  simp only [if_neg h0, if_neg hb0]
  generalize mkCompress size = L at *
  generalize clearTail size (L.trailer size) x = x' at *
  have hscan : ∀ c, ∃ m, L.Scan x' c m := by
    intro c
    obtain ⟨m', h⟩ := ends_exists (L.phases x' c (Nat.log2 L.threads)) (fun _ => 0)
    exact ⟨m', _, h⟩
  choose m hm using hscan
  have hsum : ∃ sum, L.Sums m sum := by
    unfold CLaunch.Sums
    by_cases hl : L.large = true
    · simp only [if_pos hl]
      have := g.large hl
      obtain ⟨s, h1, h2⟩ := compress_look L m (by omega) hb
      exact ⟨fun c t => m c (.reg t) + (L.cfg m).prefixOf s c t, s, h1, h2, fun _ _ _ _ => rfl⟩
    · simp only [if_neg hl]
      exact ⟨fun c t => m c (.reg t), fun _ _ _ _ => rfl⟩
  obtain ⟨sum, hsum⟩ := hsum
  refine ⟨_, sum (L.blocks - 1) (L.threads - 1), fun e => if h : ∃ v, L.Stores x' sum e v then h.choose else y e, ⟨m, sum, fun c _ => hm c, hsum, rfl, fun e => ?_⟩, rfl⟩
  by_cases h : ∃ v, L.Stores x' sum e v
  · left; simp only [dif_pos h]; exact h.choose_spec
  · right
    simp only [dif_neg h]
    exact ⟨fun v hv => h ⟨v, hv⟩, trivial⟩

/-- **C83 (counterexample).**  The number of thread blocks of masks with more than `2 ^ 32 - 2048` entries overflows; the kernel is launched with an empty grid. -/
theorem C83_large_counterexample (size : Nat) (h1 : 2 ^ 32 < size + 2048) (h2 : size < 2 ^ 32) (x : Nat → BitVec 8) (y : Nat → BitVec 32) (o : CompressOut) (h : Compress size x y o) : o = .fail := by
  unfold Compress at h
  rw [if_neg (by omega)] at h
  have hb : (mkCompress size).blocks = 0 := by
    unfold mkCompress
    rw [if_neg (by omega)]
    show sub32 (u32 (size + 16 * 128)) 1 / (16 * 128) = 0
    unfold u32 sub32
    omega
  dsimp only at h
  rwa [if_pos hb] at h

/-- Executions for a small mask and for one with several thread blocks; the hypotheses are met. -/
example : ∃ n x' y', Compress 5 (fun i => if i = 1 ∨ i = 4 then 1 else 0) (fun _ => 7) (.ok n x' y') ∧ n.toNat = 2 ∧ (y' 0).toNat = 1 ∧ (y' 1).toNat = 4 ∧ y' 2 = 7 := by
  obtain ⟨o, h⟩ := C83_execution_exists 5 (by omega) (fun i => if i = 1 ∨ i = 4 then 1 else 0) (fun _ => 7)
  obtain ⟨n, x', y', rfl, h1, h2, h3, _⟩ := C83_compress_partial 5 (by omega) _ (fun i _ => by by_cases h : i = 1 ∨ i = 4 <;> simp [h]) _ _ h
  have e : (List.range 5).filter (fun i => (if i = 1 ∨ i = 4 then 1 else 0 : BitVec 8) ≠ 0) = [1, 4] := by decide
  rw [e] at h1 h2 h3
  refine ⟨n, x', y', h, h1, ?_, ?_, h3 2 (by simp)⟩
  · have := congrArg (fun l => l[0]?) h2
    simpa using this
  · have := congrArg (fun l => l[1]?) h2
    simpa using this

example : (mkCompress 10000).blocks = 5 ∧ (mkCompress 10000).trailer 10000 = 240 ∧ (mkCompress 5).threads = 2 := by decide

end Verif.Cuda
