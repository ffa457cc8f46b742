import Verif.Cuda.ReduceRun

/-!
# The launch configurations of block reductions
-/
namespace Verif.Cuda

open Verif.Arith

/-- Thread blocks for small blocks -/
theorem small_facts {bc k cp : Nat} (h1 : 1 ≤ bc) (hk1 : 1 ≤ k) (hk9 : k ≤ 9) (hb : bc * 2 ^ k + 2 ^ 10 ≤ 2 ^ 32) (hb2 : bc ≤ 2 ^ 30)
    (hcp : min (max (2 ^ k) 128) (alignUp (u32 (bc * 2 ^ k)) 32) = cp * 2 ^ k) :
    (∃ w, cp * 2 ^ k = 32 * w) ∧ (2 ^ k < 128 → (cp = 128 / 2 ^ k ∨ (ceilDiv bc cp = 1 ∧ bc ≤ cp ∧ cp ≤ 128 / 2 ^ k)) ∧ ceilDiv bc cp * (128 / 2 ^ k) < 2 ^ 31) ∧
    (¬ 2 ^ k < 128 → cp = 1 ∧ bc = ceilDiv bc cp) ∧ bc ≤ ceilDiv bc cp * cp := by
  have hal : alignUp (u32 (bc * 2 ^ k)) 32 = (bc * 2 ^ k + 32 - 1) / 32 * 32 := by
    rw [u32_lt (by omega)]
    unfold alignUp
    rw [ceilDiv_eq (by omega) (by omega), Nat.mod_eq_of_lt (by omega)]
  rw [hal] at hcp
  have hcp1 : 1 ≤ cp := by
    by_contra hc
    have : cp = 0 := by omega
    subst this
    have h2 := Nat.two_pow_pos k
    have : 1 ≤ bc * 2 ^ k := Nat.mul_pos h1 h2
    omega
  have hcpk : cp ≤ cp * 2 ^ k := Nat.le_mul_of_pos_right _ (Nat.two_pow_pos k)
  have h512 : 2 ^ k ≤ 512 := Nat.pow_le_pow_right (n := 2) (by omega) hk9
  have hcd : ceilDiv bc cp = (bc + cp - 1) / cp := ceilDiv_eq hcp1 (by omega)
  obtain ⟨g1, g2, g3⟩ := ceil_spec (a := bc) (b := cp) h1 hcp1
  rw [← hcd] at g1 g2 g3
  have hone : bc ≤ cp → ceilDiv bc cp = 1 := by
    intro h
    have : (bc + cp - 1) / cp < 2 := Nat.div_lt_of_lt_mul (by omega)
    omega
  have hid : cp = 1 → bc = ceilDiv bc cp := by
    intro h
    rw [hcd, h, Nat.add_sub_cancel, Nat.div_one]
  generalize ceilDiv bc cp = gx at *
  have hks : k = 1 ∨ k = 2 ∨ k = 3 ∨ k = 4 ∨ k = 5 ∨ k = 6 ∨ k = 7 ∨ k = 8 ∨ k = 9 := by omega
  have hcase : (2 ^ k < 128 → cp = 128 / 2 ^ k ∨ (bc ≤ cp ∧ cp ≤ 128 / 2 ^ k)) ∧ (¬ 2 ^ k < 128 → cp = 1) ∧ cp * 2 ^ k = 32 * (cp * 2 ^ k / 32) := by
    clear hone hid g1 g2 g3 hcd hal hcpk h512 hb2
    rcases hks with rfl | rfl | rfl | rfl | rfl | rfl | rfl | rfl | rfl <;> simp only [Nat.reducePow, Nat.reduceDiv, Nat.reduceLT, Nat.reduceMul, not_true_eq_false, not_false_eq_true, forall_const, false_imp_iff, true_imp_iff, true_and] at * <;> omega
  obtain ⟨q1, q2, q3⟩ := hcase
  refine ⟨⟨_, q3⟩, fun h => ?_, fun h => ⟨q2 h, hid (q2 h)⟩, g2⟩
  rcases q1 h with h3 | ⟨h3, h4⟩
  · refine ⟨Or.inl h3, ?_⟩
    rw [← h3]
    omega
  · refine ⟨Or.inr ⟨hone h3, h3, h4⟩, ?_⟩
    rw [hone h3, Nat.one_mul]
    have := Nat.div_le_self 128 (2 ^ k)
    omega

/-- The number of chunks -/
theorem mkReduce_small {tsize size bs addr : Nat} (hb : 2 ≤ bs) (hle : bs ≤ size) (hs : size + 2 ^ 17 ≤ 2 ^ 31) (hsm : bs ≤ 512) :
    (mkReduce tsize size bs addr).L = mkLaunch size bs false false ∧ (mkReduce tsize size bs addr).vw = 1 ∧ (mkReduce tsize size bs addr).count = (size + bs - 1) / bs ∧
      (mkReduce tsize size bs addr).L.cpb = 1 ∧ ∃ cp, RGeo (mkReduce tsize size bs addr) cp := by
  have hbc := ceilDiv_eq (a := size) (b := bs) (by omega) (by omega)
  obtain ⟨c1, c2, c3⟩ := ceil_spec (a := size) (b := bs) (by omega) (by omega)
  obtain ⟨cp, g⟩ := geo_mk false false hb hle hs
  have hrp := roundPow2_32_eq bs (by omega) (by omega)
  rw [if_neg (by omega)] at hrp
  have hlog1 : 2 ^ Nat.log2 (bs - 1) ≤ bs - 1 := Nat.log2_self_le (by omega)
  have hk9 : Nat.log2 (bs - 1) + 1 ≤ 9 := by
    by_contra hc
    have : 2 ^ 9 ≤ 2 ^ Nat.log2 (bs - 1) := Nat.pow_le_pow_right (by omega) (by omega)
    omega
  have hcs : roundPow2_32 bs < 1024 := by
    rw [hrp]
    have : 2 ^ (Nat.log2 (bs - 1) + 1) ≤ 2 ^ 9 := Nat.pow_le_pow_right (by omega) hk9
    omega
  have hL : (mkReduce tsize size bs addr).L = mkLaunch size bs false false := by
    unfold mkReduce mkLaunch
    simp only [if_pos hcs]
  have hcount : (mkReduce tsize size bs addr).count = (size + bs - 1) / bs := by
    unfold mkReduce
    simp only [if_pos hcs]; exact hbc
  have hfields : (mkLaunch size bs false false).cs = roundPow2_32 bs ∧ (mkLaunch size bs false false).threads = min (max (roundPow2_32 bs) 128) (alignUp (u32 (ceilDiv size bs * roundPow2_32 bs)) 32) ∧
      (mkLaunch size bs false false).gx = ceilDiv (ceilDiv size bs) ((mkLaunch size bs false false).threads / roundPow2_32 bs) ∧ (mkLaunch size bs false false).gy = 1 ∧
      (mkLaunch size bs false false).large = false ∧ (mkLaunch size bs false false).rev = false ∧ (mkLaunch size bs false false).cpb = 1 := by
    unfold mkLaunch
    simp only [if_pos hcs, and_self]
  obtain ⟨f1, f2, f3, f4, f5, f6, f7⟩ := hfields
  refine ⟨hL, ?_, hcount, by rw [hL]; exact f7, cp, ?_⟩
  · unfold mkReduce
    simp only [if_pos hcs]
  have hth := g.threads
  have hcs2 : 2 ^ (Nat.log2 (bs - 1) + 1) = 2 * 2 ^ Nat.log2 (bs - 1) := by rw [Nat.pow_succ, Nat.mul_comm]
  rw [hbc] at f2 f3
  rw [hrp] at f1 f2 f3 hcs
  generalize hbcg : (size + bs - 1) / bs = bc at *
  generalize Nat.log2 (bs - 1) = k at *
  rw [f1] at hth
  have hcpT : (mkLaunch size bs false false).threads / 2 ^ (k + 1) = cp := by rw [hth, Nat.mul_div_cancel _ (Nat.two_pow_pos _)]
  rw [hcpT] at f3
  have hmul : bc * 2 ^ (k + 1) ≤ 2 * (bc * bs) := by
    calc bc * 2 ^ (k + 1) ≤ bc * (2 * bs) := Nat.mul_le_mul_left _ (by omega)
      _ = 2 * (bc * bs) := by rw [← Nat.mul_assoc, Nat.mul_comm bc 2, Nat.mul_assoc]
  have hbc2 : bc * 2 ≤ bc * bs := Nat.mul_le_mul_left _ hb
  obtain ⟨w, q1, q2, q3⟩ := small_facts (k := k + 1) (cp := cp) c1 (by omega) hk9 (by omega) (by omega) (by rw [← f2]; exact hth)
  rw [← f3] at q1 q2 q3
  have hgg : (mkLaunch size bs false false).gx * (mkLaunch size bs false false).gy = (mkLaunch size bs false false).gx := by rw [f4, Nat.mul_one]
  have hgt := g.threads
  have hcpos := g.cs0
  have hcp1 := g.cp1
  have h0 : Geo0 (mkReduce tsize size bs addr).L cp := by rw [hL]; exact g.toGeo0
  refine ⟨h0, by rw [hL]; exact f6, ?_, ?_, ?_, ?_, ?_⟩
  · rw [hL]
    intro c t hc ht
    rw [hgg] at hc
    have hat : (mkLaunch size bs false false).at c = (c, 0) := by unfold Launch.at; rw [f5]; rfl
    have htd : t / (mkLaunch size bs false false).cs < cp := Nat.div_lt_of_lt_mul (by rw [Nat.mul_comm, ← hgt]; exact ht)
    rw [hat]
    unfold Launch.chunk
    rw [f5]
    simp only [Bool.false_eq_true, if_false]
    split
    · rename_i h
      rw [f1] at h htd ⊢
      obtain ⟨m1, m2⟩ := q1 h
      have hcb : c * (128 / 2 ^ (k + 1)) + 128 / 2 ^ (k + 1) ≤ (mkLaunch size bs false false).gx * (128 / 2 ^ (k + 1)) := by
        rw [← Nat.succ_mul]; exact Nat.mul_le_mul_right _ hc
      rw [u32_lt (show c * (128 / 2 ^ (k + 1)) < 2 ^ 32 by omega)]
      rcases m1 with e | ⟨e1, e2, e3⟩
      · rw [← e] at hcb m2 ⊢
        rw [u32_lt (by omega)]
      · have : c = 0 := by omega
        subst this
        rw [Nat.zero_mul, Nat.zero_mul, u32_lt (by omega)]
    · rename_i h
      rw [f1] at h
      obtain ⟨m1, m2⟩ := q2 h
      subst m1
      rw [Nat.mul_one, Nat.div_eq_of_lt (by omega), Nat.add_zero]
  · rw [hL, hgg, f1, hcount]
    by_cases h : 2 ^ (k + 1) < 128
    · exact Or.inl h
    · exact Or.inr (q2 h)
  · rw [hL, hgg, f1, hcount]
    intro h
    exact ⟨f5, q1 h⟩
  · rw [hL, hgg, hcount]; exact q3
  · rw [hL]
    obtain ⟨w, hw⟩ := w
    exact ⟨w, by rw [hth]; exact hw⟩

theorem vectorWidth_spec {tsize size bs addr : Nat} (ht : tsize = 2 ∨ tsize = 4 ∨ tsize = 8) :
    ∃ n, n ≤ 3 ∧ vectorWidth tsize size bs addr = 2 ^ n ∧ (∃ p, bs = 2 ^ n * p) ∧ ∃ q, size = 2 ^ n * q := by
  unfold vectorWidth
  split
  · rename_i h
    obtain ⟨h1, h2, _⟩ := h
    unfold u32 at h1 h2
    rcases ht with rfl | rfl | rfl
    · exact ⟨3, by omega, rfl, ⟨bs / 8, by omega⟩, ⟨size / 8, by omega⟩⟩
    · exact ⟨2, by omega, rfl, ⟨bs / 4, by omega⟩, ⟨size / 4, by omega⟩⟩
    · exact ⟨1, by omega, rfl, ⟨bs / 2, by omega⟩, ⟨size / 2, by omega⟩⟩
  · exact ⟨0, by omega, rfl, ⟨bs, by simp⟩, ⟨size, by simp⟩⟩

/-- Large blocks -/
theorem mkReduce_large {tsize size bs addr : Nat} (ht : tsize = 2 ∨ tsize = 4 ∨ tsize = 8) (hle : bs ≤ size) (hs : size + 2 ^ 17 ≤ 2 ^ 31) (hlg : 512 < bs) :
    ∃ n p q, n ≤ 3 ∧ (mkReduce tsize size bs addr).vw = 2 ^ n ∧ bs = 2 ^ n * p ∧ size = 2 ^ n * q ∧ (mkReduce tsize size bs addr).L.bs = p ∧ (mkReduce tsize size bs addr).L.size = q ∧
      (mkReduce tsize size bs addr).L.cs * 2 ^ n = 1024 ∧ (mkReduce tsize size bs addr).L.cpb = (bs + 1024 - 1) / 1024 ∧
      (mkReduce tsize size bs addr).count = (size + bs - 1) / bs * ((bs + 1024 - 1) / 1024) ∧ RGeo (mkReduce tsize size bs addr) 1 := by
  have hbc := ceilDiv_eq (a := size) (b := bs) (by omega) (by omega)
  obtain ⟨c1, c2, c3⟩ := ceil_spec (a := size) (b := bs) (by omega) (by omega)
  have hcpb := ceilDiv_eq (a := bs) (b := 1024) (by omega) (by omega)
  obtain ⟨g1, g2, g3⟩ := ceil_spec (a := bs) (b := 1024) (by omega) (by omega)
  have hrp := roundPow2_32_eq bs (by omega) (by omega)
  rw [if_neg (by omega)] at hrp
  have hcs : ¬ roundPow2_32 bs < 1024 := by
    rw [hrp]
    have hlog2 : bs - 1 < 2 ^ (Nat.log2 (bs - 1) + 1) := Nat.lt_log2_self
    have : 2 ^ 10 ≤ 2 ^ (Nat.log2 (bs - 1) + 1) := by
      apply Nat.pow_le_pow_right (by omega)
      by_contra hc
      have : 2 ^ (Nat.log2 (bs - 1) + 1) ≤ 2 ^ 9 := Nat.pow_le_pow_right (by omega) (by omega)
      omega
    omega
  obtain ⟨n, hn, hvw, ⟨p, hp⟩, ⟨q, hq⟩⟩ := vectorWidth_spec (size := size) (bs := bs) (addr := addr) ht
  generalize hK : mkReduce tsize size bs addr = K
  unfold mkReduce at hK
  simp only [if_neg hcs, hvw, hbc, hcpb] at hK
  have h2n := Nat.two_pow_pos n
  have hbp : bs / 2 ^ n = p := by rw [hp, Nat.mul_div_cancel_left _ h2n]
  have hsq : size / 2 ^ n = q := by rw [hq, Nat.mul_div_cancel_left _ h2n]
  rw [hbp, hsq] at hK
  generalize (size + bs - 1) / bs = bc at *
  generalize (bs + 1024 - 1) / 1024 = cpb at *
  have hcnt : bc * cpb < 2 ^ 31 := by
    have e1 : bc * (cpb * 1024) ≤ bc * (2 * bs) := Nat.mul_le_mul_left _ (by omega)
    have e2 : bc * (2 * bs) = 2 * (bc * bs) := by rw [← Nat.mul_assoc, Nat.mul_comm bc 2, Nat.mul_assoc]
    rw [← Nat.mul_assoc] at e1
    omega
  rw [u32_lt (by omega)] at hK
  have hk : 1024 / 2 ^ n = 2 ^ (10 - n) := by
    rw [show (1024 : Nat) = 2 ^ 10 from rfl, Nat.pow_div (by omega) (by omega)]
  have hcs2 : 1024 / 2 ^ n * 2 ^ n = 1024 := by
    rw [hk, ← Nat.pow_add, show 10 - n + n = 10 by omega]
  have hp1 : 1 ≤ p := by
    by_contra hc
    have : p = 0 := by omega
    subst this
    omega
  have hgg : (if bc < cpb then cpb else bc) * (if bc < cpb then bc else cpb) = bc * cpb := by
    split
    · exact Nat.mul_comm _ _
    · rfl
  have h128 : 128 ≤ 1024 / 2 ^ n := by
    rw [hk]
    calc 128 = 2 ^ 7 := rfl
      _ ≤ 2 ^ (10 - n) := Nat.pow_le_pow_right (by omega) (by omega)
  have hpp : p ≤ cpb * (1024 / 2 ^ n) := by
    have : p * 2 ^ n ≤ cpb * (1024 / 2 ^ n) * 2 ^ n := by
      rw [Nat.mul_assoc, hcs2, Nat.mul_comm, ← hp]; exact g2
    exact Nat.le_of_mul_le_mul_right this h2n
  have hqp : q ≤ bc * p := by
    have : q * 2 ^ n ≤ bc * p * 2 ^ n := by
      rw [Nat.mul_comm, ← hq, Nat.mul_assoc, Nat.mul_comm p, ← hp]; exact c2
    exact Nat.le_of_mul_le_mul_right this h2n
  have hpb : p ≤ bs := by rw [hp]; exact Nat.le_mul_of_pos_left _ h2n
  have hbpb : bc * p ≤ bc * bs := Nat.mul_le_mul_left _ hpb
  have hle1 : cpb * (1024 / 2 ^ n) ≤ cpb * 1024 := Nat.mul_le_mul_left _ (Nat.div_le_self _ _)
  have hcs1 : 1024 / 2 ^ n ≤ 1024 := Nat.div_le_self _ _
  subst hK
  have g : Geo0 (⟨q, p, 1024 / 2 ^ n, true, cpb, decide (cpb ≤ bc), false, false, false, 1024 / 2 ^ n, if bc < cpb then cpb else bc, if bc < cpb then bc else cpb⟩ : Launch) 1 :=
    geo_chunk (bc := bc) (k := 10 - n) rfl hp1 (by omega) (by omega) hk g1 hpp (by show cpb * (1024 / 2 ^ n) ≤ _; omega) rfl hgg hqp (by show bc * p ≤ _; omega) (by show p < _; omega)
  refine ⟨n, p, q, hn, rfl, hp, hq, rfl, rfl, hcs2, rfl, rfl, ⟨g, rfl, ?_, ?_, ?_, ?_, ?_⟩⟩
  · intro c t hc ht
    have hc' : c < bc * cpb := by rw [← hgg]; exact hc
    have hdm := Nat.div_add_mod c cpb
    have ht' : t < 1024 / 2 ^ n := ht
    have e : u32 (u32 (c / cpb * cpb) + c % cpb) = c := by
      rw [Nat.mul_comm] at hdm
      rw [u32_lt (show c / cpb * cpb < 2 ^ 32 by omega), u32_lt (by omega)]; exact hdm
    show _ = c * 1 + t / (1024 / 2 ^ n)
    rw [Nat.mul_one, Nat.div_eq_of_lt ht', Nat.add_zero]
    by_cases hx : cpb ≤ bc
    · simp only [Launch.chunk, Launch.at, hx, decide_true, if_true]; exact e
    · simp only [Launch.chunk, Launch.at, hx, decide_false, if_true, Bool.false_eq_true, if_false]; exact e
  · exact Or.inr ⟨rfl, hgg.symm⟩
  · intro h
    exact absurd h (by show ¬ 1024 / 2 ^ n < 128; omega)
  · show bc * cpb ≤ _ * 1
    rw [Nat.mul_one]; exact Nat.le_of_eq hgg.symm
  · refine ⟨2 ^ (5 - n), ?_⟩
    show 1024 / 2 ^ n = _
    rw [hk, show (32 : Nat) = 2 ^ 5 from rfl, ← Nat.pow_add]
    congr 1
    omega

end Verif.Cuda
