import Verif.Cuda.Geo
import Verif.Arith.Lemmas

/-!
# The launch configuration covers the array
-/
namespace Verif.Cuda

open Verif.Arith

theorem ceilDiv_eq {a b : Nat} (hb : 1 ≤ b) (h : a + b ≤ 2 ^ 32) : ceilDiv a b = (a + b - 1) / b := by
  unfold ceilDiv
  rw [show a + b + (2 ^ 32 - 1) = (a + b - 1) + 2 ^ 32 by omega, Nat.add_mod_right, Nat.mod_eq_of_lt (by omega)]

theorem ceil_spec {a b : Nat} (ha : 1 ≤ a) (hb : 1 ≤ b) : 1 ≤ (a + b - 1) / b ∧ a ≤ (a + b - 1) / b * b ∧ (a + b - 1) / b * b < a + b := by
  have h := Nat.div_add_mod (a + b - 1) b
  have hm := Nat.mod_lt (a + b - 1) (show 0 < b by omega)
  rw [Nat.mul_comm] at h
  refine ⟨?_, by omega, by omega⟩
  rw [Nat.le_div_iff_mul_le (by omega)]
  omega

theorem u32_lt {n : Nat} (h : n < 2 ^ 32) : u32 n = n := Nat.mod_eq_of_lt h

/-- Validity and position of a thread -/
theorem thread_spec {L : Launch} {bx yb t B q : Nat} (hb : 1 ≤ L.bs) (hB : L.block bx yb t = B) (hq : u32 (u32 (L.rel bx yb * L.cs) + L.pos t) = q) (hbs : L.bs < 2 ^ 32) (hfit : B * L.bs + L.bs ≤ 2 ^ 32) :
    (L.valid bx yb t = true ↔ q < L.bs ∧ B * L.bs + (if L.rev then L.bs - 1 - q else q) < L.size) ∧
    (L.valid bx yb t = true → L.posInInput bx yb t = B * L.bs + (if L.rev then L.bs - 1 - q else q)) := by
  have hq32 : q < 2 ^ 32 := by rw [← hq]; exact Nat.mod_lt _ (by omega)
  have hpb : q < L.bs → L.posInBlock bx yb t = if L.rev then L.bs - 1 - q else q := by
    intro h
    unfold Launch.posInBlock
    simp only [hq]
    split
    · rw [sub32_le hbs hb, sub32_le (by omega) (by omega)]
    · rfl
  have hpb' : ¬ q < L.bs → ¬ L.posInBlock bx yb t < L.bs := by
    intro h
    unfold Launch.posInBlock
    simp only [hq]
    split
    · rw [sub32_le hbs hb, sub32_gt hq32 (by omega)]
      omega
    · exact h
  have hpi : q < L.bs → L.posInInput bx yb t = B * L.bs + (if L.rev then L.bs - 1 - q else q) := by
    intro h
    unfold Launch.posInInput
    rw [hpb h, hB]
    have : (if L.rev then L.bs - 1 - q else q) < L.bs := by split <;> omega
    rw [u32_lt (show B * L.bs < 2 ^ 32 by omega), u32_lt (by omega)]
  have hv : L.valid bx yb t = true ↔ L.posInBlock bx yb t < L.bs ∧ L.posInInput bx yb t < L.size := by
    unfold Launch.valid; exact decide_eq_true_iff
  have hq1 : L.valid bx yb t = true → q < L.bs := by
    intro h
    by_contra hc
    exact hpb' hc (hv.1 h).1
  refine ⟨⟨fun h => ?_, fun h => ?_⟩, fun h => hpi (hq1 h)⟩
  · refine ⟨hq1 h, ?_⟩
    rw [← hpi (hq1 h)]
    exact (hv.1 h).2
  · rw [hv, hpi h.1, hpb h.1]
    refine ⟨?_, h.2⟩
    have := h.1
    split <;> omega

/-- Launches with one chunk per block -/
theorem geo_small {L : Launch} {cp k : Nat} (hlarge : L.large = false) (hb : 1 ≤ L.bs) (hk1 : 1 ≤ k) (hk2 : k ≤ 9) (hcs : L.cs = 2 ^ k) (hle : L.bs ≤ L.cs) (hcpb : L.cpb = 1) (hsc : L.scratch = false)
    (hcp : 1 ≤ cp) (hth : L.threads = cp * L.cs) (hth2 : L.threads ≤ 512) (hgy : L.gy = 1)
    (hbl : if L.cs < 128 then (cp = 128 / L.cs ∨ L.gx = 1) else cp = 1)
    (hcov : L.size ≤ L.gx * cp * L.bs) (hfit : L.gx * cp * L.cs ≤ 2 ^ 32) : Geo L cp := by
  have hcs2 : 2 ≤ L.cs := by
    rw [hcs]
    calc 2 = 2 ^ 1 := rfl
      _ ≤ 2 ^ k := Nat.pow_le_pow_right (by omega) hk1
  have hcs512 : L.cs ≤ 512 := by
    rw [hcs]
    calc 2 ^ k ≤ 2 ^ 9 := Nat.pow_le_pow_right (by omega) hk2
      _ = 512 := rfl
  have hat : ∀ c, L.at c = (c, 0) := fun c => by unfold Launch.at; rw [hlarge]; rfl
  have hpos : ∀ t, t < L.threads → L.pos t = t % L.cs := by
    intro t ht
    unfold Launch.pos
    rw [hlarge]
    simp only [Bool.false_eq_true, if_false]
    split
    · rfl
    · rename_i h
      rw [if_neg h] at hbl
      subst hbl
      rw [Nat.mod_eq_of_lt (by omega)]
  have hthread : ∀ c t, c < L.gx * L.gy → t < L.threads → c * cp + t / L.cs < L.gx * cp ∧ L.block (L.at c).1 (L.at c).2 t = c * cp + t / L.cs := by
    intro c t hc ht
    rw [hgy, Nat.mul_one] at hc
    have h1 : t / L.cs < cp := Nat.div_lt_of_lt_mul (by rw [Nat.mul_comm, ← hth]; exact ht)
    have h2 : c * cp + t / L.cs < L.gx * cp := by
      calc c * cp + t / L.cs < c * cp + cp := by omega
        _ = (c + 1) * cp := by rw [Nat.add_mul, Nat.one_mul]
        _ ≤ L.gx * cp := Nat.mul_le_mul_right _ hc
    have h3 : L.gx * cp ≤ L.gx * cp * L.cs := Nat.le_mul_of_pos_right _ (by omega)
    refine ⟨h2, ?_⟩
    have h0 := Nat.zero_le (t / L.cs)
    rw [hat]
    unfold Launch.block Launch.chunk
    rw [hlarge]
    simp only [Bool.false_eq_true, if_false]
    split
    · rename_i h
      rw [if_pos h] at hbl
      rcases hbl with e | e
      · rw [← e, u32_lt (show c * cp < 2 ^ 32 by omega), u32_lt (by omega)]
      · have : c = 0 := by omega
        subst this
        rw [Nat.zero_mul, Nat.zero_mul, u32_lt (show (0 : Nat) < 2 ^ 32 by omega), u32_lt (by omega)]
    · rename_i h
      rw [if_neg h] at hbl
      subst hbl
      rw [Nat.mul_one, Nat.div_eq_of_lt (by omega), Nat.add_zero]
  have hq : ∀ c t, t < L.threads → u32 (u32 (L.rel (L.at c).1 (L.at c).2 * L.cs) + L.pos t) = L.rank (c * cp + t / L.cs) t := by
    intro c t ht
    have hm := Nat.mod_lt t (show 0 < L.cs by omega)
    unfold Launch.rel Launch.rank
    rw [hlarge, hpos t ht, hcpb, Nat.mod_one]
    simp only [Bool.false_eq_true, if_false, Nat.zero_mul]
    rw [u32_lt (show (0 : Nat) < 2 ^ 32 by omega), u32_lt (by omega)]
  have hspec : ∀ c t, c < L.gx * L.gy → t < L.threads → _ := fun c t hc ht =>
    thread_spec (L := L) (bx := (L.at c).1) (yb := (L.at c).2) (t := t) hb (hthread c t hc ht).2 (hq c t ht) (by omega) (by
      have h1 := (hthread c t hc ht).1
      calc (c * cp + t / L.cs) * L.bs + L.bs = (c * cp + t / L.cs + 1) * L.bs := (Nat.succ_mul _ _).symm
        _ ≤ L.gx * cp * L.bs := Nat.mul_le_mul_right _ h1
        _ ≤ L.gx * cp * L.cs := Nat.mul_le_mul_left _ hle
        _ ≤ 2 ^ 32 := hfit)
  refine ⟨⟨hb, hcp, by omega, ⟨k, hk1, by omega, hcs⟩, hth, by omega, by rw [hcpb, Nat.one_mul]; exact hle, ?_, hpos, ?_, ?_⟩, by rw [hlarge]; exact hcpb⟩
  · intro j hj
    rw [hgy, hcpb, Nat.mul_one, Nat.mul_one]
    exact Nat.div_lt_of_lt_mul (by rw [Nat.mul_comm]; omega)
  · intro c t hc ht
    have := (hspec c t hc ht).1
    rw [hcpb, Nat.div_one]; exact this
  · intro c t hc ht
    have := (hspec c t hc ht).2
    rw [hcpb, Nat.div_one]; exact this

/-- Launches with one chunk per thread block -/
theorem geo_chunk {L : Launch} {bc k : Nat} (hlarge : L.large = true) (hb : 1 ≤ L.bs) (hk1 : 1 ≤ k) (hk2 : k ≤ 10) (hcs : L.cs = 2 ^ k) (hcpb1 : 1 ≤ L.cpb) (hle : L.bs ≤ L.cpb * L.cs)
    (hle2 : L.cpb * L.cs ≤ 2 ^ 32) (hth : L.threads = L.cs) (hg : L.gx * L.gy = bc * L.cpb) (hcov : L.size ≤ bc * L.bs) (hfit : bc * L.bs ≤ 2 ^ 32) (hbs32 : L.bs < 2 ^ 32) : Geo0 L 1 := by
  have hcs1 : L.cs ≤ 1024 := by
    rw [hcs]
    calc 2 ^ k ≤ 2 ^ 10 := Nat.pow_le_pow_right (by omega) hk2
      _ = 1024 := rfl
  have hcs0 : 0 < L.cs := by rw [hcs]; exact Nat.two_pow_pos k
  have hpos : ∀ t, t < L.threads → L.pos t = t % L.cs := by
    intro t ht
    unfold Launch.pos
    rw [if_pos hlarge, Nat.mod_eq_of_lt (by omega)]
  have hblock : ∀ c t, L.block (L.at c).1 (L.at c).2 t = c / L.cpb := by
    intro c t
    unfold Launch.block Launch.at
    rw [if_pos hlarge, if_pos hlarge]
    cases L.xb <;> rfl
  have hrel : ∀ c, L.rel (L.at c).1 (L.at c).2 = c % L.cpb := by
    intro c
    unfold Launch.rel Launch.at
    rw [if_pos hlarge, if_pos hlarge]
    cases L.xb <;> rfl
  have hn : ∀ c t, t < L.threads → c * 1 + t / L.cs = c := by
    intro c t ht
    rw [Nat.mul_one, Nat.div_eq_of_lt (by omega), Nat.add_zero]
  have hq : ∀ c t, t < L.threads → u32 (u32 (L.rel (L.at c).1 (L.at c).2 * L.cs) + L.pos t) = L.rank c t := by
    intro c t ht
    have hm := Nat.mod_lt t hcs0
    have hc := Nat.mod_lt c (show 0 < L.cpb by omega)
    have h1 : (c % L.cpb + 1) * L.cs ≤ L.cpb * L.cs := Nat.mul_le_mul_right _ hc
    rw [Nat.succ_mul] at h1
    unfold Launch.rank
    rw [hrel, hpos t ht]
    rw [u32_lt (show c % L.cpb * L.cs < 2 ^ 32 by omega), u32_lt (by omega)]
  have hspec : ∀ c t, c < L.gx * L.gy → t < L.threads → _ := fun c t hc ht =>
    thread_spec (L := L) (bx := (L.at c).1) (yb := (L.at c).2) (t := t) hb (hblock c t) (hq c t ht) hbs32 (by
      have h1 : c / L.cpb < bc := Nat.div_lt_of_lt_mul (by rw [Nat.mul_comm, ← hg]; exact hc)
      calc c / L.cpb * L.bs + L.bs = (c / L.cpb + 1) * L.bs := by rw [Nat.add_mul, Nat.one_mul]
        _ ≤ bc * L.bs := Nat.mul_le_mul_right _ h1
        _ ≤ 2 ^ 32 := hfit)
  refine ⟨hb, by omega, hcpb1, ⟨k, hk1, hk2, hcs⟩, by omega, by omega, hle, ?_, hpos, ?_, ?_⟩
  · intro j hj
    rw [hg, Nat.mul_one]
    have : j / L.bs < bc := Nat.div_lt_of_lt_mul (by rw [Nat.mul_comm]; omega)
    calc j / L.bs * L.cpb + L.cpb = (j / L.bs + 1) * L.cpb := by rw [Nat.add_mul, Nat.one_mul]
      _ ≤ bc * L.cpb := Nat.mul_le_mul_right _ this
  · intro c t hc ht
    rw [hn c t ht]; exact (hspec c t hc ht).1
  · intro c t hc ht
    rw [hn c t ht]; exact (hspec c t hc ht).2

/-- Launches with 1024 threads per thread block -/
theorem geo_large {L : Launch} {bc : Nat} (hlarge : L.large = true) (hb : 1 ≤ L.bs) (hcs : L.cs = 1024) (hcpb1 : 1 ≤ L.cpb) (hle : L.bs ≤ L.cpb * 1024) (hle2 : L.cpb * 1024 ≤ 2 ^ 32) (hth : L.threads = 1024)
    (hsc : L.scratch = decide (1 < L.cpb)) (hg : L.gx * L.gy = bc * L.cpb) (hcov : L.size ≤ bc * L.bs) (hfit : bc * L.bs ≤ 2 ^ 32) (hbs32 : L.bs < 2 ^ 32) : Geo L 1 := by
  refine ⟨geo_chunk (k := 10) hlarge hb (by omega) (by omega) hcs hcpb1 (by rw [hcs]; exact hle) (by rw [hcs]; exact hle2) (by rw [hth, hcs]) hg hcov hfit hbs32, ?_⟩
  rw [hlarge, hsc]
  by_cases h : 1 < L.cpb
  · simp [h, hth]
  · simp [h]; omega

/-- The host chooses suitable parameters. -/
theorem geo_mk {size bs : Nat} (excl rev : Bool) (hb : 2 ≤ bs) (hle : bs ≤ size) (hs : size + 2 ^ 17 ≤ 2 ^ 31) : ∃ cp, Geo (mkLaunch size bs excl rev) cp := by
  have hbc := ceilDiv_eq (a := size) (b := bs) (by omega) (by omega)
  obtain ⟨c1, c2, c3⟩ := ceil_spec (a := size) (b := bs) (by omega) (by omega)
  rw [← hbc] at c1 c2 c3
  have hrp := roundPow2_32_eq bs (by omega) (by omega)
  rw [if_neg (by omega)] at hrp
  have hlog1 : 2 ^ Nat.log2 (bs - 1) ≤ bs - 1 := Nat.log2_self_le (by omega)
  have hlog2 : bs - 1 < 2 ^ (Nat.log2 (bs - 1) + 1) := Nat.lt_log2_self
  generalize hL : mkLaunch size bs excl rev = L
  unfold mkLaunch at hL
  generalize ceilDiv size bs = bc at *
  generalize hk : Nat.log2 (bs - 1) = k at *
  have hpow : 2 ^ (k + 1) = 2 * 2 ^ k := by rw [Nat.pow_succ, Nat.mul_comm]
  rw [hrp] at hL
  simp only at hL
  by_cases hsm : 2 ^ (k + 1) < 1024
  · rw [if_pos hsm] at hL
    have hk9 : k + 1 ≤ 9 := by
      by_contra hc
      have : 2 ^ 10 ≤ 2 ^ (k + 1) := Nat.pow_le_pow_right (by omega) (by omega)
      omega
    have h512 : 2 ^ (k + 1) ≤ 512 := Nat.pow_le_pow_right (n := 2) (by omega) hk9
    have hmul : bc * 2 ^ (k + 1) ≤ 2 * (bc * bs) := by
      calc bc * 2 ^ (k + 1) ≤ bc * (2 * bs) := Nat.mul_le_mul_left _ (by omega)
        _ = 2 * (bc * bs) := by rw [← Nat.mul_assoc, Nat.mul_comm bc 2, Nat.mul_assoc]
    have hbc1 : bc ≤ bc * 2 ^ (k + 1) := Nat.le_mul_of_pos_right _ (by omega)
    have hbcs : 2 ^ (k + 1) ≤ bc * 2 ^ (k + 1) := Nat.le_mul_of_pos_left _ (by omega)
    rw [u32_lt (show bc * 2 ^ (k + 1) < 2 ^ 32 by omega)] at hL
    have hal : alignUp (bc * 2 ^ (k + 1)) 32 = (bc * 2 ^ (k + 1) + 32 - 1) / 32 * 32 := by
      unfold alignUp
      rw [ceilDiv_eq (by omega) (by omega), Nat.mod_eq_of_lt (by omega)]
    rw [hal] at hL
    -- the three cases of the number of threads
    by_cases hbig : 128 ≤ 2 ^ (k + 1)
    · have hth : min (max (2 ^ (k + 1)) 128) ((bc * 2 ^ (k + 1) + 32 - 1) / 32 * 32) = 2 ^ (k + 1) := by
        rw [Nat.max_eq_left hbig, Nat.min_eq_left (by omega)]
      rw [hth, Nat.div_self (by omega), ceilDiv_eq (by omega) (by omega), Nat.add_sub_cancel, Nat.div_one] at hL
      refine ⟨1, ?_⟩
      subst hL
      refine geo_small (k := k + 1) rfl (by show 1 ≤ bs; omega) (by omega) hk9 rfl (by show bs ≤ 2 ^ (k + 1); omega) rfl rfl (by omega) (Nat.one_mul _).symm h512 rfl ?_ ?_ ?_
      · show if 2 ^ (k + 1) < 128 then _ else _
        rw [if_neg (by omega)]
      · show size ≤ bc * 1 * bs
        rw [Nat.mul_one]; exact c2
      · show bc * 1 * 2 ^ (k + 1) ≤ _
        rw [Nat.mul_one]; omega
    · have hk6 : k ≤ 5 := by
        by_contra hc
        have : 2 ^ 7 ≤ 2 ^ (k + 1) := Nat.pow_le_pow_right (by omega) (by omega)
        omega
      by_cases hfull : 128 ≤ (bc * 2 ^ (k + 1) + 32 - 1) / 32 * 32
      · have hth : min (max (2 ^ (k + 1)) 128) ((bc * 2 ^ (k + 1) + 32 - 1) / 32 * 32) = 128 := by
          rw [Nat.max_eq_right (by omega), Nat.min_eq_left hfull]
        have hdvd : 128 / 2 ^ (k + 1) * 2 ^ (k + 1) = 128 := by
          apply Nat.div_mul_cancel
          exact (Nat.pow_dvd_pow 2 (show k + 1 ≤ 7 by omega) : 2 ^ (k + 1) ∣ 2 ^ 7)
        have hcp : 1 ≤ 128 / 2 ^ (k + 1) := by rw [Nat.le_div_iff_mul_le (by omega)]; omega
        have hcp2 : 128 / 2 ^ (k + 1) ≤ 128 := Nat.div_le_self _ _
        rw [hth] at hL
        generalize hcpd : 128 / 2 ^ (k + 1) = cp at *
        rw [ceilDiv_eq hcp (by omega)] at hL
        obtain ⟨g1, g2, g3⟩ := ceil_spec (a := bc) (b := cp) c1 hcp
        refine ⟨cp, ?_⟩
        subst hL
        refine geo_small (k := k + 1) rfl (by show 1 ≤ bs; omega) (by omega) hk9 rfl (by show bs ≤ 2 ^ (k + 1); omega) rfl rfl hcp hdvd.symm (by show 128 ≤ 512; omega) rfl ?_ ?_ ?_
        · show if 2 ^ (k + 1) < 128 then _ else _
          rw [if_pos (by omega)]
          exact Or.inl hcpd.symm
        · show size ≤ (bc + cp - 1) / cp * cp * bs
          exact Nat.le_trans c2 (Nat.mul_le_mul_right _ g2)
        · show (bc + cp - 1) / cp * cp * 2 ^ (k + 1) ≤ 2 ^ 32
          have : (bc + cp - 1) / cp * cp * 2 ^ (k + 1) ≤ (bc + cp) * 2 ^ (k + 1) := Nat.mul_le_mul_right _ (by omega)
          rw [Nat.add_mul, hdvd] at this
          omega
      · have hth : min (max (2 ^ (k + 1)) 128) ((bc * 2 ^ (k + 1) + 32 - 1) / 32 * 32) = (bc * 2 ^ (k + 1) + 32 - 1) / 32 * 32 := by
          rw [Nat.max_eq_right (by omega), Nat.min_eq_right (by omega)]
        rw [hth] at hL
        have hfacts : bc ≤ (bc * 2 ^ (k + 1) + 32 - 1) / 32 * 32 / 2 ^ (k + 1) ∧ (bc * 2 ^ (k + 1) + 32 - 1) / 32 * 32 = (bc * 2 ^ (k + 1) + 32 - 1) / 32 * 32 / 2 ^ (k + 1) * 2 ^ (k + 1) := by
          clear hL hth hal hrp hlog1 hlog2 hk hpow hmul hk9 hsm hbig
          have : k = 0 ∨ k = 1 ∨ k = 2 ∨ k = 3 ∨ k = 4 ∨ k = 5 := by omega
          rcases this with rfl | rfl | rfl | rfl | rfl | rfl <;> simp only [Nat.reduceAdd, Nat.reducePow] at * <;> omega
        generalize hTd : (bc * 2 ^ (k + 1) + 32 - 1) / 32 * 32 = T at *
        have hcpl : T / 2 ^ (k + 1) ≤ T := Nat.div_le_self _ _
        generalize hcpd : T / 2 ^ (k + 1) = cp at *
        have hcp : 1 ≤ cp := by omega
        rw [ceilDiv_eq hcp (by omega)] at hL
        have hg : (bc + cp - 1) / cp = 1 := by
          apply Nat.le_antisymm
          · have : (bc + cp - 1) / cp < 2 := Nat.div_lt_of_lt_mul (by omega)
            omega
          · rw [Nat.le_div_iff_mul_le (by omega)]; omega
        rw [hg] at hL
        refine ⟨cp, ?_⟩
        subst hL
        refine geo_small (k := k + 1) rfl (by show 1 ≤ bs; omega) (by omega) hk9 rfl (by show bs ≤ 2 ^ (k + 1); omega) rfl rfl hcp hfacts.2 (by show T ≤ 512; omega) rfl ?_ ?_ ?_
        · show if 2 ^ (k + 1) < 128 then _ else _
          rw [if_pos (by omega)]
          exact Or.inr rfl
        · show size ≤ 1 * cp * bs
          rw [Nat.one_mul]
          exact Nat.le_trans c2 (Nat.mul_le_mul_right _ hfacts.1)
        · show 1 * cp * 2 ^ (k + 1) ≤ 2 ^ 32
          rw [Nat.one_mul, ← hfacts.2]; omega
  · rw [if_neg hsm] at hL
    have hcpb := ceilDiv_eq (a := bs) (b := 1024) (by omega) (by omega)
    obtain ⟨g1, g2, g3⟩ := ceil_spec (a := bs) (b := 1024) (by omega) (by omega)
    rw [← hcpb] at g1 g2 g3
    generalize ceilDiv bs 1024 = cpb at *
    refine ⟨1, ?_⟩
    subst hL
    refine geo_large (bc := bc) rfl (by show 1 ≤ bs; omega) rfl g1 g2 (by show cpb * 1024 ≤ _; omega) rfl rfl ?_ c2 (by show bc * bs ≤ _; omega) (by show bs < _; omega)
    show (if bc < cpb then cpb else bc) * (if bc < cpb then bc else cpb) = bc * cpb
    split
    · exact Nat.mul_comm _ _
    · rfl

end Verif.Cuda
