import Verif.Packet.Transpose
import Verif.Atomic.Reduce
import Mathlib.Tactic.SplitIfs

/-!
# Packet gathers (C69)
-/
namespace Verif.Packet

open Verif.Atomic (Target gep)

variable {V : Type}

theorem gatherRec_spec {w n : Nat} (hn : 0 < n) (load : Nat → Nat → V) (d l i fuel : Nat) (hf : d < fuel) (hs : w >>> l = n * 2 ^ d) :
    ∃ v, gatherRec w n load fuel l i = some v ∧ ∀ j c e, c < 2 ^ d → e < n → v j (n * c + e) = load ((i * 2 ^ d + c) * n + j) e := by
  induction d generalizing l i fuel with
  | zero =>
    obtain ⟨f, rfl⟩ : ∃ f, fuel = f + 1 := ⟨fuel - 1, by omega⟩
    rw [Nat.pow_zero, Nat.mul_one] at hs
    refine ⟨fun j => load (i * n + j), ?_, ?_⟩
    · simp only [gatherRec, hs, if_true]
    · intro j c e hc he
      have : c = 0 := by simpa using hc
      subst this
      simp
  | succ d ih =>
    obtain ⟨f, rfl⟩ : ∃ f, fuel = f + 1 := ⟨fuel - 1, by omega⟩
    have hh : (w >>> l) / 2 = n * 2 ^ d := by
      rw [hs, Nat.pow_succ, ← Nat.mul_assoc, Nat.mul_div_cancel _ (by omega)]
    have hs' : w >>> (l + 1) = n * 2 ^ d := by rw [Nat.shiftRight_succ, hh]
    have hne : ¬ w >>> l = n := by
      rw [hs]
      intro hc
      have h1 : n * 2 ≤ n * 2 ^ (d + 1) := Nat.mul_le_mul_left _ (by
        rw [Nat.pow_succ]
        have := Nat.two_pow_pos d
        omega)
      omega
    obtain ⟨a, ha, ha'⟩ := ih (l + 1) (2 * i) f (by omega) hs'
    obtain ⟨b, hb, hb'⟩ := ih (l + 1) (2 * i + 1) f (by omega) hs'
    refine ⟨fun j => shuffle (n * 2 ^ d) (a j) (b j) fun k => k, ?_, ?_⟩
    · simp only [gatherRec, if_neg hne, ha, hb, hh]
    · intro j c e hc he
      unfold shuffle
      beta_reduce
      have hp : 2 ^ (d + 1) = 2 * 2 ^ d := by rw [Nat.pow_succ, Nat.mul_comm]
      by_cases h : c < 2 ^ d
      · have h1 : n * (c + 1) ≤ n * 2 ^ d := Nat.mul_le_mul_left _ h
        rw [if_pos (by rw [Nat.mul_add] at h1; omega), ha' j c e h he, hp]
        congr 3
        rw [Nat.mul_comm 2 i, Nat.mul_assoc]
      · have h1 : n * 2 ^ d ≤ n * c := Nat.mul_le_mul_left _ (by omega)
        rw [if_neg (by omega)]
        have h2 : n * c + e - n * 2 ^ d = n * (c - 2 ^ d) + e := by
          rw [Nat.mul_sub]; omega
        rw [h2, hb' j (c - 2 ^ d) e (by omega) he, hp]
        congr 3
        rw [Nat.add_mul, Nat.mul_comm 2 i, Nat.mul_assoc]
        omega

theorem gatherFn_spec {w n k : Nat} (hw : w = n * 2 ^ k) (hn : n = 2 ∨ n = 4 ∨ n = 8) (load : Nat → Nat → V) :
    ∃ rs, gatherFn w n load = some rs ∧ rs.length = n ∧ ∀ i l, i < n → l < w → ∃ r, rs[i]? = some r ∧ r l = load l i := by
  have hn0 : 0 < n := by omega
  have hk : k < w + 1 := by
    have h1 : k < 2 ^ k := Nat.lt_two_pow_self
    have h2 : 1 * 2 ^ k ≤ n * 2 ^ k := Nat.mul_le_mul_right _ hn0
    omega
  obtain ⟨v, h1, h2⟩ := gatherRec_spec (w := w) hn0 load k 0 0 (w + 1) hk (by rw [Nat.shiftRight_zero]; exact hw)
  obtain ⟨rs, h3, h4, h5⟩ := transposeN (w := w) hn v
  refine ⟨rs, by simp only [gatherFn, h1, h3], h4, fun i l hi hl => ?_⟩
  have hl' : n * (l / n) + l % n = l := Nat.div_add_mod l n
  have hc : l / n < 2 ^ k := by
    rw [Nat.div_lt_iff_lt_mul hn0, Nat.mul_comm, ← hw]; exact hl
  have he : l % n < n := Nat.mod_lt _ hn0
  have hle : n * (l / n) + n ≤ w := by
    have := Nat.mul_le_mul_left n hc
    rw [Nat.mul_succ, ← hw] at this
    exact this
  obtain ⟨r, h6, h7⟩ := h5 (l / n) i (l % n) hi he hle
  refine ⟨r, h6, ?_⟩
  rw [hl'] at h7
  rw [h7, h2 _ _ _ hc hi, Nat.zero_mul, Nat.zero_add]
  congr 1
  rw [Nat.mul_comm]; exact hl'

/-! ### Addresses -/

/-- The address of a group of `n` entries -/
theorem gep_group {t : Target} (ht : t.OK) {n i : Nat} (hn : 2 ≤ n) (hi : n * i + n ≤ t.size) :
    gep t.base (n * 2 ^ t.shift) t.size i = t.addr (n * i) := by
  have hs := ht.size
  have hp := ht.pos
  have hi2 : 2 * i ≤ n * i := Nat.mul_le_mul_right _ hn
  unfold gep
  have e : (if t.size > 0x7fffffff then i else if i < 2 ^ 31 then i else i + (2 ^ 64 - 2 ^ 32)) = i := by
    rw [if_pos (by omega : i < 2 ^ 31), ite_self]
  simp only [e]
  have ha : t.base + n * 2 ^ t.shift * i = t.addr (n * i) := by
    unfold Target.addr
    rw [Nat.mul_comm n, Nat.mul_assoc]
  rw [ha]
  exact Nat.mod_eq_of_lt (Verif.Atomic.Target.addr_lt ht (by omega))

theorem gep_entry {t : Target} (ht : t.OK) {i : Nat} (hi : i < t.size) : gep t.base (2 ^ t.shift) t.size i = t.addr i := by
  have := Verif.Atomic.ptr_addr ht (V := Unit) (p := ⟨fun _ => i, fun _ => (), fun _ => true⟩) (i := 0) hi
  exact this

theorem addr_add (t : Target) (i e : Nat) : t.addr i + 2 ^ t.shift * e = t.addr (i + e) := by
  unfold Target.addr
  rw [Nat.mul_add]; omega

theorem addr_aligned {t : Target} {n i : Nat} (h : 2 ^ t.shift * n ∣ t.base) : t.addr (n * i) % (2 ^ t.shift * n) = 0 := by
  unfold Target.addr
  rw [← Nat.mul_assoc, Nat.add_mul_mod_self_left]
  exact Nat.mod_eq_zero_of_dvd h

/-! ### Parts of the operation -/

section
variable {w : Nat} {t : Target} {zero : V} {mem : Nat → Option V} {src : Nat → V} {mask : Nat → Bool}

theorem renderGather_spec {n k : Nat} (hw : w = n * 2 ^ k) (hn : n = 2 ∨ n = 4 ∨ n = 8) (ht : t.OK) (hal : 2 ^ t.shift * n ∣ t.base)
    (hmem : ∀ j, j < t.size → mem (t.addr j) = some (src j)) (index : Nat → Nat)
    (hi : ∀ l, l < w → mask l = true → n * index l + n ≤ t.size) :
    ∃ outs, renderGather w n t zero mem index mask = .ok outs ∧ outs.length = n ∧
      ∀ i l, i < n → l < w → ∃ r, outs[i]? = some r ∧ r l = gathered zero n src index mask i l := by
  have hn2 : 2 ≤ n := by omega
  have hload : ∀ l e, l < w → mask l = true → e < n →
      mem (gep t.base (n * 2 ^ t.shift) t.size (index l) + 2 ^ t.shift * e) = some (src (n * index l + e)) := by
    intro l e hl hm he
    have := hi l hl hm
    rw [gep_group ht hn2 this, addr_add]
    exact hmem _ (by omega)
  obtain ⟨rs, h1, h2, h3⟩ := gatherFn_spec hw hn fun l e => if mask l then (mem (gep t.base (n * 2 ^ t.shift) t.size (index l) + 2 ^ t.shift * e)).getD zero else zero
  refine ⟨rs, ?_, h2, fun i l hil hl => ?_⟩
  · unfold renderGather
    dsimp only
    rw [h1, if_pos]
    rw [List.all_eq_true]
    intro l hl
    have hl := List.mem_range.1 hl
    cases hm : mask l with
    | false => rfl
    | true =>
      have := hi l hl hm
      simp only [Bool.not_true, Bool.false_or, Bool.and_eq_true, decide_eq_true_eq, List.all_eq_true, List.mem_range]
      refine ⟨?_, fun e he => ?_⟩
      · rw [gep_group ht hn2 this]; exact addr_aligned hal
      · rw [hload l e hl hm he]; rfl
  · obtain ⟨r, h4, h5⟩ := h3 i l hil hl
    refine ⟨r, h4, ?_⟩
    rw [h5]
    unfold gathered
    by_cases hm : mask l = true
    · rw [if_pos hm, if_pos hm, hload l i hl hm hil]; rfl
    · rw [if_neg hm, if_neg hm]

theorem renderGather1_spec (ht : t.OK) (hmem : ∀ j, j < t.size → mem (t.addr j) = some (src j)) (index : Nat → Nat)
    (hi : ∀ l, l < w → mask l = true → index l < t.size) :
    ∃ r, renderGather1 w t zero mem index mask = .ok [r] ∧ ∀ l, l < w → r l = if mask l then src (index l) else zero := by
  have hload : ∀ l, l < w → mask l = true → mem (gep t.base (2 ^ t.shift) t.size (index l)) = some (src (index l)) := by
    intro l hl hm
    rw [gep_entry ht (hi l hl hm)]
    exact hmem _ (hi l hl hm)
  refine ⟨fun l => if mask l then (mem (gep t.base (2 ^ t.shift) t.size (index l))).getD zero else zero, ?_, ?_⟩
  · unfold renderGather1
    dsimp only
    rw [if_pos]
    rw [List.all_eq_true]
    intro l hl
    cases hm : mask l with
    | false => rfl
    | true => rw [hload l (List.mem_range.1 hl) hm]; rfl
  · intro l hl
    dsimp only
    by_cases hm : mask l = true
    · rw [if_pos hm, if_pos hm, hload l hl hm]; rfl
    · rw [if_neg hm, if_neg hm]

theorem collect_spec {α : Type} {f : Nat → Res (List α)} {m : Nat} (P : Nat → α → Prop) (n : Nat)
    (h : ∀ c, c < n → ∃ outs, f c = .ok outs ∧ outs.length = m ∧ ∀ i, i < m → ∃ r, outs[i]? = some r ∧ P (c * m + i) r) :
    ∃ outs, collect f n = .ok outs ∧ outs.length = n * m ∧ ∀ i, i < n * m → ∃ r, outs[i]? = some r ∧ P i r := by
  induction n with
  | zero => exact ⟨[], rfl, by simp, fun i hi => by simp at hi⟩
  | succ n ih =>
    obtain ⟨a, h1, h2, h3⟩ := ih fun c hc => h c (by omega)
    obtain ⟨b, h4, h5, h6⟩ := h n (by omega)
    refine ⟨a ++ b, by simp only [collect, h1, h4, Res.append], by rw [List.length_append, h2, h5, Nat.succ_mul], fun i hi => ?_⟩
    by_cases hlt : i < n * m
    · obtain ⟨r, h7, h8⟩ := h3 i hlt
      exact ⟨r, by rw [List.getElem?_append_left (by omega)]; exact h7, h8⟩
    · rw [Nat.succ_mul] at hi
      obtain ⟨r, h7, h8⟩ := h6 (i - n * m) (by omega)
      refine ⟨r, by rw [List.getElem?_append_right (by omega), h2]; exact h7, ?_⟩
      rwa [show n * m + (i - n * m) = i by omega] at h8
end

/-! ### Sizes of packets -/

theorem packetSize_spec {n k : Nat} (hn : n % 2 = 0) (hn0 : 0 < n) (hk : 1 ≤ k) :
    (packetSize n 4 (min 8 (2 ^ k)) = 2 ∨ packetSize n 4 (min 8 (2 ^ k)) = 4 ∨ packetSize n 4 (min 8 (2 ^ k)) = 8) ∧
    packetSize n 4 (min 8 (2 ^ k)) ∣ n ∧ packetSize n 4 (min 8 (2 ^ k)) ≤ 2 ^ k := by
  have h : min 8 (2 ^ k) = 2 ∨ min 8 (2 ^ k) = 4 ∨ min 8 (2 ^ k) = 8 := by
    rcases Nat.lt_or_ge k 3 with h | h
    · interval_cases k
      · left; rfl
      · right; left; rfl
    · right; right
      have : 2 ^ 3 ≤ 2 ^ k := Nat.pow_le_pow_right (by omega) h
      omega
  have hle : min 8 (2 ^ k) ≤ 2 ^ k := Nat.min_le_right _ _
  rw [Nat.dvd_iff_mod_eq_zero]
  rcases h with h | h | h <;> rw [h] at hle ⊢ <;> simp only [packetSize] <;> split_ifs <;> omega

theorem packet_pow {n k : Nat} (hn : n = 2 ∨ n = 4 ∨ n = 8) (h : n ≤ 2 ^ k) : ∃ d, 2 ^ k = n * 2 ^ d := by
  have : ∃ a, n = 2 ^ a := by
    rcases hn with rfl | rfl | rfl
    · exact ⟨1, rfl⟩
    · exact ⟨2, rfl⟩
    · exact ⟨3, rfl⟩
  obtain ⟨a, rfl⟩ := this
  have hak : a ≤ k := (Nat.pow_le_pow_iff_right (by omega)).1 h
  exact ⟨k - a, by rw [← Nat.pow_add]; congr 1; omega⟩

theorem small_pow {n m : Nat} (hn : 2 ≤ n) (hm : m ≤ 8) (h : ¬ (n &&& (n - 1) ≠ 0 ∨ n > m)) : (n = 2 ∨ n = 4 ∨ n = 8) ∧ n ≤ m := by
  simp only [ne_eq, gt_iff_lt, not_or, Decidable.not_not, Nat.not_lt] at h
  obtain ⟨h1, h2⟩ := h
  refine ⟨?_, h2⟩
  have h3 : n ≤ 8 := by omega
  clear h2 hm
  interval_cases n
  · simp
  · exact absurd h1 (by decide)
  · simp
  · exact absurd h1 (by decide)
  · exact absurd h1 (by decide)
  · exact absurd h1 (by decide)
  · simp

theorem align_dvd {n k shift base : Nat} (hn : n = 2 ∨ n = 4 ∨ n = 8) (hk : n ≤ 2 ^ k) (hs : shift ≤ 3)
    (h : min 64 (2 ^ k * 2 ^ shift) ∣ base) : 2 ^ shift * n ∣ base := by
  refine Nat.dvd_trans ?_ h
  have : ∃ a, n = 2 ^ a ∧ a ≤ 3 := by
    rcases hn with rfl | rfl | rfl
    · exact ⟨1, rfl, by omega⟩
    · exact ⟨2, rfl, by omega⟩
    · exact ⟨3, rfl, by omega⟩
  obtain ⟨a, rfl, ha⟩ := this
  have hak : a ≤ k := (Nat.pow_le_pow_iff_right (by omega)).1 hk
  rw [← Nat.pow_add, ← Nat.pow_add]
  rcases Nat.le_total 64 (2 ^ (k + shift)) with h | h
  · rw [Nat.min_eq_left h, show 64 = 2 ^ 6 from rfl]
    exact Nat.pow_dvd_pow 2 (by omega)
  · rw [Nat.min_eq_right h]
    exact Nat.pow_dvd_pow 2 (by omega)

end Verif.Packet
