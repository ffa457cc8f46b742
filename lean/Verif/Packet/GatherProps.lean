import Verif.Packet.Gather

/-!
# Packet gathers: theorems (C69)
-/
namespace Verif.Packet

open Verif.Atomic (Target gep)

variable {V : Type}

theorem dvd_le {n i size : Nat} (hn : 2 ≤ n) (hd : n ∣ size) (hi : i < size / n) : n * i + n ≤ size := by
  obtain ⟨c, rfl⟩ := hd
  rw [Nat.mul_div_cancel_left _ (by omega)] at hi
  have := Nat.mul_le_mul_left n hi
  rwa [Nat.mul_succ] at this

theorem direct_spec {w k : Nat} (hw : w = 2 ^ k) {t : Target} (ht : t.OK) (hs : t.shift ≤ 3) {zero : V} {mem : Nat → Option V} {src : Nat → V} {mask : Nat → Bool}
    (hal : min 64 (w * 2 ^ t.shift) ∣ t.base) (hmem : ∀ j, j < t.size → mem (t.addr j) = some (src j)) {n : Nat} (hn : n = 2 ∨ n = 4 ∨ n = 8) (hnw : n ≤ w)
    (hd : n ∣ t.size) (index : Nat → Nat) (hi : ∀ l, l < w → mask l = true → index l < t.size / n) (f : Nat) :
    ∃ outs, gatherPacket w t false false zero mem mask (f + 1) n index = .ok outs ∧ outs.length = n ∧
      ∀ i l, i < n → l < w → ∃ r, outs[i]? = some r ∧ r l = gathered zero n src index mask i l := by
  obtain ⟨d, hd'⟩ := packet_pow hn (hw ▸ hnw)
  obtain ⟨outs, h1, h2⟩ := renderGather_spec (zero := zero) (mask := mask) (hw.trans hd') hn ht (align_dvd hn (hw ▸ hnw) hs (hw ▸ hal)) hmem index
    fun l hl hm => dvd_le (by omega) hd (hi l hl hm)
  refine ⟨outs, ?_, h2⟩
  unfold gatherPacket
  rw [if_neg (by omega), if_neg (by rw [not_and_or]; left; simpa using Nat.mod_eq_zero_of_dvd hd), if_neg (by
    rcases hn with rfl | rfl | rfl <;> decide)]
  dsimp only
  rw [if_neg, h1]
  rintro (h | h)
  · rcases hn with rfl | rfl | rfl
    · exact h (by decide)
    · exact h (by decide)
    · exact h (by decide)
  · omega

/-- **C69**: a packet gather reads the `n` entries of a group, for every vector width, packet size, array and alignment: no exception, no
invalid or misaligned access, every element has the specified value.  (`unaligned` is computed by `jit_var_mem_map`, var.cpp:1812-1816.) -/
theorem C69_gather_packet {w k : Nat} (hw : w = 2 ^ k) (hk : 1 ≤ k) {t : Target} (ht : t.OK) (hs : t.shift ≤ 3) (unaligned other : Bool)
    (hal : unaligned = false → min 64 (w * 2 ^ t.shift) ∣ t.base) (zero : V) {mem : Nat → Option V} {src : Nat → V}
    (hmem : ∀ j, j < t.size → mem (t.base + 2 ^ t.shift * j) = some (src j)) {n : Nat} (hn : 2 ≤ n) (hd : n ∣ t.size)
    (index : Nat → Nat) (mask : Nat → Bool) (hi : ∀ l, l < w → mask l = true → index l < t.size / n) :
    ∃ outs, gatherPacket w t unaligned other zero mem mask 2 n index = .ok outs ∧ outs.length = n ∧
      ∀ i l, i < n → l < w → ∃ r, outs[i]? = some r ∧ r l = gathered zero n src index mask i l := by
  have hsz := ht.size
  have hmem' : ∀ j, j < t.size → mem (t.addr j) = some (src j) := hmem
  by_cases hsep : (other || decide (n % 2 ≠ 0) || unaligned) = true
  · -- separate gathers
    have h := collect_spec (f := fun i => renderGather1 w t zero mem (fun l => (index l * n + i) % 2 ^ 32) mask) (m := 1)
      (P := fun i r => ∀ l, l < w → r l = gathered zero n src index mask i l) n fun c hc => by
        have hb : ∀ l, l < w → mask l = true → (index l * n + c) % 2 ^ 32 = n * index l + c ∧ n * index l + c < t.size := by
          intro l hl hm
          have := dvd_le hn hd (hi l hl hm)
          rw [Nat.mul_comm (index l)]
          exact ⟨Nat.mod_eq_of_lt (by omega), by omega⟩
        obtain ⟨r, h1, h2⟩ := renderGather1_spec (zero := zero) (mask := mask) ht hmem' (fun l => (index l * n + c) % 2 ^ 32) (w := w) fun l hl hm => by
          rw [(hb l hl hm).1]; exact (hb l hl hm).2
        refine ⟨[r], h1, rfl, fun i hi' => ?_⟩
        have : i = 0 := by omega
        subst this
        refine ⟨r, rfl, fun l hl => ?_⟩
        rw [h2 l hl, Nat.mul_one, Nat.add_zero]
        unfold gathered
        by_cases hm : mask l = true
        · rw [if_pos hm, if_pos hm, (hb l hl hm).1]
        · rw [if_neg hm, if_neg hm]
    obtain ⟨outs, h1, h2, h3⟩ := h
    rw [Nat.mul_one] at h2 h3
    refine ⟨outs, ?_, h2, fun i l hi' hl => ?_⟩
    · unfold gatherPacket
      rw [if_neg (by omega), if_neg (by rw [not_and_or]; left; simpa using Nat.mod_eq_zero_of_dvd hd), if_pos hsep, h1]
    · obtain ⟨r, h4, h5⟩ := h3 i hi'
      exact ⟨r, h4, h5 l hl⟩
  · simp only [Bool.not_eq_true, Bool.or_eq_false_iff, decide_eq_false_iff_not, ne_eq, Decidable.not_not] at hsep
    obtain ⟨⟨rfl, hev⟩, rfl⟩ := hsep
    have hal := hal rfl
    by_cases hsplit : n &&& (n - 1) ≠ 0 ∨ n > min 8 w
    · obtain ⟨p1, p2, p3⟩ := packetSize_spec (n := n) (k := k) hev (by omega) hk
      rw [← hw] at p1 p2 p3
      generalize hps : packetSize n 4 (min 8 w) = ps at p1 p2 p3
      have hps0 : 0 < ps := by omega
      obtain ⟨q, rfl⟩ := p2
      have hq : ps * q / ps = q := Nat.mul_div_cancel_left _ hps0
      have hdps : ps ∣ t.size := Nat.dvd_trans (Nat.dvd_mul_right _ _) hd
      have hdiv : t.size / ps = q * (t.size / (ps * q)) := by
        obtain ⟨c, hc⟩ := hd
        rw [hc, Nat.mul_div_cancel_left _ (by omega), Nat.mul_assoc, Nat.mul_div_cancel_left _ hps0]
      have h := collect_spec (f := fun i => gatherPacket w t false false zero mem mask 1 ps fun l => (index l * (ps * q / ps) % 2 ^ 32 + i) % 2 ^ 32) (m := ps)
        (P := fun i r => ∀ l, l < w → r l = gathered zero (ps * q) src index mask i l) q fun c hc => by
          have hb : ∀ l, l < w → mask l = true → (index l * (ps * q / ps) % 2 ^ 32 + c) % 2 ^ 32 = q * index l + c ∧ q * index l + c < t.size / ps := by
            intro l hl hm
            have h1 : q * (index l + 1) ≤ q * (t.size / (ps * q)) := Nat.mul_le_mul_left _ (hi l hl hm)
            rw [← hdiv, Nat.mul_succ] at h1
            have h2 : t.size / ps ≤ t.size := Nat.div_le_self _ _
            have h3 : index l * q < 2 ^ 32 := by rw [Nat.mul_comm]; omega
            rw [hq, Nat.mod_eq_of_lt h3, Nat.mul_comm (index l)]
            exact ⟨Nat.mod_eq_of_lt (by omega), by omega⟩
          obtain ⟨outs, h1, h2, h3⟩ := direct_spec (zero := zero) (mask := mask) hw ht hs hal hmem' p1 p3 hdps
            (fun l => (index l * (ps * q / ps) % 2 ^ 32 + c) % 2 ^ 32) (fun l hl hm => by rw [(hb l hl hm).1]; exact (hb l hl hm).2) 0
          refine ⟨outs, h1, h2, fun i hi' => ?_⟩
          have hw0 : 0 < w := by rw [hw]; exact Nat.two_pow_pos k
          obtain ⟨r, h4, _⟩ := h3 i 0 hi' hw0
          refine ⟨r, h4, fun l hl => ?_⟩
          obtain ⟨r', h5, h6⟩ := h3 i l hi' hl
          rw [h4, Option.some.injEq] at h5
          rw [h5, h6]
          unfold gathered
          by_cases hm : mask l = true
          · rw [if_pos hm, if_pos hm]
            beta_reduce
            rw [(hb l hl hm).1]
            congr 1
            rw [Nat.mul_add, ← Nat.mul_assoc, Nat.mul_comm ps c]
            omega
          · rw [if_neg hm, if_neg hm]
      obtain ⟨outs, h1, h2, h3⟩ := h
      rw [Nat.mul_comm] at h2
      rw [Nat.mul_comm q ps] at h3
      refine ⟨outs, ?_, h2, fun i l hi' hl => ?_⟩
      · unfold gatherPacket
        rw [if_neg (by omega), if_neg (by rw [not_and_or]; left; simpa using Nat.mod_eq_zero_of_dvd hd), if_neg (by simp [hev])]
        dsimp only
        rw [if_pos hsplit, if_neg (by
          have := Nat.two_pow_pos k
          rw [← hw] at this
          omega), hps]
        rw [hq] at h1 ⊢
        exact h1
      · obtain ⟨r, h4, h5⟩ := h3 i hi'
        exact ⟨r, h4, h5 l hl⟩
    · obtain ⟨h1, h2⟩ := small_pow hn (Nat.min_le_left _ _) hsplit
      exact direct_spec hw ht hs hal hmem' h1 (Nat.le_trans h2 (Nat.min_le_right _ _)) hd index hi 1

/-- The hypotheses can be met: groups of six numbers (the request is split into packets of two) on a machine with eight lanes -/
example : ∃ (t : Target) (mem : Nat → Option Nat) (src : Nat → Nat), t.OK ∧ t.shift ≤ 3 ∧ min 64 (8 * 2 ^ t.shift) ∣ t.base ∧
    (∀ j, j < t.size → mem (t.base + 2 ^ t.shift * j) = some (src j)) ∧ 6 ∣ t.size ∧
    ((match gatherPacket 8 t false false 0 mem (fun l => decide (l ≠ 1)) 2 6 (fun l => l % 4) with
      | .ok outs => (outs[5]?.map fun r => [r 0, r 1, r 2]) | _ => none) = some [5, 0, 17]) := by
  refine ⟨⟨4096, 2, 24⟩, fun a => some ((a - 4096) / 4), fun j => j, ⟨by decide, by decide, by decide, by decide⟩, by decide, by decide, ?_, by decide, by decide⟩
  intro j _
  have : (4096 + 2 ^ 2 * j - 4096) / 4 = j := by omega
  exact congrArg some this

/-- op.cpp:2356-2360, 2014-2036: in debug mode, lanes are switched off and reported if the product of the index and the packet size, computed with 32 bits, exceeds
the size of the array. -/
def gatherChecked (n size index : Nat) : Bool := decide (n * index % 2 ^ 32 < size)

/-- The check works for packets whose number of entries does not overflow. -/
theorem C69_debug_partial {n size index : Nat} (hn : 2 ≤ n) (hd : n ∣ size) (hi : n * index < 2 ^ 32) :
    gatherChecked n size index = true ↔ index < size / n := by
  unfold gatherChecked
  rw [decide_eq_true_eq, Nat.mod_eq_of_lt hi]
  obtain ⟨c, rfl⟩ := hd
  rw [Nat.mul_div_cancel_left _ (by omega : 0 < n)]
  exact Nat.mul_lt_mul_left (by omega)

/-- The check fails otherwise: index `2^31` of an array with 100 groups of two numbers is accepted, and an address outside of the array is accessed. -/
theorem C69_debug_counterexample : gatherChecked 2 200 (2 ^ 31) = true ∧ ¬ 2 ^ 31 < 200 / 2 ∧
    ∀ j, 2 ^ 40 + 4 * j ≠ gep (2 ^ 40) (2 * 4) 200 (2 ^ 31) := by
  refine ⟨by decide, by decide, fun j => ?_⟩
  have : gep (2 ^ 40) (2 * 4) 200 (2 ^ 31) = 2 ^ 40 - 2 ^ 34 := by decide
  rw [this]
  omega

end Verif.Packet
