import Verif.Packet.Model
import Mathlib.Tactic.IntervalCases

/-!
# The permutations transpose blocks (C69, C70)
-/
namespace Verif.Packet

variable {V : Type}

theorem perm4_at {w : Nat} (a b : Nat → V) (pattern c e : Nat) (he : e < 4) (hw : 4 * c + (pattern >>> (e * 3)) % 4 < w) :
    perm4 w a b pattern (4 * c + e) =
      if (pattern >>> (e * 3)) / 4 % 2 = 0 then a (4 * c + (pattern >>> (e * 3)) % 4) else b (4 * c + (pattern >>> (e * 3)) % 4) := by
  have h1 : (4 * c + e) % 4 = e := by omega
  have h2 : (4 * c + e) / 4 * 4 = 4 * c := by omega
  unfold perm4 shuffle
  simp only [h1, h2]
  rcases Nat.mod_two_eq_zero_or_one ((pattern >>> (e * 3)) / 4) with h | h
  · rw [h, if_pos rfl, Nat.zero_mul, Nat.add_zero, if_pos hw]
  · rw [h, if_neg (by omega), Nat.one_mul, if_neg (by omega)]
    rw [Nat.add_sub_cancel]

theorem perm8_at {w : Nat} (a b : Nat → V) (pattern c e : Nat) (he : e < 8) (hw : 8 * c + (pattern >>> (e * 4)) % 8 < w) :
    perm8 w a b pattern (8 * c + e) =
      if (pattern >>> (e * 4)) / 8 % 2 = 0 then a (8 * c + (pattern >>> (e * 4)) % 8) else b (8 * c + (pattern >>> (e * 4)) % 8) := by
  have h1 : (8 * c + e) % 8 = e := by omega
  have h2 : (8 * c + e) / 8 * 8 = 8 * c := by omega
  unfold perm8 shuffle
  simp only [h1, h2]
  rcases Nat.mod_two_eq_zero_or_one ((pattern >>> (e * 4)) / 8) with h | h
  · rw [h, if_pos rfl, Nat.zero_mul, Nat.add_zero, if_pos hw]
  · rw [h, if_neg (by omega), Nat.one_mul, if_neg (by omega)]
    rw [Nat.add_sub_cancel]

section
variable {w : Nat} (a b : Nat → V) (c : Nat)

theorem lo0 (h : 4 * c + 4 ≤ w) : perm4 w a b unpacklo (4 * c + 0) = a (4 * c + 0) := perm4_at a b unpacklo c 0 (by omega) (by change 4 * c + 0 < w; omega)
theorem lo1 (h : 4 * c + 4 ≤ w) : perm4 w a b unpacklo (4 * c + 1) = b (4 * c + 0) := perm4_at a b unpacklo c 1 (by omega) (by change 4 * c + 0 < w; omega)
theorem lo2 (h : 4 * c + 4 ≤ w) : perm4 w a b unpacklo (4 * c + 2) = a (4 * c + 1) := perm4_at a b unpacklo c 2 (by omega) (by change 4 * c + 1 < w; omega)
theorem lo3 (h : 4 * c + 4 ≤ w) : perm4 w a b unpacklo (4 * c + 3) = b (4 * c + 1) := perm4_at a b unpacklo c 3 (by omega) (by change 4 * c + 1 < w; omega)
theorem hi0 (h : 4 * c + 4 ≤ w) : perm4 w a b unpackhi (4 * c + 0) = a (4 * c + 2) := perm4_at a b unpackhi c 0 (by omega) (by change 4 * c + 2 < w; omega)
theorem hi1 (h : 4 * c + 4 ≤ w) : perm4 w a b unpackhi (4 * c + 1) = b (4 * c + 2) := perm4_at a b unpackhi c 1 (by omega) (by change 4 * c + 2 < w; omega)
theorem hi2 (h : 4 * c + 4 ≤ w) : perm4 w a b unpackhi (4 * c + 2) = a (4 * c + 3) := perm4_at a b unpackhi c 2 (by omega) (by change 4 * c + 3 < w; omega)
theorem hi3 (h : 4 * c + 4 ≤ w) : perm4 w a b unpackhi (4 * c + 3) = b (4 * c + 3) := perm4_at a b unpackhi c 3 (by omega) (by change 4 * c + 3 < w; omega)
theorem lh0 (h : 4 * c + 4 ≤ w) : perm4 w a b movelh (4 * c + 0) = a (4 * c + 0) := perm4_at a b movelh c 0 (by omega) (by change 4 * c + 0 < w; omega)
theorem lh1 (h : 4 * c + 4 ≤ w) : perm4 w a b movelh (4 * c + 1) = a (4 * c + 1) := perm4_at a b movelh c 1 (by omega) (by change 4 * c + 1 < w; omega)
theorem lh2 (h : 4 * c + 4 ≤ w) : perm4 w a b movelh (4 * c + 2) = b (4 * c + 0) := perm4_at a b movelh c 2 (by omega) (by change 4 * c + 0 < w; omega)
theorem lh3 (h : 4 * c + 4 ≤ w) : perm4 w a b movelh (4 * c + 3) = b (4 * c + 1) := perm4_at a b movelh c 3 (by omega) (by change 4 * c + 1 < w; omega)
theorem hl0 (h : 4 * c + 4 ≤ w) : perm4 w a b movehl (4 * c + 0) = b (4 * c + 2) := perm4_at a b movehl c 0 (by omega) (by change 4 * c + 2 < w; omega)
theorem hl1 (h : 4 * c + 4 ≤ w) : perm4 w a b movehl (4 * c + 1) = b (4 * c + 3) := perm4_at a b movehl c 1 (by omega) (by change 4 * c + 3 < w; omega)
theorem hl2 (h : 4 * c + 4 ≤ w) : perm4 w a b movehl (4 * c + 2) = a (4 * c + 2) := perm4_at a b movehl c 2 (by omega) (by change 4 * c + 2 < w; omega)
theorem hl3 (h : 4 * c + 4 ≤ w) : perm4 w a b movehl (4 * c + 3) = a (4 * c + 3) := perm4_at a b movehl c 3 (by omega) (by change 4 * c + 3 < w; omega)
end

/-- Four vectors: blocks of four columns are transposed. -/
theorem transpose4 {w : Nat} (v : Nat → Nat → V) {c i e : Nat} (hi : i < 4) (he : e < 4) (hw : 4 * c + 4 ≤ w) :
    ∃ r, (permute4 w v)[i]? = some r ∧ r (4 * c + e) = v e (4 * c + i) := by
  interval_cases i <;> refine ⟨_, rfl, ?_⟩ <;> interval_cases e <;>
    simp only [lh0, lh1, lh2, lh3, hl0, hl1, hl2, hl3, lo0, lo1, lo2, lo3, hi0, hi1, hi2, hi3, hw]

theorem transpose2 {w : Nat} (v : Nat → Nat → V) {c i e : Nat} (hi : i < 2) (he : e < 2) (hw : 2 * c + 2 ≤ w) :
    ∃ r, (permute2 w v)[i]? = some r ∧ r (2 * c + e) = v e (2 * c + i) := by
  obtain ⟨d, hd⟩ : ∃ d, c = 2 * d ∨ c = 2 * d + 1 := ⟨c / 2, by omega⟩
  have e0 : ∀ x, 2 * (2 * d) + x = 4 * d + x := fun x => by omega
  have e1 : ∀ x, 2 * (2 * d + 1) + x = 4 * d + (x + 2) := fun x => by omega
  rcases hd with rfl | rfl <;> simp only [e0, e1] at hw ⊢ <;>
    interval_cases i <;> refine ⟨_, rfl, ?_⟩ <;> interval_cases e
  · exact perm4_at (v 0) (v 1) _ d 0 (by omega) (by change 4 * d + 0 < w; omega)
  · exact perm4_at (v 0) (v 1) _ d 1 (by omega) (by change 4 * d + 0 < w; omega)
  · exact perm4_at (v 0) (v 1) _ d 0 (by omega) (by change 4 * d + 1 < w; omega)
  · exact perm4_at (v 0) (v 1) _ d 1 (by omega) (by change 4 * d + 1 < w; omega)
  · exact perm4_at (v 0) (v 1) _ d 2 (by omega) (by change 4 * d + 2 < w; omega)
  · exact perm4_at (v 0) (v 1) _ d 3 (by omega) (by change 4 * d + 2 < w; omega)
  · exact perm4_at (v 0) (v 1) _ d 2 (by omega) (by change 4 * d + 3 < w; omega)
  · exact perm4_at (v 0) (v 1) _ d 3 (by omega) (by change 4 * d + 3 < w; omega)

section
variable {w : Nat} (a b : Nat → V) (c : Nat)
theorem c0_lo {e : Nat} (he : e < 4) (h : 8 * c + 8 ≤ w) : perm8 w a b 0b10111010100110000011001000010000 (8 * c + e) = a (4 * (2 * c) + e) := by
  rw [show 4 * (2 * c) + e = 8 * c + e by omega]
  interval_cases e
  · exact perm8_at a b _ c 0 (by omega) (by change 8 * c + 0 < w; omega)
  · exact perm8_at a b _ c 1 (by omega) (by change 8 * c + 1 < w; omega)
  · exact perm8_at a b _ c 2 (by omega) (by change 8 * c + 2 < w; omega)
  · exact perm8_at a b _ c 3 (by omega) (by change 8 * c + 3 < w; omega)
theorem c0_hi {e : Nat} (he : e < 4) (h : 8 * c + 8 ≤ w) : perm8 w a b 0b10111010100110000011001000010000 (8 * c + (e + 4)) = b (4 * (2 * c) + e) := by
  rw [show 4 * (2 * c) + e = 8 * c + e by omega]
  interval_cases e
  · exact perm8_at a b _ c 4 (by omega) (by change 8 * c + 0 < w; omega)
  · exact perm8_at a b _ c 5 (by omega) (by change 8 * c + 1 < w; omega)
  · exact perm8_at a b _ c 6 (by omega) (by change 8 * c + 2 < w; omega)
  · exact perm8_at a b _ c 7 (by omega) (by change 8 * c + 3 < w; omega)
theorem c1_lo {e : Nat} (he : e < 4) (h : 8 * c + 8 ≤ w) : perm8 w a b 0b11111110110111000111011001010100 (8 * c + e) = a (4 * (2 * c + 1) + e) := by
  rw [show 4 * (2 * c + 1) + e = 8 * c + (4 + e) by omega]
  interval_cases e
  · exact perm8_at a b _ c 0 (by omega) (by change 8 * c + 4 < w; omega)
  · exact perm8_at a b _ c 1 (by omega) (by change 8 * c + 5 < w; omega)
  · exact perm8_at a b _ c 2 (by omega) (by change 8 * c + 6 < w; omega)
  · exact perm8_at a b _ c 3 (by omega) (by change 8 * c + 7 < w; omega)
theorem c1_hi {e : Nat} (he : e < 4) (h : 8 * c + 8 ≤ w) : perm8 w a b 0b11111110110111000111011001010100 (8 * c + (e + 4)) = b (4 * (2 * c + 1) + e) := by
  rw [show 4 * (2 * c + 1) + e = 8 * c + (4 + e) by omega]
  interval_cases e
  · exact perm8_at a b _ c 4 (by omega) (by change 8 * c + 4 < w; omega)
  · exact perm8_at a b _ c 5 (by omega) (by change 8 * c + 5 < w; omega)
  · exact perm8_at a b _ c 6 (by omega) (by change 8 * c + 6 < w; omega)
  · exact perm8_at a b _ c 7 (by omega) (by change 8 * c + 7 < w; omega)
end

theorem transpose8 {w : Nat} (v : Nat → Nat → V) {c i e : Nat} (hi : i < 8) (he : e < 8) (hw : 8 * c + 8 ≤ w) :
    ∃ r, (permute8 w v)[i]? = some r ∧ r (8 * c + e) = v e (8 * c + i) := by
  -- the result of the first two rounds
  have q : ∀ i e d, i < 4 → e < 4 → d = 2 * c ∨ d = 2 * c + 1 → ∀ v : Nat → Nat → V, ∃ r, (permute4 w v)[i]? = some r ∧ r (4 * d + e) = v e (4 * d + i) :=
    fun i e d hi he hd v => transpose4 v hi he (by omega)
  have hv : permute8 w v = (List.range 4).map (fun i => perm8 w ((permute4 w v)[i]?.getD (v 0)) ((permute4 w fun j => v (j + 4))[i]?.getD (v 0))
      0b10111010100110000011001000010000) ++ (List.range 4).map (fun i => perm8 w ((permute4 w v)[i]?.getD (v 0)) ((permute4 w fun j => v (j + 4))[i]?.getD (v 0))
      0b11111110110111000111011001010100) := rfl
  have e4 : 4 * (2 * c) = 8 * c := by omega
  have e4' : 4 * (2 * c + 1) = 8 * c + 4 := by omega
  rw [hv]
  by_cases hi4 : i < 4
  · rw [List.getElem?_append_left (by simpa using hi4), List.getElem?_map, List.getElem?_range hi4]
    refine ⟨_, rfl, ?_⟩
    beta_reduce
    by_cases he4 : e < 4
    · rw [c0_lo _ _ _ he4 hw]
      obtain ⟨r, h1, h2⟩ := q i e (2 * c) hi4 he4 (Or.inl rfl) v
      rw [h1, Option.getD_some, h2, e4]
    · obtain ⟨f, rfl⟩ : ∃ f, e = f + 4 := ⟨e - 4, by omega⟩
      rw [c0_hi _ _ _ (by omega) hw]
      obtain ⟨r, h1, h2⟩ := q i f (2 * c) hi4 (by omega) (Or.inl rfl) fun j => v (j + 4)
      rw [h1, Option.getD_some, h2, e4]
  · obtain ⟨g, rfl⟩ : ∃ g, i = g + 4 := ⟨i - 4, by omega⟩
    have hg : g < 4 := by omega
    rw [List.getElem?_append_right (by simp), List.getElem?_map]
    simp only [List.length_map, List.length_range, Nat.add_sub_cancel]
    rw [List.getElem?_range hg]
    refine ⟨_, rfl, ?_⟩
    beta_reduce
    by_cases he4 : e < 4
    · rw [c1_lo _ _ _ he4 hw]
      obtain ⟨r, h1, h2⟩ := q g e (2 * c + 1) hg he4 (Or.inr rfl) v
      rw [h1, Option.getD_some, h2, e4', Nat.add_assoc, Nat.add_comm 4]
    · obtain ⟨f, rfl⟩ : ∃ f, e = f + 4 := ⟨e - 4, by omega⟩
      rw [c1_hi _ _ _ (by omega) hw]
      obtain ⟨r, h1, h2⟩ := q g f (2 * c + 1) hg (by omega) (Or.inr rfl) fun j => v (j + 4)
      rw [h1, Option.getD_some, h2, e4', Nat.add_assoc, Nat.add_comm 4]

/-- Blocks of `n` columns are transposed. -/
theorem transposeN {w n : Nat} (hn : n = 2 ∨ n = 4 ∨ n = 8) (v : Nat → Nat → V) :
    ∃ rs, permuteN w n v = some rs ∧ rs.length = n ∧
      ∀ c i e, i < n → e < n → n * c + n ≤ w → ∃ r, rs[i]? = some r ∧ r (n * c + e) = v e (n * c + i) := by
  rcases hn with rfl | rfl | rfl
  · exact ⟨_, rfl, rfl, fun c i e hi he hw => transpose2 v hi he hw⟩
  · exact ⟨_, rfl, rfl, fun c i e hi he hw => transpose4 v hi he hw⟩
  · exact ⟨_, rfl, rfl, fun c i e hi he hw => transpose8 v hi he hw⟩

end Verif.Packet
