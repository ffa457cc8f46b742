import Verif.StrBuf.Decimal

namespace Verif.StrBuf

/-- two hexadecimal digits -/
def two16 (c : Nat) : List Nat := [(Nat.digitChar (c / 16)).toNat, (Nat.digitChar (c % 16)).toNat]

theorem hex_lt {n : Nat} (h : n < 16) : hex n = [(Nat.digitChar n).toNat] := by
  simp [hex, Nat.toDigits_of_lt_base h]

theorem hex_ge {n : Nat} (h : 16 ≤ n) : hex n = hex (n / 16) ++ [(Nat.digitChar (n % 16)).toNat] := by
  rw [hex, Nat.toDigits_of_base_le (by omega) h]
  simp [hex]

theorem hex_two {n : Nat} (h : 16 ≤ n) (h2 : n < 256) : hex n = two16 n := by
  rw [hex_ge h, hex_lt (by omega)]; rfl

theorem hex_pair {n : Nat} (h : 256 ≤ n) : hex n = hex (n / 256) ++ two16 (n % 256) := by
  rw [hex_ge (by omega), hex_ge (n := n / 16) (by omega), two16, List.append_assoc]
  have h1 : n / 16 / 16 = n / 256 := by omega
  have h2 : n / 16 % 16 = n % 256 / 16 := by omega
  have h3 : n % 16 = n % 256 % 16 := by omega
  rw [h1, h2, h3]; rfl

theorem hex_pos (n : Nat) : 0 < (hex n).length := by
  rw [hex, List.length_map]; exact Nat.length_toDigits_pos

theorem hex_length_le {n k : Nat} (hk : 0 < k) : (hex n).length ≤ k ↔ n < 16 ^ k := by
  rw [hex, List.length_map]
  exact Nat.length_toDigits_le_iff (by omega) hk

/-- The number of digits computed from the number of leading zeros is right. -/
theorem hexDigits_eq {v : Nat} (hv : v < 2 ^ 64) : hexDigits v = (hex v).length := by
  unfold hexDigits clz64
  split
  · rename_i h
    have hlog : Nat.log 2 v < 64 := Nat.log_lt_of_lt_pow h hv
    have e : (64 - (63 - Nat.log 2 v) + 3) / 4 = Nat.log 2 v / 4 + 1 := by omega
    rw [e]
    apply le_antisymm
    · have hl := (hex_length_le (n := v) (hex_pos v)).1 (le_refl _)
      rw [show (16 : Nat) = 2 ^ 4 by rfl, ← Nat.pow_mul] at hl
      have := Nat.log_lt_of_lt_pow h hl
      omega
    · rw [hex_length_le (by omega), show (16 : Nat) = 2 ^ 4 by rfl, ← Nat.pow_mul]
      exact Nat.lt_pow_of_log_lt (by omega) (by omega)
  · rename_i h
    have : v = 0 := by omega
    subst this
    rfl

theorem read_zero_split {b : Buf} {d n : Nat} : b.read 0 (d + n) = b.read 0 d ++ b.read d n := by
  rw [read_append, Nat.zero_add]

/-- The loop of `w_x64` writes the digits in front of `p`. -/
theorem hexLoop_spec (v : Nat) : ∀ (b : Buf) (p : Nat), (hex v).length ≤ p → p ≤ b.cap →
    ∃ b', hexLoop b p v = .ok b' ∧ b'.cap = b.cap ∧ b'.cur = b.cur ∧
      (∀ j, j < p - (hex v).length ∨ p ≤ j → b'.byte j = b.byte j) ∧
      b'.read (p - (hex v).length) (hex v).length = hex v := by
  induction v using Nat.strong_induction_on with
  | _ v ih =>
    intro b p hp hcap
    rw [hexLoop]
    split
    · rename_i h
      have hh := hex_pair (n := v) h
      have hl := congrArg List.length hh
      rw [List.length_append, show (two16 (v % 256)).length = 2 from rfl] at hl
      have hst : (pairAt hexPairs (v % 256)).length = 2 := rfl
      rw [putPair, store_ok (by rw [hst]; omega), ok_bind]
      obtain ⟨b', e, c, u, k, r⟩ := ih (v / 256) (by omega) (b.stored (p - 2) (pairAt hexPairs (v % 256)))
        (p - 2) (by omega) (by simp; omega)
      refine ⟨b', e, c, u, ?_, ?_⟩
      · intro j hj
        rw [k j (by omega)]
        rcases hj with hj | hj
        · exact stored_byte_lt (by omega)
        · exact stored_byte_ge (by rw [hst]; omega)
      · rw [hl, read_append, show p - ((hex (v / 256)).length + 2) = p - 2 - (hex (v / 256)).length by omega, r,
          show p - 2 - (hex (v / 256)).length + (hex (v / 256)).length = p - 2 by omega,
          read_ext (c := b.stored (p - 2) (pairAt hexPairs (v % 256))) (fun j h1 h2 => k j (by omega)),
          stored_read_in _ _ _ (by rw [hst]), pairAt_hex _ (by omega)]
        rw [hh]; rfl
    · split
      · rename_i h1 h
        have hh := hex_lt h
        have hlen : (hex v).length = 1 := by rw [hh]; rfl
        rw [store_ok (by simp; omega)]
        refine ⟨_, rfl, rfl, rfl, ?_, ?_⟩
        · intro j hj
          rw [hh] at hj
          simp only [List.length_singleton] at hj
          rcases hj with hj | hj
          · exact stored_byte_lt (by omega)
          · exact stored_byte_ge (by simp; omega)
        · rw [hh]
          rw [show [(Nat.digitChar v).toNat].length = 1 from rfl, stored_read_in _ _ _ (by simp), num_digit v h]
          rfl
      · rename_i h1 h
        have hh := hex_two (n := v) (by omega) (by omega)
        have hl : (hex v).length = 2 := by rw [hh]; rfl
        have hst : (pairAt hexPairs v).length = 2 := rfl
        rw [putPair, store_ok (by rw [hst]; omega)]
        refine ⟨_, rfl, rfl, rfl, ?_, ?_⟩
        · intro j hj
          rw [hl] at hj
          rcases hj with hj | hj
          · exact stored_byte_lt (by omega)
          · exact stored_byte_ge (by rw [hst]; omega)
        · rw [hl, stored_read_in _ _ _ (by rw [hst]), pairAt_hex _ (by omega), hh]
          rfl

/-- `w_x64` writes the hexadecimal representation. -/
theorem w_x64_spec {b : Buf} {d n : Nat} (hn : n < 2 ^ 64) (hd : d + (hex n).length ≤ b.cap) :
    Writes (w_x64 b d n) b d (hex n) := by
  unfold w_x64
  rw [hexDigits_eq hn]
  obtain ⟨b', e, c, u, k, r⟩ := hexLoop_spec n b (d + (hex n).length) (by omega) hd
  refine ⟨b', ?_, c, u, ?_⟩
  · show (hexLoop b _ n >>= _) = _
    rw [e, ok_bind]; rfl
  · rw [Nat.add_sub_cancel] at r
    rw [read_zero_split, r]
    congr 1
    exact read_ext fun j _ h => k j (by omega)

/-- `2 k` hexadecimal digits with leading zeros -/
def hexPad : Nat → Nat → List Nat
  | 0, _ => []
  | k + 1, v => hexPad k (v / 256) ++ two16 (v % 256)

theorem hexPad_length (k v : Nat) : (hexPad k v).length = k * 2 := by
  induction k generalizing v with
  | zero => rfl
  | succ k ih => rw [hexPad, List.length_append, ih]; simp [two16]; omega

theorem hexPad_zero (k : Nat) : hexPad k 0 = List.replicate (k * 2) 48 := by
  induction k with
  | zero => rfl
  | succ k ih =>
    rw [hexPad, Nat.zero_div, ih, show (k + 1) * 2 = k * 2 + 2 by omega, List.replicate_add]
    congr 1

theorem hexPad_eq (k v : Nat) (h : v < 256 ^ k) (hv : 0 < v) :
    hexPad k v = List.replicate (k * 2 - (hex v).length) 48 ++ hex v := by
  induction k generalizing v with
  | zero => simp at h; omega
  | succ k ih =>
    rw [hexPad]
    by_cases h256 : v < 256
    · rw [Nat.div_eq_of_lt h256, hexPad_zero, Nat.mod_eq_of_lt h256]
      by_cases h16 : v < 16
      · rw [hex_lt h16]
        rw [show (k + 1) * 2 - [(Nat.digitChar v).toNat].length = k * 2 + 1 by simp; omega, List.replicate_succ',
          List.append_assoc]
        congr 1
        simp only [two16, Nat.div_eq_of_lt h16, Nat.mod_eq_of_lt h16]
        rfl
      · rw [hex_two (by omega) h256]
        congr 2
        simp [two16]; omega
    · have hp := hex_pair (n := v) (by omega)
      have hl := congrArg List.length hp
      rw [List.length_append, show (two16 (v % 256)).length = 2 from rfl] at hl
      rw [ih (v / 256) (by rw [Nat.div_lt_iff_lt_mul (by omega)]; rwa [← Nat.pow_succ]) (by omega), List.append_assoc, ← hp]
      congr 2
      omega

theorem hex16_eq {v : Nat} (h : v < 2 ^ 64) : hexPad 8 v = hex16 v := by
  unfold hex16
  rcases Nat.eq_zero_or_pos v with h0 | h0
  · subst h0; decide +kernel
  · rw [hexPad_eq 8 v (by norm_num; omega) h0]

theorem q64Loop_spec (k : Nat) : ∀ (b : Buf) (d v : Nat), d + k * 2 ≤ b.cap →
    ∃ b', q64Loop b d k v = .ok b' ∧ b'.cap = b.cap ∧ b'.cur = b.cur ∧
      (∀ j, j < d ∨ d + k * 2 ≤ j → b'.byte j = b.byte j) ∧ b'.read d (k * 2) = hexPad k v := by
  induction k with
  | zero => intro b d v _; exact ⟨b, rfl, rfl, rfl, fun _ _ => rfl, rfl⟩
  | succ k ih =>
    intro b d v h
    have hst : (pairAt hexPairs (v % 256)).length = 2 := rfl
    rw [q64Loop, putPair, store_ok (by rw [hst]; omega), ok_bind]
    obtain ⟨b', e, c, u, kk, r⟩ := ih (b.stored (d + k * 2) (pairAt hexPairs (v % 256))) d (v / 256)
      (by simp; omega)
    refine ⟨b', e, c, u, ?_, ?_⟩
    · intro j hj
      rw [kk j (by omega)]
      rcases hj with hj | hj
      · exact stored_byte_lt (by omega)
      · exact stored_byte_ge (by rw [hst]; omega)
    · rw [show (k + 1) * 2 = k * 2 + 2 by omega, read_append, r, hexPad,
        read_ext (c := b.stored (d + k * 2) (pairAt hexPairs (v % 256))) (fun j h1 h2 => kk j (by omega)),
        stored_read_in _ _ _ (by rw [hst]), pairAt_hex _ (by omega)]
      rfl

theorem hex16_length {n : Nat} (hn : n < 2 ^ 64) : (hex16 n).length = 16 := by
  rw [← hex16_eq hn, hexPad_length]

/-- `w_q64` writes 16 hexadecimal digits. -/
theorem w_q64_spec {b : Buf} {d n : Nat} (hn : n < 2 ^ 64) (hd : d + 16 ≤ b.cap) :
    Writes (w_q64 b d n) b d (hex16 n) := by
  unfold w_q64
  obtain ⟨b', e, c, u, k, r⟩ := q64Loop_spec 8 b d n (by omega)
  refine ⟨b', ?_, c, u, ?_⟩
  · rw [e, ok_bind, hex16_length hn]; rfl
  · rw [hex16_length hn, read_zero_split, show (16 : Nat) = 8 * 2 from rfl, r, hex16_eq hn]
    congr 1
    exact read_ext fun j _ h => k j (by omega)

end Verif.StrBuf
