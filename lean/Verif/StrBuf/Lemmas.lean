import Verif.StrBuf.Spec
import Mathlib.Tactic.Ring
import Mathlib.Tactic.Linarith

namespace Verif.StrBuf

/-! ### Stores and contents -/

@[simp] theorem read_length (b : Buf) (i n : Nat) : (b.read i n).length = n := by simp [Buf.read]

theorem read_ext {b c : Buf} {i n : Nat} (h : ∀ j, i ≤ j → j < i + n → b.byte j = c.byte j) :
    b.read i n = c.read i n := by
  apply List.map_congr_left
  intro k hk
  exact h _ (by omega) (by have := List.mem_range.1 hk; omega)

theorem read_append (b : Buf) (i m n : Nat) : b.read i (m + n) = b.read i m ++ b.read (i + m) n := by
  simp only [Buf.read, List.range_add, List.map_append, List.map_map]
  congr 1
  apply List.map_congr_left
  intro k _
  simp [Nat.add_assoc]

/-- The result of a store in bounds. -/
def Buf.stored (b : Buf) (i : Nat) (bs : List Nat) : Buf :=
  { b with byte := fun j => if i ≤ j ∧ j < i + bs.length then bs.getD (j - i) 0 else b.byte j }

theorem store_ok {b : Buf} {i : Nat} {bs : List Nat} (h : i + bs.length ≤ b.cap) :
    b.store i bs = .ok (b.stored i bs) := by
  simp [Buf.store, h, Buf.stored]

@[simp] theorem stored_cap (b : Buf) (i) (bs) : (b.stored i bs).cap = b.cap := rfl
@[simp] theorem stored_cur (b : Buf) (i) (bs) : (b.stored i bs).cur = b.cur := rfl

theorem stored_byte_lt {b : Buf} {i j : Nat} {bs} (h : j < i) : (b.stored i bs).byte j = b.byte j := by
  simp [Buf.stored]; omega

theorem stored_byte_ge {b : Buf} {i j : Nat} {bs : List Nat} (h : i + bs.length ≤ j) :
    (b.stored i bs).byte j = b.byte j := by
  simp [Buf.stored]; omega

theorem stored_byte_in {b : Buf} {i j : Nat} {bs : List Nat} (h : j < bs.length) :
    (b.stored i bs).byte (i + j) = bs.getD j 0 := by
  simp [Buf.stored, h]

theorem stored_read_in (b : Buf) (i : Nat) (bs : List Nat) {k : Nat} (hk : k ≤ bs.length) :
    (b.stored i bs).read i k = bs.take k := by
  apply List.ext_getElem (by simp; omega)
  intro n h1 h2
  simp only [read_length] at h1
  simp only [Buf.read, List.getElem_map, List.getElem_range, List.getElem_take]
  rw [stored_byte_in (by omega)]
  simp [List.getElem?_eq_getElem (show n < bs.length by omega)]

theorem stored_read (b : Buf) (i : Nat) (bs : List Nat) {k : Nat} (hk : k ≤ bs.length) :
    (b.stored i bs).read 0 (i + k) = b.read 0 i ++ bs.take k := by
  rw [read_append, Nat.zero_add, stored_read_in b i bs hk]
  congr 1
  exact read_ext fun j _ hj => stored_byte_lt (by omega)

/-- The writer succeeded, kept everything before `d`, produced `s` and left the cursor behind
it. -/
def Writes (w : Except Fault (Buf × Nat)) (b : Buf) (d : Nat) (s : List Nat) : Prop :=
  ∃ b', w = .ok (b', d + s.length) ∧ b'.cap = b.cap ∧ b'.cur = b.cur ∧
    b'.read 0 (d + s.length) = b.read 0 d ++ s

/-! ### Pairs of digits -/

theorem pairAt_flat (f : Nat → Nat) (g : Nat → Nat) (N c : Nat) (h : c < N) :
    pairAt ((List.range N).flatMap fun c => [f c, g c]) c = [f c, g c] := by
  induction N with
  | zero => omega
  | succ N ih =>
    have hl : ((List.range N).flatMap fun c => [f c, g c]).length = 2 * N := by
      simp [List.length_flatMap, Nat.mul_comm]
    rw [List.range_succ, List.flatMap_append]
    rcases Nat.lt_succ_iff_lt_or_eq.1 h with h | h
    · rw [← ih h]
      simp only [pairAt, List.getD_eq_getElem?_getD]
      rw [List.getElem?_append_left (by omega), List.getElem?_append_left (by omega)]
    · subst h
      simp only [pairAt, List.getD_eq_getElem?_getD]
      rw [List.getElem?_append_right (by omega), List.getElem?_append_right (by omega), hl]
      simp

theorem digitPairs_eq :
    digitPairs = (List.range 100).flatMap fun c => [48 + c / 10, 48 + c % 10] := by
  decide +kernel

theorem digitPairsLead_eq : digitPairsLead = (List.range 100).flatMap fun c =>
    [if c < 10 then 48 + c else 48 + c / 10, 48 + c % 10] := by
  decide +kernel

theorem hexPairs_eq : hexPairs = (List.range 256).flatMap fun c =>
    [(Nat.digitChar (c / 16)).toNat, (Nat.digitChar (c % 16)).toNat] := by
  decide +kernel

theorem pairAt_digitPairs (c : Nat) (h : c < 100) :
    pairAt digitPairs c = [48 + c / 10, 48 + c % 10] := by
  rw [digitPairs_eq, pairAt_flat _ _ _ _ h]

theorem pairAt_lead (c : Nat) (h : c < 100) : pairAt digitPairsLead c =
    if c < 10 then [48 + c, 48 + c] else [48 + c / 10, 48 + c % 10] := by
  rw [digitPairsLead_eq, pairAt_flat _ _ _ _ h]
  split
  · rw [Nat.mod_eq_of_lt (by omega)]
  · rfl

theorem pairAt_hex (c : Nat) (h : c < 256) : pairAt hexPairs c =
    [(Nat.digitChar (c / 16)).toNat, (Nat.digitChar (c % 16)).toNat] := by
  rw [hexPairs_eq, pairAt_flat _ _ _ _ h]

theorem num_digit : ∀ c < 16, num.getD c 0 = (Nat.digitChar c).toNat := by decide +kernel

theorem digitChar_dec : ∀ c < 10, (Nat.digitChar c).toNat = 48 + c := by decide +kernel

theorem decimal_lt {n : Nat} (h : n < 10) : decimal n = [48 + n] := by
  simp [decimal, Nat.toDigits_of_lt_base h, digitChar_dec n h]

theorem decimal_ge {n : Nat} (h : 10 ≤ n) : decimal n = decimal (n / 10) ++ [48 + n % 10] := by
  rw [decimal, Nat.toDigits_of_base_le (by omega) h]
  simp [decimal, digitChar_dec (n % 10) (by omega)]

/-- two zero-padded digits -/
def two (c : Nat) : List Nat := [48 + c / 10, 48 + c % 10]

theorem decimal_pair {n : Nat} (h : 100 ≤ n) : decimal n = decimal (n / 100) ++ two (n % 100) := by
  rw [decimal_ge (by omega), decimal_ge (n := n / 10) (by omega), two, List.append_assoc]
  have h1 : n / 10 / 10 = n / 100 := by omega
  have h2 : n / 10 % 10 = n % 100 / 10 := by omega
  have h3 : n % 10 = n % 100 % 10 := by omega
  rw [h1, h2, h3]; rfl

theorem decimal_two {n : Nat} (h : 10 ≤ n) (h2 : n < 100) : decimal n = [48 + n / 10, 48 + n % 10] := by
  rw [decimal_ge h, decimal_lt (by omega)]; rfl

/-- Writing the leading pair: `k = 1` when the number of leading digits is one. -/
theorem lead_take {q : Nat} (h : q < 100) :
    (pairAt digitPairsLead q).take (2 - back q 10) = decimal q := by
  rw [pairAt_lead q h, back]
  split
  · simp [decimal_lt (by assumption)]
  · rw [decimal_two (by omega) h]; rfl

theorem putPair_ok {b : Buf} {d : Nat} (t : List Nat) (i : Nat) (h : d + 2 ≤ b.cap) :
    putPair b d t i = .ok (b.stored d (pairAt t i)) := store_ok (by simpa [pairAt] using h)

theorem putPair_read (b : Buf) (d : Nat) (t : List Nat) (i : Nat) {k : Nat} (hk : k ≤ 2) :
    (b.stored d (pairAt t i)).read 0 (d + k) = b.read 0 d ++ (pairAt t i).take k :=
  stored_read _ _ _ (by simpa [pairAt] using hk)

/-! ### The fixed point cascade -/

/-- One step of the cascade: `S f` approximates `c r` where `c N` is slightly larger than
`S m`. -/
theorem cascade {S m c N δ r e f : Nat} (hS : 0 < S) (hc : c * N = S * m + δ) (hf : S * f = c * r + e)
    (he : e + (r / N) * δ + δ < c) (hN : 0 < N) :
    f / m = r / N ∧ S * (f % m) = c * (r % N) + (e + (r / N) * δ) := by
  have hm : 0 < m := by
    rcases Nat.eq_zero_or_pos m with h | h
    · subst h
      have : c ≤ c * N := Nat.le_mul_of_pos_right _ hN
      have : c * N = δ := by omega
      omega
    · exact h
  have hr : r = N * (r / N) + r % N := (Nat.div_add_mod r N).symm
  have hlt : r % N < N := Nat.mod_lt _ hN
  generalize hq : r / N = q at *
  generalize hr' : r % N = s at *
  have h1 : S * f = S * m * q + (c * s + (e + q * δ)) := by
    rw [hf, hr]
    have : c * (N * q + s) = (c * N) * q + c * s := by ring
    rw [this, hc]; ring
  have h2 : c * s + (e + q * δ) < S * m := by
    have : c * s ≤ c * (N - 1) := Nat.mul_le_mul_left _ (by omega)
    have h3 : c * (N - 1) + c = c * N := by
      rw [← Nat.mul_succ]; congr 1; omega
    omega
  have h3 : f / m = q := by
    have : (S * f) / (S * m) = f / m := Nat.mul_div_mul_left _ _ hS
    rw [← this, h1, Nat.add_comm, Nat.add_mul_div_left _ _ (by positivity), Nat.div_eq_of_lt h2,
      Nat.zero_add]
  refine ⟨h3, ?_⟩
  have : S * f = S * m * q + S * (f % m) := by
    conv_lhs => rw [← Nat.div_add_mod f m, h3]
    ring
  omega

theorem scale100 {S m c r e f M : Nat} (hf : S * (f % m) = c * r + e) (hM : m * 100 ≤ M) (hm : 0 < m) :
    S * ((f % m) * 100 % M) = (100 * c) * r + 100 * e := by
  have : (f % m) * 100 < M := by
    have := Nat.mod_lt f hm
    omega
  rw [Nat.mod_eq_of_lt this, ← Nat.mul_assoc, hf]; ring

end Verif.StrBuf
