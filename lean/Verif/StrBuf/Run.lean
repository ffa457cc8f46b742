import Verif.StrBuf.Hex

namespace Verif.StrBuf

/-! ### Bytes of a word -/

/-- Little-endian value of a list of bytes -/
def val : List Nat → Nat
  | [] => 0
  | c :: l => c + 256 * val l

theorem val_eq_foldr (l : List Nat) : l.foldr (fun c acc => c + 256 * acc) 0 = val l := by
  induction l with
  | nil => rfl
  | cons c l ih => simp [val, ih]

theorem val_lt {l : List Nat} (h : ∀ c ∈ l, c < 256) : val l < 256 ^ l.length := by
  induction l with
  | nil => simp [val]
  | cons c l ih =>
    have h1 := ih fun x hx => h x (by simp [hx])
    have h2 := h c (by simp)
    rw [val, List.length_cons, Nat.pow_succ]
    omega

theorem and_split {a c a' c' : Nat} (ha : a < 256) (hc : c < 256) :
    (a + 256 * a') &&& (c + 256 * c') = (a &&& c) + 256 * (a' &&& c') := by
  have h1 := Nat.and_mod_two_pow (a := a + 256 * a') (b := c + 256 * c') (n := 8)
  have h2 := Nat.and_div_two_pow (a := a + 256 * a') (b := c + 256 * c') (n := 8)
  rw [show (2 : Nat) ^ 8 = 256 by norm_num] at h1 h2
  rw [show (a + 256 * a') % 256 = a by omega, show (c + 256 * c') % 256 = c by omega] at h1
  rw [show (a + 256 * a') / 256 = a' by omega, show (c + 256 * c') / 256 = c' by omega] at h2
  omega

theorem xor_split {a c a' c' : Nat} (ha : a < 256) (hc : c < 256) :
    (a + 256 * a') ^^^ (c + 256 * c') = (a ^^^ c) + 256 * (a' ^^^ c') := by
  have h1 := Nat.xor_mod_two_pow (a := a + 256 * a') (b := c + 256 * c') (n := 8)
  have h2 := Nat.xor_div_two_pow (a := a + 256 * a') (b := c + 256 * c') (n := 8)
  rw [show (2 : Nat) ^ 8 = 256 by norm_num] at h1 h2
  rw [show (a + 256 * a') % 256 = a by omega, show (c + 256 * c') % 256 = c by omega] at h1
  rw [show (a + 256 * a') / 256 = a' by omega, show (c + 256 * c') / 256 = c' by omega] at h2
  omega

theorem val_xor {l : List Nat} (h : ∀ c ∈ l, c < 256) :
    val l ^^^ val (List.replicate l.length 36) = val (l.map (· ^^^ 36)) := by
  induction l with
  | nil => rfl
  | cons c l ih =>
    rw [List.length_cons, List.replicate_succ, val, val, xor_split (h c (by simp)) (by omega),
      ih fun x hx => h x (by simp [hx])]
    rfl

/-- The bit trick on a word of `k` bytes -/
def trick (k x : Nat) : Nat :=
  ((256 ^ k - val (List.replicate k 1) + x) % 256 ^ k) &&& (256 ^ k - 1 - x) &&&
    val (List.replicate k 128)

theorem low_zero : ∀ c < 256, 1 ≤ c → ((c - 1) &&& (255 - c)) &&& 128 = 0 := by decide +kernel

theorem ones_lt (k : Nat) : val (List.replicate k 1) < 256 ^ k := by
  have := val_lt (l := List.replicate k 1) (by simp [List.mem_replicate])
  simpa using this

theorem mod_split {c y k : Nat} (hc : c < 256) :
    (c + 256 * y) % 256 ^ (k + 1) = c + 256 * (y % 256 ^ k) := by
  rw [Nat.pow_succ, Nat.mul_comm (256 ^ k) 256, Nat.mod_mul]
  rw [show (c + 256 * y) % 256 = c by omega, show (c + 256 * y) / 256 = y by omega]

theorem trick_pos {c k x : Nat} (hc : c < 256) (h1 : 1 ≤ c) (hx : x < 256 ^ k) :
    trick (k + 1) (c + 256 * x) = 256 * trick k x := by
  have ho := ones_lt k
  unfold trick
  rw [List.replicate_succ, List.replicate_succ, val, val]
  have e1 : 256 ^ (k + 1) - (1 + 256 * val (List.replicate k 1)) + (c + 256 * x) =
      (c - 1) + 256 * (256 ^ k - val (List.replicate k 1) + x) := by
    rw [Nat.pow_succ]; omega
  have e2 : 256 ^ (k + 1) - 1 - (c + 256 * x) = (255 - c) + 256 * (256 ^ k - 1 - x) := by
    rw [Nat.pow_succ]; omega
  rw [e1, e2, mod_split (by omega), and_split (by omega) (by omega),
    and_split (by exact lt_of_le_of_lt Nat.and_le_left (by omega)) (by omega), low_zero c hc h1]
  omega

theorem trick_zero {k x : Nat} (hx : x < 256 ^ k) :
    ∃ y, trick (k + 1) (256 * x) = 128 + 256 * y := by
  have ho := ones_lt k
  unfold trick
  rw [List.replicate_succ, List.replicate_succ, val, val]
  have e1 : 256 ^ (k + 1) - (1 + 256 * val (List.replicate k 1)) + 256 * x =
      255 + 256 * (256 ^ k - val (List.replicate k 1) - 1 + x) := by
    rw [Nat.pow_succ]; omega
  have e2 : 256 ^ (k + 1) - 1 - 256 * x = 255 + 256 * (256 ^ k - 1 - x) := by
    rw [Nat.pow_succ]; omega
  rw [e1, e2, mod_split (by omega), and_split (by omega) (by omega), and_split (by decide) (by omega), show 255 &&& 255 &&& 128 = 128 by decide]
  exact ⟨_, rfl⟩

/-- The mask is zero when there is no zero byte, and otherwise its lowest bit is the highest bit
of the first zero byte. -/
theorem trick_val {l : List Nat} (h : ∀ c ∈ l, c < 256) :
    (0 ∉ l → trick l.length (val l) = 0) ∧
    (0 ∈ l → ∃ y, trick l.length (val l) = 256 ^ (l.idxOf 0) * (128 + 256 * y)) := by
  induction l with
  | nil => exact ⟨fun _ => rfl, fun h => by simp at h⟩
  | cons c l ih =>
    have hl : ∀ x ∈ l, x < 256 := fun x hx => h x (by simp [hx])
    obtain ⟨i1, i2⟩ := ih hl
    have hc := h c (by simp)
    rw [List.length_cons, val]
    rcases Nat.eq_zero_or_pos c with h0 | h0
    · subst h0
      refine ⟨fun hn => by simp at hn, fun _ => ?_⟩
      obtain ⟨y, hy⟩ := trick_zero (val_lt hl)
      exact ⟨y, by simpa using hy⟩
    · rw [trick_pos hc h0 (val_lt hl)]
      refine ⟨fun hn => by rw [i1 (by simp at hn; exact hn.2)], fun hm => ?_⟩
      have hm' : 0 ∈ l := by
        rcases List.mem_cons.1 hm with h | h
        · omega
        · exact h
      obtain ⟨y, hy⟩ := i2 hm'
      refine ⟨y, ?_⟩
      rw [hy, List.idxOf_cons_ne _ (by omega), Nat.pow_succ]
      ring

theorem load64_val {p : List Nat} : (load64 p).toNat = val (p.take 8) % 2 ^ 64 := by
  rw [load64, val_eq_foldr, BitVec.toNat_ofNat]

theorem xor36_eq_zero : ∀ c < 256, (c ^^^ 36 = 0 ↔ c = 36) ∧ c ^^^ 36 < 256 := by decide +kernel

theorem swar_toNat {p : List Nat} (h8 : 8 ≤ p.length) (hb : ∀ c ∈ p, c < 256) :
    (swar (load64 p)).toNat = trick 8 (val ((p.take 8).map (· ^^^ 36))) := by
  have hl : (p.take 8).length = 8 := by simp; omega
  have hb8 : ∀ c ∈ p.take 8, c < 256 := fun c hc => hb c (List.mem_of_mem_take hc)
  have hv := val_lt hb8
  rw [hl] at hv
  have hx := val_xor hb8
  rw [hl] at hx
  unfold swar trick
  simp only [BitVec.toNat_and, BitVec.toNat_sub, BitVec.toNat_not, BitVec.toNat_xor, load64_val]
  rw [Nat.mod_eq_of_lt (a := val (p.take 8)) (by norm_num at hv ⊢; omega)]
  rw [show (0x2424242424242424#64).toNat = val (List.replicate 8 36) by decide +kernel, hx]
  rw [show (0x0101010101010101#64).toNat = val (List.replicate 8 1) by decide +kernel,
    show (0x8080808080808080#64).toNat = val (List.replicate 8 128) by decide +kernel]
  norm_num

theorem mem_xor {l : List Nat} (hb : ∀ c ∈ l, c < 256) : 0 ∈ l.map (· ^^^ 36) ↔ 36 ∈ l := by
  constructor
  · intro h
    obtain ⟨c, hc, e⟩ := List.mem_map.1 h
    rw [((xor36_eq_zero c (hb c hc)).1).1 e] at hc
    exact hc
  · intro h
    exact List.mem_map.2 ⟨36, h, by decide⟩

theorem idxOf_xor {l : List Nat} (hb : ∀ c ∈ l, c < 256) (h : 36 ∈ l) :
    (l.map (· ^^^ 36)).idxOf 0 = (l.takeWhile (· ≠ 36)).length := by
  induction l with
  | nil => simp at h
  | cons c l ih =>
    have hc := xor36_eq_zero c (hb c (by simp))
    by_cases hc36 : c = 36
    · subst hc36; simp [List.takeWhile_cons]
    · rw [List.map_cons, List.idxOf_cons_ne _ (fun e => hc36 (hc.1.1 e)),
        ih (fun x hx => hb x (by simp [hx])) (by
          rcases List.mem_cons.1 h with h | h
          · exact absurd h.symm hc36
          · exact h), List.takeWhile_cons]
      simp [hc36]

/-- Trailing zeros of `2^k (1 + 2 y)` -/
theorem tzcnt_eq {m : BitVec 64} {k y : Nat} (hk : k < 64) (h : m.toNat = 2 ^ k * (1 + 2 * y)) :
    tzcnt m = k := by
  have ht : ∀ j, m.getLsbD j = (2 ^ k * (1 + 2 * y)).testBit j := by
    intro j; rw [BitVec.getLsbD, h]
  have : (List.range 64).find? (fun i => m.getLsbD i) = some k := by
    rw [List.find?_range_eq_some]
    refine ⟨?_, by simp [hk], ?_⟩
    · rw [ht, Nat.testBit_two_pow_mul]
      simp
    · intro j hj
      rw [ht, Nat.testBit_two_pow_mul]
      simp; omega
  rw [tzcnt, this]; rfl

theorem runBytes_spec : ∀ (p : List Nat) (b : Buf) (d : Nat), d + p.length ≤ b.cap →
    let pre := p.takeWhile (· ≠ 36)
    ∃ b', runBytes b d p = .ok (b', d + pre.length, p.drop pre.length) ∧ b'.cap = b.cap ∧
      b'.cur = b.cur ∧ b'.read 0 (d + pre.length) = b.read 0 d ++ pre := by
  intro p
  induction p with
  | nil => intro b d _; exact ⟨b, rfl, rfl, rfl, by simp⟩
  | cons c p ih =>
    intro b d h
    rw [runBytes]
    by_cases hc : c = 36
    · subst hc
      exact ⟨b, by simp [List.takeWhile_cons], rfl, rfl, by simp [List.takeWhile_cons]⟩
    · rw [List.length_cons] at h
      rw [if_neg hc, store_ok (by simp; omega), ok_bind]
      obtain ⟨b', e, cc, u, r⟩ := ih (b.stored d [c]) (d + 1) (by simp; omega)
      have hpre : (c :: p).takeWhile (· ≠ 36) = c :: p.takeWhile (· ≠ 36) := by
        simp [List.takeWhile_cons, hc]
      dsimp only
      rw [hpre]
      refine ⟨b', ?_, cc, u, ?_⟩
      · rw [e]; simp; omega
      · rw [List.length_cons, show d + ((p.takeWhile (· ≠ 36)).length + 1) =
          d + 1 + (p.takeWhile (· ≠ 36)).length by omega, r, stored_read _ _ _ (by simp)]
        simp

theorem takeWhile_take_of_not_mem {p : List Nat} {n : Nat} (h : 36 ∉ p.take n) :
    p.takeWhile (· ≠ 36) = p.take n ++ (p.drop n).takeWhile (· ≠ 36) := by
  conv_lhs => rw [← List.take_append_drop n p]
  rw [List.takeWhile_append_of_pos]
  intro a ha
  simp; intro e; subst e; exact h ha

theorem takeWhile_take_of_mem {p : List Nat} {n : Nat} (h : 36 ∈ p.take n) :
    p.takeWhile (· ≠ 36) = (p.take n).takeWhile (· ≠ 36) := by
  conv_lhs => rw [← List.take_append_drop n p]
  rw [List.takeWhile_append]
  split
  · rename_i hl
    exfalso
    have : (p.take n).takeWhile (· ≠ 36) = p.take n :=
      (List.takeWhile_prefix _).eq_of_length hl
    have := List.takeWhile_eq_self_iff.1 this 36 h
    simp at this
  · rfl

/-- `w_run` copies everything up to the next `$`. -/
theorem w_run_spec (n : Nat) : ∀ (p : List Nat) (b : Buf) (d : Nat), p.length = n →
    (∀ c ∈ p, c < 256) → d + p.length ≤ b.cap →
    let pre := p.takeWhile (· ≠ 36)
    ∃ b', w_run b d p = .ok (b', d + pre.length, p.drop pre.length) ∧ b'.cap = b.cap ∧
      b'.cur = b.cur ∧ b'.read 0 (d + pre.length) = b.read 0 d ++ pre := by
  induction n using Nat.strong_induction_on with
  | _ n ih =>
    intro p b d hn hb hcap pre
    rw [w_run]
    split
    · rename_i h8
      have hl : (p.take 8).length = 8 := by simp; omega
      have hb8 : ∀ c ∈ p.take 8, c < 256 := fun c hc => hb c (List.mem_of_mem_take hc)
      have hx8 : ∀ c ∈ (p.take 8).map (· ^^^ 36), c < 256 := by
        intro c hc
        obtain ⟨a, ha, rfl⟩ := List.mem_map.1 hc
        exact (xor36_eq_zero a (hb8 a ha)).2
      have ht := trick_val hx8
      rw [List.length_map, hl, ← swar_toNat h8 hb, mem_xor hb8] at ht
      dsimp only
      rw [store_ok (by rw [hl]; omega), ok_bind]
      by_cases hm : 36 ∈ p.take 8
      · obtain ⟨y, hy⟩ := ht.2 hm
        rw [idxOf_xor hb8 hm, ← takeWhile_take_of_mem hm] at hy
        change (swar (load64 p)).toNat = 256 ^ pre.length * _ at hy
        have hlt : pre.length < 8 := by
          have h1 : pre = (p.take 8).takeWhile (· ≠ 36) := takeWhile_take_of_mem hm
          have h2 := (List.takeWhile_prefix (l := p.take 8) (p := fun x => decide (x ≠ 36))).length_le
          rw [← h1, hl] at h2
          rcases Nat.lt_or_ge pre.length 8 with h | h
          · exact h
          · exfalso
            have h3 : (p.take 8).takeWhile (· ≠ 36) = p.take 8 :=
              (List.takeWhile_prefix _).eq_of_length (by rw [← h1, hl]; omega)
            have := List.takeWhile_eq_self_iff.1 h3 36 hm
            simp at this
        have htz : tzcnt (swar (load64 p)) = 8 * pre.length + 7 := by
          apply tzcnt_eq (y := y) (by omega)
          rw [hy, show (256 : Nat) = 2 ^ 8 by norm_num, ← Nat.pow_mul, Nat.pow_add]; ring
        have hne : swar (load64 p) ≠ 0 := by
          intro e
          rw [e] at hy
          have hz : (0 : Nat) = 256 ^ pre.length * (128 + 256 * y) := hy
          have : 0 < 256 ^ pre.length * (128 + 256 * y) := by positivity
          omega
        rw [if_pos hne, htz, show (8 * pre.length + 7) / 8 = pre.length by omega]
        refine ⟨_, rfl, rfl, rfl, ?_⟩
        rw [stored_read _ _ _ (by rw [hl]; omega)]
        congr 1
        rw [List.take_take, Nat.min_eq_left (by omega)]
        exact (List.prefix_iff_eq_take.1 (List.takeWhile_prefix _)).symm
      · have h0 := ht.1 hm
        have hz : ¬ swar (load64 p) ≠ 0 := by
          rw [not_not]
          exact BitVec.eq_of_toNat_eq (by simpa using h0)
        rw [if_neg hz]
        obtain ⟨b', e, c, u, r⟩ := ih (p.drop 8).length (by simp; omega) (p.drop 8) (b.stored d (p.take 8))
          (d + 8) rfl (fun c hc => hb c (List.mem_of_mem_drop hc)) (by simp; omega)
        have hpre : pre = p.take 8 ++ (p.drop 8).takeWhile (· ≠ 36) := takeWhile_take_of_not_mem hm
        have hpl : pre.length = 8 + ((p.drop 8).takeWhile (· ≠ 36)).length := by
          rw [hpre, List.length_append, hl]
        refine ⟨b', ?_, c, u, ?_⟩
        · rw [e, hpl, List.drop_drop, Nat.add_assoc]
        · rw [hpl, ← Nat.add_assoc, r, hpre]
          have := stored_read b d (p.take 8) (k := 8) (by rw [hl])
          rw [this, List.take_take]
          simp
    · exact runBytes_spec p b d hcap

end Verif.StrBuf
