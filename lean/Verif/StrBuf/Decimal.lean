import Verif.StrBuf.Lemmas

set_option linter.unusedSimpArgs false

namespace Verif.StrBuf

/-- The pairs written by the second and later stores. -/
theorem pair_take {c : Nat} (h : c < 100) : (pairAt digitPairs c).take 2 = two c := by
  rw [pairAt_digitPairs c h]; rfl

theorem two_length (c : Nat) : (two c).length = 2 := rfl

theorem decimal_length2 {q : Nat} (h : q < 100) : (decimal q).length = 2 - back q 10 := by
  rw [back]
  split
  · rw [decimal_lt (by assumption)]; rfl
  · rw [decimal_two (by omega) h]; rfl

/-- A `memcpy` of two digits behind `s` extends the text by these digits. -/
theorem pair_writes {b : Buf} {d c : Nat} {s t : List Nat} {b0 : Buf} (hc : c < 100)
    (hs : b.read 0 (d + s.length) = t ++ s) (hcap : b.cap = b0.cap) (hcur : b.cur = b0.cur)
    (h : d + s.length + 2 ≤ b.cap) :
    ∃ b', putPair b (d + s.length) digitPairs c = .ok b' ∧ b'.cap = b0.cap ∧ b'.cur = b0.cur ∧
      b'.read 0 (d + (s ++ two c).length) = t ++ (s ++ two c) := by
  refine ⟨_, putPair_ok _ _ h, hcap, hcur, ?_⟩
  have := putPair_read b (d + s.length) digitPairs c (k := 2) (by omega)
  rw [pair_take hc, hs] at this
  simpa [two_length, Nat.add_assoc] using this

theorem lead_writes {b : Buf} {d q : Nat} (hq : q < 100) (h : d + 2 ≤ b.cap) :
    ∃ b', putPair b d digitPairsLead q = .ok b' ∧ b'.cap = b.cap ∧ b'.cur = b.cur ∧
      b'.read 0 (d + (decimal q).length) = b.read 0 d ++ decimal q := by
  refine ⟨_, putPair_ok _ _ h, rfl, rfl, ?_⟩
  rw [decimal_length2 hq, putPair_read _ _ _ _ (by unfold back; split <;> omega), lead_take hq]

theorem back_div {n l : Nat} (N : Nat) (hN : 0 < N) (hl : l = 10 * N) : back n l = back (n / N) 10 := by
  unfold back
  have : n < l ↔ n / N < 10 := by rw [hl, Nat.div_lt_iff_lt_mul hN]
  simp [this]

theorem lead_length {n q k : Nat} {N l : Nat} (hN : 0 < N) (hl : l = 10 * N) (hq : n / N = q)
    (hq' : q < 100) (hk : back n l = k) : (decimal q).length + k = 2 := by
  rw [decimal_length2 hq', ← hk, back_div N hN hl, hq]
  unfold back; split <;> rfl

/-! Values of the pairs in each branch -/

theorem md_4 (n : Nat) : n % 10000 / 100 = n / 100 % 100 := Nat.mod_mul_right_div_self n 100 100
theorem md_64 (n : Nat) : n % 1000000 / 10000 = n / 10000 % 100 :=
  Nat.mod_mul_right_div_self n 10000 100
theorem md_8 (n : Nat) : n % 100000000 / 1000000 = n / 1000000 % 100 :=
  Nat.mod_mul_right_div_self n 1000000 100
theorem mm_4 (n : Nat) : n % 10000 % 100 = n % 100 := Nat.mod_mod_of_dvd n ⟨100, rfl⟩
theorem mm_6 (n : Nat) : n % 1000000 % 10000 = n % 10000 := Nat.mod_mod_of_dvd n ⟨100, rfl⟩
theorem mm_8 (n : Nat) : n % 100000000 % 1000000 = n % 1000000 := Nat.mod_mod_of_dvd n ⟨100, rfl⟩

theorem digits4 {n : Nat} (h : n < 10000) (h1 : 100 ≤ n) :
    let f0 := 167773 * n % 2 ^ 32
    let f2 := (f0 % 2 ^ 24) * 100 % 2 ^ 32
    f0 / 2 ^ 24 = n / 100 ∧ f2 / 2 ^ 24 = n % 100 := by
  intro f0 f2
  have hf : 1 * f0 = 167773 * n + 0 := by
    show 1 * (167773 * n % 2 ^ 32) = _
    rw [Nat.mod_eq_of_lt (by omega)]; omega
  have c0 := cascade (S := 1) (m := 2 ^ 24) (c := 167773) (N := 100) (δ := 84) (by omega) (by norm_num)
    hf (by omega) (by omega)
  have s2 := scale100 (M := 2 ^ 32) c0.2 (by norm_num) (by norm_num)
  have c2 := cascade (S := 1) (m := 2 ^ 24) (N := 1) (δ := 84) (by omega) (by norm_num) s2 (by omega) (by omega)
  refine ⟨c0.1, ?_⟩
  rw [c2.1]; simp only [mm_8, mm_6, mm_4, md_8, md_64, md_4, Nat.div_one]

theorem digits6 {n : Nat} (h : n < 1000000) (h1 : 10000 ≤ n) :
    let f0 := 429497 * n % 2 ^ 64
    let f2 := (f0 % 2 ^ 32) * 100 % 2 ^ 64
    let f4 := (f2 % 2 ^ 32) * 100 % 2 ^ 64
    f0 / 2 ^ 32 = n / 10000 ∧ f2 / 2 ^ 32 = n / 100 % 100 ∧ f4 / 2 ^ 32 = n % 100 := by
  intro f0 f2 f4
  have hf : 1 * f0 = 429497 * n + 0 := by
    show 1 * (429497 * n % 2 ^ 64) = _
    rw [Nat.mod_eq_of_lt (by omega)]; omega
  have c0 := cascade (S := 1) (m := 2 ^ 32) (c := 429497) (N := 10000) (δ := 2704) (by omega) (by norm_num)
    hf (by omega) (by omega)
  have s2 := scale100 (M := 2 ^ 64) c0.2 (by norm_num) (by norm_num)
  have c2 := cascade (S := 1) (m := 2 ^ 32) (N := 100) (δ := 2704) (by omega) (by norm_num) s2 (by omega) (by omega)
  have s4 := scale100 (M := 2 ^ 64) c2.2 (by norm_num) (by norm_num)
  have c4 := cascade (S := 1) (m := 2 ^ 32) (N := 1) (δ := 2704) (by omega) (by norm_num) s4 (by omega) (by omega)
  refine ⟨c0.1, ?_, ?_⟩
  · rw [c2.1]; simp only [mm_8, mm_6, mm_4, md_8, md_64, md_4, Nat.div_one]
  · rw [c4.1]; simp only [mm_8, mm_6, mm_4, md_8, md_64, md_4, Nat.div_one]

/-- The scaled representation used for 7-8 digits and by `eight_digits`. -/
theorem digits8_aux {r e f0 : Nat} (hr : r < 100000000) (hf : 65536 * f0 = 281474977 * r + e)
    (he : e ≤ 65536) :
    let f2 := (f0 % 2 ^ 32) * 100 % 2 ^ 64
    let f4 := (f2 % 2 ^ 32) * 100 % 2 ^ 64
    let f6 := (f4 % 2 ^ 32) * 100 % 2 ^ 64
    f0 / 2 ^ 32 = r / 1000000 ∧ f2 / 2 ^ 32 = r / 10000 % 100 ∧ f4 / 2 ^ 32 = r / 100 % 100 ∧
      f6 / 2 ^ 32 = r % 100 := by
  intro f2 f4 f6
  have c0 := cascade (S := 65536) (m := 2 ^ 32) (c := 281474977) (N := 1000000) (δ := 289344)
    (by omega) (by norm_num) hf (by omega) (by omega)
  have s2 := scale100 (M := 2 ^ 64) c0.2 (by norm_num) (by norm_num)
  have c2 := cascade (S := 65536) (m := 2 ^ 32) (N := 10000) (δ := 289344) (by omega) (by norm_num) s2 (by omega) (by omega)
  have s4 := scale100 (M := 2 ^ 64) c2.2 (by norm_num) (by norm_num)
  have c4 := cascade (S := 65536) (m := 2 ^ 32) (N := 100) (δ := 289344) (by omega) (by norm_num) s4 (by omega) (by omega)
  have s6 := scale100 (M := 2 ^ 64) c4.2 (by norm_num) (by norm_num)
  have c6 := cascade (S := 65536) (m := 2 ^ 32) (N := 1) (δ := 289344) (by omega) (by norm_num) s6 (by omega) (by omega)
  refine ⟨c0.1, ?_, ?_, ?_⟩
  · rw [c2.1]; simp only [mm_8, mm_6, mm_4, md_8, md_64, md_4, Nat.div_one]
  · rw [c4.1]; simp only [mm_8, mm_6, mm_4, md_8, md_64, md_4, Nat.div_one]
  · rw [c6.1]; simp only [mm_8, mm_6, mm_4, md_8, md_64, md_4, Nat.div_one]

theorem digits8z {z : Nat} (h : z < 100000000) :
    let f0 := 281474977 * z % 2 ^ 64 / 2 ^ 16 + 1
    let f2 := (f0 % 2 ^ 32) * 100 % 2 ^ 64
    let f4 := (f2 % 2 ^ 32) * 100 % 2 ^ 64
    let f6 := (f4 % 2 ^ 32) * 100 % 2 ^ 64
    f0 / 2 ^ 32 = z / 1000000 ∧ f2 / 2 ^ 32 = z / 10000 % 100 ∧ f4 / 2 ^ 32 = z / 100 % 100 ∧
      f6 / 2 ^ 32 = z % 100 := by
  intro f0
  have hf : 65536 * f0 = 281474977 * z + (65536 - 281474977 * z % 65536) := by
    show 65536 * (281474977 * z % 2 ^ 64 / 2 ^ 16 + 1) = _
    rw [Nat.mod_eq_of_lt (by omega)]; omega
  exact digits8_aux h hf (by omega)

theorem digits8 {n : Nat} (h : n < 100000000) (h1 : 1000000 ≤ n) :
    let f0 := 281474977 * n % 2 ^ 64 / 2 ^ 16
    let f2 := (f0 % 2 ^ 32) * 100 % 2 ^ 64
    let f4 := (f2 % 2 ^ 32) * 100 % 2 ^ 64
    let f6 := (f4 % 2 ^ 32) * 100 % 2 ^ 64
    f0 / 2 ^ 32 = n / 1000000 ∧ f2 / 2 ^ 32 = n / 10000 % 100 ∧ f4 / 2 ^ 32 = n / 100 % 100 ∧
      f6 / 2 ^ 32 = n % 100 := by
  intro f0 f2 f4 f6
  have hf0 : f0 = 281474977 * n / 65536 := by
    show 281474977 * n % 2 ^ 64 / 2 ^ 16 = _
    rw [Nat.mod_eq_of_lt (by omega), show 2 ^ 16 = 65536 by norm_num]
  -- the exact product
  have c0 := cascade (S := 1) (m := 2 ^ 48) (c := 281474977) (N := 1000000) (δ := 289344) (r := n)
    (e := 0) (f := 281474977 * n) (by omega) (by norm_num) (by omega) (by omega) (by omega)
  have hq : f0 / 2 ^ 32 = n / 1000000 := by
    rw [hf0, Nat.div_div_eq_div_mul, show 65536 * 2 ^ 32 = 2 ^ 48 by norm_num, c0.1]
  have hr : f0 % 2 ^ 32 = (281474977 * n % 2 ^ 48) / 65536 := by
    rw [hf0]
    generalize 281474977 * n = y
    omega
  have h0 : 65536 * (f0 % 2 ^ 32) = 281474977 * (n % 1000000) +
      (n / 1000000 * 289344 - (281474977 * n % 2 ^ 48) % 65536) := by
    rw [hr]
    have := c0.2
    omega
  have s2 := scale100 (M := 2 ^ 64) h0 (by norm_num) (by norm_num)
  have c2 := cascade (S := 65536) (m := 2 ^ 32) (N := 10000) (δ := 289344) (by omega) (by norm_num) s2 (by omega) (by omega)
  have s4 := scale100 (M := 2 ^ 64) c2.2 (by norm_num) (by norm_num)
  have c4 := cascade (S := 65536) (m := 2 ^ 32) (N := 100) (δ := 289344) (by omega) (by norm_num) s4 (by omega) (by omega)
  have s6 := scale100 (M := 2 ^ 64) c4.2 (by norm_num) (by norm_num)
  have c6 := cascade (S := 65536) (m := 2 ^ 32) (N := 1) (δ := 289344) (by omega) (by norm_num) s6 (by omega) (by omega)
  refine ⟨hq, ?_, ?_, ?_⟩
  · rw [c2.1]; simp only [mm_8, mm_6, mm_4, md_8, md_64, md_4, Nat.div_one]
  · rw [c4.1]; simp only [mm_8, mm_6, mm_4, md_8, md_64, md_4, Nat.div_one]
  · rw [c6.1]; simp only [mm_8, mm_6, mm_4, md_8, md_64, md_4, Nat.div_one]

theorem digits10 {n : Nat} (h : n < 2 ^ 32) (h1 : 100000000 ≤ n) :
    let f0 := 1441151881 * n % 2 ^ 64
    let f2 := (f0 % 2 ^ 57) * 100 % 2 ^ 64
    let f4 := (f2 % 2 ^ 57) * 100 % 2 ^ 64
    let f6 := (f4 % 2 ^ 57) * 100 % 2 ^ 64
    let f8 := (f6 % 2 ^ 57) * 100 % 2 ^ 64
    f0 / 2 ^ 57 = n / 100000000 ∧ f2 / 2 ^ 57 = n / 1000000 % 100 ∧ f4 / 2 ^ 57 = n / 10000 % 100 ∧
      f6 / 2 ^ 57 = n / 100 % 100 ∧ f8 / 2 ^ 57 = n % 100 := by
  intro f0 f2 f4 f6 f8
  have hf : 1 * f0 = 1441151881 * n + 0 := by
    show 1 * (1441151881 * n % 2 ^ 64) = _
    rw [Nat.mod_eq_of_lt (by omega)]; omega
  have c0 := cascade (S := 1) (m := 2 ^ 57) (c := 1441151881) (N := 100000000) (δ := 24144128) (by omega) (by norm_num)
    hf (by omega) (by omega)
  have s2 := scale100 (M := 2 ^ 64) c0.2 (by norm_num) (by norm_num)
  have c2 := cascade (S := 1) (m := 2 ^ 57) (N := 1000000) (δ := 24144128) (by omega) (by norm_num) s2 (by omega) (by omega)
  have s4 := scale100 (M := 2 ^ 64) c2.2 (by norm_num) (by norm_num)
  have c4 := cascade (S := 1) (m := 2 ^ 57) (N := 10000) (δ := 24144128) (by omega) (by norm_num) s4 (by omega) (by omega)
  have s6 := scale100 (M := 2 ^ 64) c4.2 (by norm_num) (by norm_num)
  have c6 := cascade (S := 1) (m := 2 ^ 57) (N := 100) (δ := 24144128) (by omega) (by norm_num) s6 (by omega) (by omega)
  have s8 := scale100 (M := 2 ^ 64) c6.2 (by norm_num) (by norm_num)
  have c8 := cascade (S := 1) (m := 2 ^ 57) (N := 1) (δ := 24144128) (by omega) (by norm_num) s8 (by omega) (by omega)
  refine ⟨c0.1, ?_, ?_, ?_, ?_⟩
  · rw [c2.1]; simp only [mm_8, mm_6, mm_4, md_8, md_64, md_4, Nat.div_one]
  · rw [c4.1]; simp only [mm_8, mm_6, mm_4, md_8, md_64, md_4, Nat.div_one]
  · rw [c6.1]; simp only [mm_8, mm_6, mm_4, md_8, md_64, md_4, Nat.div_one]
  · rw [c8.1]; simp only [mm_8, mm_6, mm_4, md_8, md_64, md_4, Nat.div_one]

theorem ok_bind {α β : Type} (a : α) (f : α → Except Fault β) : (Except.ok a >>= f) = f a := rfl

theorem shift_pos {d m k l : Nat} (h : l + k = 2) (hm : 2 ≤ m) : d + m - k = d + (l + (m - 2)) := by
  omega

/-- `w_u32` writes the decimal representation. -/
theorem w_u32_spec {b : Buf} {d n : Nat} (hn : n < 2 ^ 32) (hd : d + 10 ≤ b.cap) :
    Writes (w_u32 b d n) b d (decimal n) := by
  unfold w_u32
  split
  · rename_i h
    obtain ⟨b1, e1, c1, u1, r1⟩ := lead_writes (b := b) (d := d) (q := n) h (by omega)
    rw [e1, ok_bind]
    refine ⟨b1, ?_, c1, u1, r1⟩
    rw [decimal_length2 h]
    show Except.ok _ = _
    unfold back
    split <;> rfl
  split
  · rename_i h1 h
    obtain ⟨v0, v2⟩ := digits4 h (by omega)
    try dsimp only at v0 v2
    have hk := lead_length (n := n) (q := n / 100) (N := 100) (l := 1000) (by omega) rfl rfl (by omega) rfl
    obtain ⟨b1, e1, c1, u1, r1⟩ := lead_writes (b := b) (d := d) (q := n / 100) (by omega) (by omega)
    try dsimp only
    rw [v0, v2, e1, ok_bind, shift_pos hk (by omega)]
    obtain ⟨b2, e2, c2, u2, r2⟩ := pair_writes (c := n % 100) (by omega) r1 c1 u1 (by omega)
    rw [show (decimal (n / 100)).length + (2 - 2) = (decimal (n / 100)).length by omega, e2, ok_bind]
    rw [← decimal_pair (by omega)] at r2
    refine ⟨b2, ?_, c2, u2, r2⟩
    have : (decimal n).length = (decimal (n / 100)).length + 2 := by
      rw [decimal_pair (n := n) (by omega)]; simp [two_length]
    show Except.ok _ = _
    congr 2; omega
  split
  · rename_i h0 h1 h
    obtain ⟨v0, v2, v4⟩ := digits6 h (by omega)
    try dsimp only at v0 v2 v4
    have hk := lead_length (n := n) (q := n / 10000) (N := 10000) (l := 100000) (by omega) rfl rfl (by omega) rfl
    obtain ⟨b1, e1, c1, u1, r1⟩ := lead_writes (b := b) (d := d) (q := n / 10000) (by omega) (by omega)
    have p1 := decimal_pair (n := n / 100) (by omega)
    have p2 := decimal_pair (n := n) (by omega)
    rw [show n / 100 / 100 = n / 10000 by omega] at p1
    have l1 := congrArg List.length p1
    have l2 := congrArg List.length p2
    simp only [List.length_append, two_length] at l1 l2
    try dsimp only
    rw [v0, v2, v4, e1, ok_bind, show d + 2 - back n 100000 = d + (decimal (n / 10000)).length by omega]
    obtain ⟨b2, e2, c2, u2, r2⟩ := pair_writes (c := n / 100 % 100) (by omega) r1 c1 u1 (by omega)
    rw [← p1] at r2
    rw [e2, ok_bind, show d + 4 - back n 100000 = d + (decimal (n / 100)).length by omega]
    obtain ⟨b3, e3, c3, u3, r3⟩ := pair_writes (c := n % 100) (by omega) r2 c2 u2 (by omega)
    rw [← p2] at r3
    rw [e3, ok_bind]
    refine ⟨b3, ?_, c3, u3, r3⟩
    show Except.ok _ = _
    congr 2; omega
  split
  · rename_i h0' h0 h1 h
    obtain ⟨v0, v2, v4, v6⟩ := digits8 h (by omega)
    try dsimp only at v0 v2 v4 v6
    have hk := lead_length (n := n) (q := n / 1000000) (N := 1000000) (l := 10000000) (by omega) rfl rfl (by omega) rfl
    obtain ⟨b1, e1, c1, u1, r1⟩ := lead_writes (b := b) (d := d) (q := n / 1000000) (by omega) (by omega)
    have p0 := decimal_pair (n := n / 10000) (by omega)
    have p1 := decimal_pair (n := n / 100) (by omega)
    have p2 := decimal_pair (n := n) (by omega)
    rw [show n / 10000 / 100 = n / 1000000 by omega] at p0
    rw [show n / 100 / 100 = n / 10000 by omega] at p1
    have l0 := congrArg List.length p0
    have l1 := congrArg List.length p1
    have l2 := congrArg List.length p2
    simp only [List.length_append, two_length] at l0 l1 l2
    try dsimp only
    rw [v0, v2, v4, v6, e1, ok_bind, show d + 2 - back n 10000000 = d + (decimal (n / 1000000)).length by omega]
    obtain ⟨b2, e2, c2, u2, r2⟩ := pair_writes (c := n / 10000 % 100) (by omega) r1 c1 u1 (by omega)
    rw [← p0] at r2
    rw [e2, ok_bind, show d + 4 - back n 10000000 = d + (decimal (n / 10000)).length by omega]
    obtain ⟨b3, e3, c3, u3, r3⟩ := pair_writes (c := n / 100 % 100) (by omega) r2 c2 u2 (by omega)
    rw [← p1] at r3
    rw [e3, ok_bind, show d + 6 - back n 10000000 = d + (decimal (n / 100)).length by omega]
    obtain ⟨b4, e4, c4, u4, r4⟩ := pair_writes (c := n % 100) (by omega) r3 c3 u3 (by omega)
    rw [← p2] at r4
    rw [e4, ok_bind]
    refine ⟨b4, ?_, c4, u4, r4⟩
    show Except.ok _ = _
    congr 2; omega
  · rename_i h0' h0 h1 h
    obtain ⟨v0, v2, v4, v6, v8⟩ := digits10 hn (by omega)
    try dsimp only at v0 v2 v4 v6 v8
    have hk := lead_length (n := n) (q := n / 100000000) (N := 100000000) (l := 1000000000) (by omega) rfl rfl (by omega) rfl
    obtain ⟨b1, e1, c1, u1, r1⟩ := lead_writes (b := b) (d := d) (q := n / 100000000) (by omega) (by omega)
    have pz := decimal_pair (n := n / 1000000) (by omega)
    have p0 := decimal_pair (n := n / 10000) (by omega)
    have p1 := decimal_pair (n := n / 100) (by omega)
    have p2 := decimal_pair (n := n) (by omega)
    rw [show n / 1000000 / 100 = n / 100000000 by omega] at pz
    rw [show n / 10000 / 100 = n / 1000000 by omega] at p0
    rw [show n / 100 / 100 = n / 10000 by omega] at p1
    have lz := congrArg List.length pz
    have l0 := congrArg List.length p0
    have l1 := congrArg List.length p1
    have l2 := congrArg List.length p2
    simp only [List.length_append, two_length] at lz l0 l1 l2
    try dsimp only
    rw [v0, v2, v4, v6, v8, e1, ok_bind, show d + 2 - back n 1000000000 = d + (decimal (n / 100000000)).length by omega]
    obtain ⟨b2, e2, c2, u2, r2⟩ := pair_writes (c := n / 1000000 % 100) (by omega) r1 c1 u1 (by omega)
    rw [← pz] at r2
    rw [e2, ok_bind, show d + 4 - back n 1000000000 = d + (decimal (n / 1000000)).length by omega]
    obtain ⟨b3, e3, c3, u3, r3⟩ := pair_writes (c := n / 10000 % 100) (by omega) r2 c2 u2 (by omega)
    rw [← p0] at r3
    rw [e3, ok_bind, show d + 6 - back n 1000000000 = d + (decimal (n / 10000)).length by omega]
    obtain ⟨b4, e4, c4, u4, r4⟩ := pair_writes (c := n / 100 % 100) (by omega) r3 c3 u3 (by omega)
    rw [← p1] at r4
    rw [e4, ok_bind, show d + 8 - back n 1000000000 = d + (decimal (n / 100)).length by omega]
    obtain ⟨b5, e5, c5, u5, r5⟩ := pair_writes (c := n % 100) (by omega) r4 c4 u4 (by omega)
    rw [← p2] at r5
    rw [e5, ok_bind]
    refine ⟨b5, ?_, c5, u5, r5⟩
    show Except.ok _ = _
    congr 2; omega

theorem decimal_length_le {n k : Nat} (hk : 0 < k) (h : n < 10 ^ k) : (decimal n).length ≤ k := by
  rw [decimal, List.length_map]
  exact (Nat.length_toDigits_le_iff (by omega) hk).2 h

theorem decimal_pos (n : Nat) : 0 < (decimal n).length := by
  rw [decimal, List.length_map]; exact Nat.length_toDigits_pos

/-- Eight digits behind a number above zero. -/
theorem eight_writes {b b0 : Buf} {d z : Nat} {t s : List Nat} (hz : z < 100000000)
    (hs : b.read 0 (d + s.length) = t ++ s) (hcap : b.cap = b0.cap) (hcur : b.cur = b0.cur)
    (h : d + s.length + 8 ≤ b.cap) :
    let r := s ++ two (z / 1000000) ++ two (z / 10000 % 100) ++ two (z / 100 % 100) ++ two (z % 100)
    ∃ b', eightDigits b (d + s.length) z = .ok b' ∧ b'.cap = b0.cap ∧ b'.cur = b0.cur ∧
      b'.read 0 (d + r.length) = t ++ r := by
  intro r
  obtain ⟨v0, v2, v4, v6⟩ := digits8z hz
  try dsimp only at v0 v2 v4 v6
  unfold eightDigits
  try dsimp only
  rw [v0, v2, v4, v6]
  obtain ⟨b2, e2, c2, u2, r2⟩ := pair_writes (c := z / 1000000) (by omega) hs hcap hcur (by omega)
  rw [e2, ok_bind]
  obtain ⟨b3, e3, c3, u3, r3⟩ := pair_writes (c := z / 10000 % 100) (by omega) r2 c2 u2
    (by simp [two_length]; omega)
  rw [show d + (s ++ two (z / 1000000)).length = d + s.length + 2 by simp [two_length]; omega] at e3
  rw [e3, ok_bind]
  obtain ⟨b4, e4, c4, u4, r4⟩ := pair_writes (c := z / 100 % 100) (by omega) r3 c3 u3
    (by simp [two_length]; omega)
  rw [show d + (s ++ two (z / 1000000) ++ two (z / 10000 % 100)).length = d + s.length + 4 by
    simp [two_length]; omega] at e4
  rw [e4, ok_bind]
  obtain ⟨b5, e5, c5, u5, r5⟩ := pair_writes (c := z % 100) (by omega) r4 c4 u4
    (by simp [two_length]; omega)
  rw [show d + (s ++ two (z / 1000000) ++ two (z / 10000 % 100) ++ two (z / 100 % 100)).length =
    d + s.length + 6 by simp [two_length]; omega] at e5
  exact ⟨b5, e5, c5, u5, r5⟩

theorem decimal_eight {n : Nat} (h : 100000000 ≤ n) : decimal n =
    decimal (n / 100000000) ++ two (n % 100000000 / 1000000) ++ two (n % 100000000 / 10000 % 100) ++
      two (n % 100000000 / 100 % 100) ++ two (n % 100000000 % 100) := by
  rw [decimal_pair (n := n) (by omega), decimal_pair (n := n / 100) (by omega),
    decimal_pair (n := n / 100 / 100) (by omega), decimal_pair (n := n / 100 / 100 / 100) (by omega)]
  have a0 : n / 100 / 100 / 100 / 100 = n / 100000000 := by simp [Nat.div_div_eq_div_mul]
  have a1 : n / 100 / 100 / 100 % 100 = n % 100000000 / 1000000 := by
    rw [md_8]; simp [Nat.div_div_eq_div_mul]
  have a2 : n / 100 / 100 % 100 = n % 100000000 / 10000 % 100 := by
    rw [← mm_8 n |> fun h => (by
      have := md_64 (n % 100000000)
      rw [h, md_64] at this
      exact this : n / 10000 % 100 = n % 100000000 / 10000 % 100)]
    simp [Nat.div_div_eq_div_mul]
  have a3 : n / 100 % 100 = n % 100000000 / 100 % 100 := by
    have := md_4 (n % 100000000)
    rw [← mm_6 (n % 100000000), mm_8, mm_6, md_4] at this
    exact this
  have a4 : n % 100 = n % 100000000 % 100 := (Nat.mod_mod_of_dvd n ⟨1000000, rfl⟩).symm
  rw [a0, a1, a2, a3, a4]

/-- `w_u64` writes the decimal representation. -/
theorem w_u64_spec {b : Buf} {d : Nat} (n : Nat) (hn : n < 2 ^ 64) (hd : d + (decimal n).length ≤ b.cap)
    (hd2 : d + 10 ≤ b.cap) : Writes (w_u64 b d n) b d (decimal n) := by
  induction n using Nat.strong_induction_on with
  | _ n ih =>
    rw [w_u64]
    split
    · rename_i h
      exact w_u32_spec (by omega) hd2
    · rename_i h
      have hl := congrArg List.length (decimal_eight (n := n) (by omega))
      simp only [List.length_append, two_length] at hl
      obtain ⟨b1, e1, c1, u1, r1⟩ := ih (n / 100000000) (by omega) (by omega) (by omega)
      obtain ⟨b2, e2, c2, u2, r2⟩ := eight_writes (z := n % 100000000) (by omega) r1 c1 u1 (by omega)
      rw [← decimal_eight (by omega)] at r2
      refine ⟨b2, ?_, c2, u2, r2⟩
      try dsimp only
      rw [e1, ok_bind]
      show (eightDigits b1 _ _ >>= _) = _
      rw [e2, ok_bind]
      show Except.ok _ = _
      congr 2; omega

end Verif.StrBuf
