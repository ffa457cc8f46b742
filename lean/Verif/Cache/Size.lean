import Mathlib.Tactic.NormNum
import Mathlib.Tactic.Common

/-!
# C38: the size limit of the kernel cache (`DRJIT_CACHE_MAXSIZE`)

Model of `jitc_cache_parse_size` (`/repo/src/io.cpp`), a specification, and the proof.  A C string
is the list of its characters before the terminator.
-/
namespace Verif.Cache

/-- `SIZE_MAX` and `ULLONG_MAX` (64-bit platform) -/
def sizeMax : Nat := 2 ^ 64 - 1

/-- `isspace` in the "C" locale (C11, 7.4.1.10) -/
def isSpace (c : Char) : Bool := c = ' ' || (9 ≤ c.toNat && c.toNat ≤ 13)
/-- Decimal digits -/
def isDig (c : Char) : Bool := '0'.toNat ≤ c.toNat && c.toNat ≤ '9'.toNat

/-- Value of a digit sequence, most significant digit first, continuing from `acc` -/
def digits (acc : Nat) : List Char → Nat
  | [] => acc
  | c :: cs => digits (acc * 10 + (c.toNat - '0'.toNat)) cs

/-- `strtoull(value, &end, 10)` (C11, 7.22.1.4): the result, the text from `end` on (`none` if no
conversion was performed, i.e. `end == value`) and whether `errno` was set.  -/
def strtoull (s : List Char) : Nat × Option (List Char) × Bool :=
  let t := s.dropWhile isSpace
  let neg := t.head? = some '-'
  let u := if t.head? = some '-' ∨ t.head? = some '+' then t.tail else t
  let ds := u.takeWhile isDig
  let rest := u.dropWhile isDig
  if ds = [] then (0, none, false)
  else
    let v := digits 0 ds
    if v > sizeMax then (sizeMax, some rest, true)
    else if neg then ((2 ^ 64 - v) % 2 ^ 64, some rest, false)
    else (v, some rest, false)

/-- `jitc_cache_parse_size` (io.cpp:155-181) -/
def parseSize (value : List Char) : Nat :=
  if value.head? = some '-' then sizeMax
  else match strtoull value with
    | (result, end?, errno) =>
      match end? with
      | none => sizeMax
      | some e =>
        if errno then sizeMax
        else
          let cont (scale : Nat) (e : List Char) : Nat :=
            if e ≠ [] ∨ result > sizeMax / scale then sizeMax else result * scale
          match e with
          | [] => cont 1 []
          | c :: cs =>
            if c = 'k' ∨ c = 'K' then cont (2 ^ 10) cs
            else if c = 'm' ∨ c = 'M' then cont (2 ^ 20) cs
            else if c = 'g' ∨ c = 'G' then cont (2 ^ 30) cs
            else sizeMax

/-! ### Specification -/

/-- Decimal value of a list of digits -/
def decimal (ds : List Char) : Nat := ds.foldl (fun a c => a * 10 + (c.toNat - '0'.toNat)) 0

/-- Factor denoted by a suffix -/
inductive Suffix : List Char → Nat → Prop
  | none : Suffix [] 1
  | k (c : Char) : c = 'k' ∨ c = 'K' → Suffix [c] (2 ^ 10)
  | m (c : Char) : c = 'm' ∨ c = 'M' → Suffix [c] (2 ^ 20)
  | g (c : Char) : c = 'g' ∨ c = 'G' → Suffix [c] (2 ^ 30)

/-- `s` denotes the size `n`: optional blanks, an optional plus sign, digits and an optional unit -/
def Denotes (s : List Char) (n : Nat) : Prop :=
  ∃ ws plus ds suf f, s = ws ++ plus ++ ds ++ suf ∧ (∀ c ∈ ws, isSpace c) ∧ (plus = [] ∨ plus = ['+']) ∧
    ds ≠ [] ∧ (∀ c ∈ ds, isDig c) ∧ Suffix suf f ∧ n = decimal ds * f

/-! ### Proof -/

theorem digits_eq (ds : List Char) : ∀ a, digits a ds = ds.foldl (fun a c => a * 10 + (c.toNat - '0'.toNat)) a := by
  induction ds with
  | nil => intro a; rfl
  | cons c cs ih => intro a; exact ih _

theorem dropWhile_append_of {p : Char → Bool} {l r : List Char} (hl : ∀ c ∈ l, p c) (hr : ∀ c ∈ r.head?, p c = false) :
    (l ++ r).dropWhile p = r ∧ (l ++ r).takeWhile p = l := by
  induction l with
  | nil =>
    cases r with
    | nil => simp
    | cons c cs => have := hr c (by simp); simp [this]
  | cons c cs ih =>
    have h1 := hl c (by simp)
    have h2 := ih (fun c hc => hl c (by simp [hc]))
    simp [h1, h2]

theorem dig_not_space {c : Char} (h : isDig c) : isSpace c = false := by
  unfold isDig isSpace at *
  simp only [Bool.and_eq_true, decide_eq_true_eq] at h
  have h0 : '0'.toNat = 48 := rfl
  have h9 : '9'.toNat = 57 := rfl
  rw [h0, h9] at h
  simp only [Bool.or_eq_false_iff, decide_eq_false_iff_not, Bool.and_eq_false_iff, not_le]
  refine ⟨?_, by omega⟩
  rintro rfl
  have : ' '.toNat = 32 := rfl
  omega

theorem suffix_not_dig {suf : List Char} {f : Nat} (h : Suffix suf f) : ∀ c ∈ suf.head?, isDig c = false := by
  cases h with
  | none => simp
  | k c h => rcases h with rfl | rfl <;> decide
  | m c h => rcases h with rfl | rfl <;> decide
  | g c h => rcases h with rfl | rfl <;> decide

/-- What the parser computes once the leading blanks and sign are gone -/
theorem tail_spec {ds suf : List Char} {f : Nat} (hd : ds ≠ []) (hdig : ∀ c ∈ ds, isDig c) (hs : Suffix suf f) {ws plus : List Char}
    (hw : ∀ c ∈ ws, isSpace c) (hp : plus = [] ∨ plus = ['+']) :
    strtoull (ws ++ plus ++ ds ++ suf) =
      if decimal ds > sizeMax then (sizeMax, some suf, true) else (decimal ds, some suf, false) := by
  obtain ⟨d, ds', rfl⟩ : ∃ d ds', ds = d :: ds' := by
    cases ds with
    | nil => exact absurd rfl hd
    | cons d ds' => exact ⟨d, ds', rfl⟩
  have hd0 := hdig d (by simp)
  have hdm : d ≠ '-' := by rintro rfl; revert hd0; decide
  have hdp : d ≠ '+' := by rintro rfl; revert hd0; decide
  obtain ⟨e1, -⟩ := dropWhile_append_of (p := isSpace) (l := ws) (r := plus ++ (d :: ds') ++ suf) hw (by
    intro c hc
    rcases hp with rfl | rfl
    · simp at hc; subst hc; exact dig_not_space hd0
    · simp at hc; subst hc; decide)
  obtain ⟨e2, e3⟩ := dropWhile_append_of (p := isDig) (l := d :: ds') (r := suf) hdig (suffix_not_dig hs)
  unfold strtoull
  rw [show ws ++ plus ++ (d :: ds') ++ suf = ws ++ (plus ++ (d :: ds') ++ suf) by simp, e1]
  have key : (if (plus ++ (d :: ds') ++ suf).head? = some '-' ∨ (plus ++ (d :: ds') ++ suf).head? = some '+'
      then (plus ++ (d :: ds') ++ suf).tail else plus ++ (d :: ds') ++ suf) = (d :: ds') ++ suf ∧
      (plus ++ (d :: ds') ++ suf).head? ≠ some '-' := by
    rcases hp with rfl | rfl
    · simp [hdm, hdp]
    · simp
  obtain ⟨k1, k2⟩ := key
  dsimp only
  rw [k1, e2, e3, if_neg (by simp), if_neg k2]
  unfold decimal
  rw [digits_eq]

theorem le_scale {r f : Nat} (hf : 0 < f) : r > sizeMax / f ↔ sizeMax < r * f := by
  rw [gt_iff_lt, Nat.div_lt_iff_lt_mul hf]

theorem suffix_pos {suf : List Char} {f : Nat} (h : Suffix suf f) : 0 < f := by
  cases h <;> norm_num

theorem parse_of_denotes {s : List Char} {n : Nat} (h : Denotes s n) : parseSize s = min n sizeMax := by
  obtain ⟨ws, plus, ds, suf, f, rfl, hw, hp, hd, hdig, hs, rfl⟩ := h
  have hhead : (ws ++ plus ++ ds ++ suf).head? ≠ some '-' := by
    cases ws with
    | cons c cs => have := hw c (by simp); simp; rintro rfl; revert this; decide
    | nil =>
      rcases hp with rfl | rfl
      · cases ds with
        | nil => exact absurd rfl hd
        | cons d ds => have := hdig d (by simp); simp; rintro rfl; revert this; decide
      · simp
  unfold parseSize
  rw [if_neg hhead, tail_spec hd hdig hs hw hp]
  have hf := suffix_pos hs
  by_cases hbig : decimal ds > sizeMax
  · rw [if_pos hbig]
    dsimp only
    rw [if_pos rfl, min_eq_right]
    exact Nat.le_trans (Nat.le_of_lt hbig) (Nat.le_mul_of_pos_right _ hf)
  · rw [if_neg hbig]
    dsimp only
    rw [if_neg (by simp)]
    have fin : (if ([] : List Char) ≠ [] ∨ decimal ds > sizeMax / f then sizeMax else decimal ds * f) = min (decimal ds * f) sizeMax := by
      by_cases h : sizeMax < decimal ds * f
      · rw [if_pos (Or.inr ((le_scale hf).2 h)), min_eq_right (Nat.le_of_lt h)]
      · rw [if_neg (by rintro (h2 | h2); exacts [h2 rfl, h ((le_scale hf).1 h2)]), min_eq_left (by omega)]
    cases hs with
    | none => exact fin
    | k c h => dsimp only; rw [if_pos h]; exact fin
    | m c h =>
      dsimp only
      rw [if_neg (by rcases h with rfl | rfl <;> decide), if_pos h]; exact fin
    | g c h =>
      dsimp only
      rw [if_neg (by rcases h with rfl | rfl <;> decide), if_neg (by rcases h with rfl | rfl <;> decide), if_pos h]; exact fin

theorem denotes_of_parse {s : List Char} (hm : '-' ∉ s ∨ s.head? = some '-') (h : parseSize s ≠ sizeMax) :
    ∃ n, Denotes s n := by
  unfold parseSize at h
  by_cases hh : s.head? = some '-'
  · rw [if_pos hh] at h; exact absurd rfl h
  have hm : '-' ∉ s := by simpa [hh] using hm
  rw [if_neg hh] at h
  unfold strtoull at h
  dsimp only at h
  have e1 := List.takeWhile_append_dropWhile (p := isSpace) (l := s)
  have w1 : ∀ c ∈ s.takeWhile isSpace, isSpace c := fun c hc => by
    have := List.all_takeWhile (p := isSpace) (l := s); rw [List.all_eq_true] at this; exact this c hc
  generalize s.takeWhile isSpace = ws at *
  have hmt : '-' ∉ s.dropWhile isSpace := by
    intro hc; apply hm; rw [← e1]; simp [hc]
  generalize s.dropWhile isSpace = t at *
  have hnm : t.head? ≠ some '-' := by
    intro hc; exact hmt (List.mem_of_head? hc)
  obtain ⟨plus, u, hp, e2, e3⟩ : ∃ plus u, (plus = [] ∨ plus = ['+']) ∧ t = plus ++ u ∧
      (if t.head? = some '-' ∨ t.head? = some '+' then t.tail else t) = u := by
    by_cases hc : t.head? = some '+'
    · refine ⟨['+'], t.tail, Or.inr rfl, ?_, by simp [hc]⟩
      cases t with
      | nil => simp at hc
      | cons a b => simp at hc; simp [hc]
    · exact ⟨[], t, Or.inl rfl, rfl, by simp [hc, hnm]⟩
  rw [e3, if_neg (c := (t.head? = some '-')) hnm] at h
  have e4 := List.takeWhile_append_dropWhile (p := isDig) (l := u)
  have w2 : ∀ c ∈ u.takeWhile isDig, isDig c := fun c hc => by
    have := List.all_takeWhile (p := isDig) (l := u); rw [List.all_eq_true] at this; exact this c hc
  generalize u.takeWhile isDig = ds at *
  generalize u.dropWhile isDig = suf at *
  subst e4 e2 e1
  by_cases hds : ds = []
  · rw [if_pos hds] at h; exact absurd rfl h
  rw [if_neg hds] at h
  have hsuf : ∃ f, Suffix suf f := by
    rcases suf with _ | ⟨c, cs⟩
    · exact ⟨_, Suffix.none⟩
    · by_cases hb : digits 0 ds > sizeMax
      · rw [if_pos hb] at h; exact absurd rfl h
      rw [if_neg hb] at h
      dsimp only at h
      rw [if_neg (by simp)] at h
      split at h
      · rename_i hc
        cases cs with
        | nil => exact ⟨_, Suffix.k c hc⟩
        | cons => simp at h
      · split at h
        · rename_i hc
          cases cs with
          | nil => exact ⟨_, Suffix.m c hc⟩
          | cons => simp at h
        · split at h
          · rename_i hc
            cases cs with
            | nil => exact ⟨_, Suffix.g c hc⟩
            | cons => simp at h
          · exact absurd rfl h
  obtain ⟨f, hf⟩ := hsuf
  exact ⟨_, ws, plus, ds, suf, f, by simp, w1, hp, hds, w2, hf, rfl⟩

theorem decimal_unique {s : List Char} {n m : Nat} (h1 : Denotes s n) (h2 : Denotes s m) : min n sizeMax = min m sizeMax := by
  rw [← parse_of_denotes h1, ← parse_of_denotes h2]

/-- **C38.**  For every string that denotes a size, the parser returns that size, saturating at
`SIZE_MAX`. -/
theorem C38_exact {s : List Char} {n : Nat} (h : Denotes s n) : parseSize s = min n sizeMax :=
  parse_of_denotes h

/-- **C38 (partial).**  Every other string is rejected (`SIZE_MAX`).  What is missing: strings with
a minus sign that is not the first character, see `C38_negative_accepted`. -/
theorem C38_reject_partial {s : List Char} (hm : '-' ∉ s ∨ s.head? = some '-') (h : ¬ ∃ n, Denotes s n) :
    parseSize s = sizeMax :=
  Classical.byContradiction fun hc => h (denotes_of_parse hm hc)

/-- The code says "strtoull() would quietly wrap a negative value into a huge budget", and rejects
strings starting with a minus sign.  With a blank in front, the value still wraps around: a limit
of -5 bytes is accepted as 2^64 - 5 bytes. -/
theorem C38_negative_accepted :
    parseSize " -5".toList = 2 ^ 64 - 5 ∧ ¬ ∃ n, Denotes " -5".toList n := by
  refine ⟨by decide +kernel, ?_⟩
  rintro ⟨n, h⟩
  have hp := parse_of_denotes h
  obtain ⟨ws, plus, ds, suf, f, e, hw, hp', hd, hdig, hs, -⟩ := h
  have hm : '-' ∈ ws ++ plus ++ ds ++ suf := by rw [← e]; decide
  simp only [List.mem_append] at hm
  rcases hm with ((hm | hm) | hm) | hm
  · have := hw _ hm; revert this; decide
  · rcases hp' with rfl | rfl
    · simp at hm
    · revert hm; decide
  · have := hdig _ hm; revert this; decide
  · cases hs with
    | none => simp at hm
    | k c h => rcases h with rfl | rfl <;> (revert hm; decide)
    | m c h => rcases h with rfl | rfl <;> (revert hm; decide)
    | g c h => rcases h with rfl | rfl <;> (revert hm; decide)

example : Denotes " +12k".toList (12 * 2 ^ 10) :=
  ⟨[' '], ['+'], ['1', '2'], ['k'], 2 ^ 10, rfl, by decide, Or.inr rfl, by decide, by decide, .k 'k' (Or.inl rfl), rfl⟩
example : parseSize "12k".toList = 12288 ∧ parseSize "3G".toList = 3221225472 ∧ parseSize "12kb".toList = sizeMax ∧
    parseSize "20000000000G".toList = sizeMax ∧ parseSize "99999999999999999999999".toList = sizeMax ∧ parseSize "-1".toList = sizeMax := by
  decide +kernel

end Verif.Cache
