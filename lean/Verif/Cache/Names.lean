import Verif.Cache.Sweep
import Mathlib.Data.List.Basic

/-!
# File names of the kernel cache are distinct

Justifies the abstract names used in `Verif.Cache.Crash`.
-/
namespace Verif.Cache

/-- `k` hexadecimal digits of a number -/
def hexd : Nat → Nat → List Char
  | 0, _ => []
  | k + 1, n => hexd k (n / 16) ++ [Nat.digitChar (n % 16)]

/-- `%016llx` (for numbers below 2^64) -/
def hex16 (n : Nat) : List Char := hexd 16 n

/-- `jitc_cache_entry` (io.cpp:134-149), for the LLVM backend -/
def entryName (high low : Nat) : List Char := hex16 high ++ hex16 low ++ ".llvm.v6.bin".toList

/-- The temporary file of process `pid` (io.cpp:446-449) -/
def tmpName (high low pid : Nat) : List Char :=
  entryName high low ++ ('.' :: Nat.toDigits 10 pid ++ ".tmp".toList)

/-- `DRJIT_CACHE_STAMP` (io.cpp:50) -/
def stampName : List Char := "sweep.stamp".toList

theorem hexd_length (k n : Nat) : (hexd k n).length = k := by
  induction k generalizing n with
  | zero => rfl
  | succ k ih => simp [hexd, ih]

theorem hex16_length (n : Nat) : (hex16 n).length = 16 := hexd_length 16 n

theorem digit_inj : ∀ a < 16, ∀ b < 16, Nat.digitChar a = Nat.digitChar b → a = b := by decide

theorem hexd_inj (k : Nat) : ∀ {m n : Nat}, m < 16 ^ k → n < 16 ^ k → hexd k m = hexd k n → m = n := by
  induction k with
  | zero => intro m n hm hn _; simp at hm hn; omega
  | succ k ih =>
    intro m n hm hn h
    unfold hexd at h
    obtain ⟨h1, h2⟩ := List.append_inj h (by rw [hexd_length, hexd_length])
    rw [Nat.pow_succ] at hm hn
    have e1 := ih (Nat.div_lt_of_lt_mul (by rw [Nat.mul_comm]; exact hm)) (Nat.div_lt_of_lt_mul (by rw [Nat.mul_comm]; exact hn)) h1
    injection h2 with h2 _
    have e2 := digit_inj _ (Nat.mod_lt _ (by norm_num)) _ (Nat.mod_lt _ (by norm_num)) h2
    rw [← Nat.div_add_mod m 16, ← Nat.div_add_mod n 16, e1, e2]

theorem hex16_inj {m n : Nat} (hm : m < 2 ^ 64) (hn : n < 2 ^ 64) (h : hex16 m = hex16 n) : m = n :=
  hexd_inj 16 (lt_of_lt_of_eq hm (by norm_num)) (lt_of_lt_of_eq hn (by norm_num)) h

theorem dec_inj {m n : Nat} (h : Nat.toDigits 10 m = Nat.toDigits 10 n) : m = n := by
  have := congrArg (fun l => Nat.ofDigitChars 10 l 0) h
  simpa only [Nat.ofDigitChars_ten_toDigits] using this

/-- Different hash values have different entries -/
theorem entryName_inj {a b c d : Nat} (ha : a < 2 ^ 64) (hb : b < 2 ^ 64) (hc : c < 2 ^ 64) (hd : d < 2 ^ 64)
    (h : entryName a b = entryName c d) : a = c ∧ b = d := by
  unfold entryName at h
  rw [List.append_assoc, List.append_assoc] at h
  obtain ⟨e1, e2⟩ := List.append_inj h (by rw [hex16_length a, hex16_length c])
  obtain ⟨e3, _⟩ := List.append_inj e2 (by rw [hex16_length b, hex16_length d])
  exact ⟨hex16_inj ha hc e1, hex16_inj hb hd e3⟩

/-- Temporary names differ if the hash value or the process differs -/
theorem tmpName_inj {a b c d p q : Nat} (ha : a < 2 ^ 64) (hb : b < 2 ^ 64) (hc : c < 2 ^ 64) (hd : d < 2 ^ 64)
    (h : tmpName a b p = tmpName c d q) : a = c ∧ b = d ∧ p = q := by
  unfold tmpName at h
  have hl : (entryName a b).length = (entryName c d).length := by
    simp [entryName, hex16_length a, hex16_length b, hex16_length c, hex16_length d]
  obtain ⟨e1, e2⟩ := List.append_inj h hl
  obtain ⟨r1, r2⟩ := entryName_inj ha hb hc hd e1
  refine ⟨r1, r2, ?_⟩
  have e3 := List.append_cancel_right e2
  rw [List.cons.injEq] at e3
  exact dec_inj e3.2

/-- Temporary files, entries and the stamp are told apart by their extension; only entries are
subject to eviction. -/
theorem names_extension (a b p : Nat) :
    extension (entryName a b) = ".bin".toList ∧ extension (tmpName a b p) ≠ ".bin".toList ∧
      extension stampName ≠ ".bin".toList := by
  refine ⟨?_, ?_, by decide⟩
  · rw [extension_bin]
    exact ⟨by simp [entryName, hex16_length], ⟨hex16 a ++ hex16 b ++ ".llvm.v6".toList, by simp [entryName]⟩⟩
  · rw [Ne, extension_bin]
    rintro ⟨-, q, hq⟩
    have := congrArg List.reverse hq
    simp [tmpName] at this

theorem entry_ne_tmp (a b c d p : Nat) : entryName a b ≠ tmpName c d p := by
  intro h
  have h1 := (names_extension a b 0).1
  rw [h] at h1
  exact (names_extension c d p).2.1 h1

example : entryName 0x1234 0xabcdef = "0000000000001234".toList ++ "0000000000abcdef".toList ++ ".llvm.v6.bin".toList := by decide

end Verif.Cache
