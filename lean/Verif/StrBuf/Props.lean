import Verif.StrBuf.Ops
import Mathlib.Tactic.FinCases

/-!
# Properties of the string buffer

* C29: decimal formatting of integers is exact.
* C30: hexadecimal formatting of integers is exact.
* C31: the buffer never overflows, contains what was written, and is terminated — the latter
  except after `put_u32`, `put_u64`, `put_x32`, `put_x64` and `delete_trailing_commas`.
* C32: the space reserved by the backend-specific formatters suffices.
-/

namespace Verif.StrBuf

/-- For examples: an execution that succeeds, and a property of its result -/
theorem runs {ε α β : Type} {r : Except ε α} {f : α → β} {y : β} (h : r.toOption.map f = some y) :
    ∃ a, r = .ok a ∧ f a = y := by
  cases r with
  | ok a => exact ⟨a, rfl, by simpa [Except.toOption] using h⟩
  | error e => simp [Except.toOption] at h

/-! ### C29: decimal numbers -/

/-- Lean prints natural numbers with the digits used in the specification. -/
theorem C29_spec_toString (n : Nat) : decimal n = bytes (toString n) := by
  show _ = bytes (Nat.repr n)
  unfold bytes
  rw [Nat.repr]
  simp [decimal]

/-- `put_u32` appends the decimal digits of any 32-bit number, at any position of any buffer. -/
theorem C29_put_u32 (b : Buf) (n : Nat) (hn : n < 2 ^ 32) :
    ∃ b', putU32 b n = .ok b' ∧ b'.text = b.text ++ bytes (toString n) := by
  obtain ⟨b', e, _, t, _⟩ := atCur_result (b := b) (w := (w_u32 · · n)) (dec32 hn)
    fun c hc => w_u32_spec (b := c) (d := c.cur) hn (by omega)
  exact ⟨b', e, by rw [t, C29_spec_toString]⟩

/-- `put_u64` appends the decimal digits of any 64-bit number. -/
theorem C29_put_u64 (b : Buf) (n : Nat) (hn : n < 2 ^ 64) :
    ∃ b', putU64 b n = .ok b' ∧ b'.text = b.text ++ bytes (toString n) := by
  have := dec64 hn
  obtain ⟨b', e, _, t, _⟩ := atCur_result (b := b) (w := (w_u64 · · n)) this
    fun c hc => w_u64_spec (b := c) (d := c.cur) n hn (by omega) (by omega)
  exact ⟨b', e, by rw [t, C29_spec_toString]⟩

/-- The digits determine the number: distinct numbers give distinct texts. -/
theorem C29_injective {m n : Nat} (h : decimal m = decimal n) : m = n := by
  have h1 : Nat.toDigits 10 m = Nat.toDigits 10 n := by
    have hi : Function.Injective Char.toNat := fun a b h => Char.toNat_inj.1 h
    exact List.map_injective_iff.2 hi h
  have := congrArg (fun l => Nat.ofDigitChars 10 l 0) h1
  simpa only [Nat.ofDigitChars_ten_toDigits] using this

example : ∃ b', putU32 (new 0 fun _ => 0) 4294967295 = .ok b' ∧ b'.text = bytes "4294967295" :=
  runs (by decide +kernel)
example : ∃ b', putU64 (new 3 fun _ => 7) 18446744073709551615 = .ok b' ∧
    b'.text = bytes "18446744073709551615" := by
  obtain ⟨b', e, t⟩ := C29_put_u64 (new 3 fun _ => 7) 18446744073709551615 (by norm_num)
  exact ⟨b', e, by rw [t]; decide⟩

/-! ### C30: hexadecimal numbers -/

/-- `put_x32` and `put_x64` append the hexadecimal digits without leading zeros. -/
theorem C30_put_x32 (b : Buf) (n : Nat) (hn : n < 2 ^ 32) :
    ∃ b', putX32 b n = .ok b' ∧ b'.text = b.text ++ (Nat.toDigits 16 n).map Char.toNat := by
  have := hex32 hn
  obtain ⟨b', e, _, t, _⟩ := atCur_result (b := b) (w := (w_x64 · · n)) this
    fun c hc => w_x64_spec (b := c) (d := c.cur) (n := n) (by omega) (by omega)
  exact ⟨b', e, t⟩

theorem C30_put_x64 (b : Buf) (n : Nat) (hn : n < 2 ^ 64) :
    ∃ b', putX64 b n = .ok b' ∧ b'.text = b.text ++ (Nat.toDigits 16 n).map Char.toNat := by
  have := hex64 hn
  obtain ⟨b', e, _, t, _⟩ := atCur_result (b := b) (w := (w_x64 · · n)) this
    fun c hc => w_x64_spec (b := c) (d := c.cur) (n := n) hn (by omega)
  exact ⟨b', e, t⟩

/-- The fixed-width form (`$Q` of the formatters) has 16 digits, padded with zeros. -/
theorem C30_q64 (b : Buf) (d n : Nat) (hn : n < 2 ^ 64) (hd : d + 16 ≤ b.cap) :
    ∃ b', w_q64 b d n = .ok (b', d + 16) ∧
      b'.read d 16 = List.replicate (16 - (hex n).length) 48 ++ hex n ∧ b'.read 0 d = b.read 0 d := by
  obtain ⟨b', e, _, u, r⟩ := w_q64_spec (b := b) (d := d) hn hd
  have hl := hex16_length hn
  rw [hl] at e r
  refine ⟨b', e, ?_, ?_⟩
  · show b'.read d 16 = hex16 n
    have := congrArg (List.drop d) r
    rw [read_drop _ _ (by omega), List.drop_append_of_le_length (by simp),
      List.drop_of_length_le (by simp)] at this
    simpa using this
  · have := congrArg (List.take d) r
    rw [read_take _ _ (by omega), List.take_append_of_le_length (by simp),
      List.take_of_length_le (by simp)] at this
    exact this

example : ∃ b', putX64 (new 3 fun _ => 7) 0xdeadbeef01234567 = .ok b' ∧
    b'.text = bytes "deadbeef01234567" :=
  runs (by decide +kernel)
example : ∃ b', w_q64 (new 16 fun _ => 7) 0 0xbeef = .ok b' ∧
    b'.1.read 0 16 = bytes "000000000000beef" := runs (f := fun b' : Buf × Nat => b'.1.read 0 16) (by decide +kernel)

/-! ### C32: the formatters -/

/-- For every format string and every list of arguments it matches, the formatters append the
text described by them and terminate the string, without leaving the allocation. -/
theorem C32_format {e : Env} (he : e.inRange) (be : Backend) (b : Buf) (f : List Nat) (args : List Arg)
    {t : List Nat} (hf : ∀ c ∈ f, c < 256) (ha : ∀ a ∈ args, a.inRange) (h : render e be f args = some t) :
    ∃ b', fmtBackend e be b f args = .ok b' ∧ b'.text = b.text ++ t ∧ b'.cur < b'.cap ∧ b'.byte b'.cur = 0 := by
  obtain ⟨b', e1, g, t1, z⟩ := fmtBackend_result he (b := b) hf ha h
  by_cases hc : b'.cap = 0
  · -- the reserved space is nonempty
    exfalso
    obtain ⟨h1, h2, h3⟩ := reserve_spec (b := b) (fmtBound f.length args.length)
    unfold fmtBackend at e1
    dsimp only at e1
    generalize reserve b (fmtBound f.length args.length) = c at *
    obtain ⟨b2, e2, l1, l2, r⟩ := loop_spec he be args.length f.length f args 0 c c.cur t rfl hf ha (by omega) h1 h
    rw [e2, ok_bind] at e1
    dsimp only at e1
    rw [if_neg (by simp), store_ok (by simp; omega), ok_bind] at e1
    cases e1
    have : b2.cap = 0 := hc
    omega
  · refine ⟨b', e1, t1, ?_, z rfl hc⟩
    rcases g with h | h
    · exact h
    · exact absurd h.1 hc

/-- Total length of the string arguments, for which the formatters reserve space separately -/
def strArgs : List Arg → Nat
  | [] => 0
  | .str s :: l => s.length + strArgs l
  | _ :: l => strArgs l

theorem C32_bound_aux {e : Env} (he : e.inRange) (be : Backend) (n : Nat) :
    ∀ (f : List Nat) (args : List Arg) (t : List Nat), f.length = n → (∀ a ∈ args, a.inRange) →
    render e be f args = some t → t.length ≤ fmtBound f.length args.length + strArgs args := by
  induction n using Nat.strong_induction_on with
  | _ n ih =>
    intro f args t hn ha h
    match f, args with
    | [], [] => simp [render] at h; subst h; simp
    | [], _ :: _ => simp [render] at h
    | x :: p, args =>
      simp only [List.length_cons] at hn
      by_cases hx : x = 36
      · subst hx
        match p with
        | [] => simp [render] at h
        | c :: p =>
          simp only [List.length_cons] at hn
          rw [render_dollar] at h
          cases hpt : plainText e be (Char.ofNat c) with
          | some tt =>
            rw [hpt] at h
            obtain ⟨t2, ht2, rfl⟩ := Option.map_eq_some_iff.1 h
            obtain ⟨ps, ep, hok, htx, hnd⟩ := plain_produces he args hpt
            have hle := texts_le hok
            have := ih p.length (by omega) p args t2 rfl ha ht2
            rw [htx] at hle
            simp only [fmtBound, List.length_cons, List.length_append] at *
            omega
          | none =>
            rw [hpt] at h
            cases args with
            | nil => simp at h
            | cons a args' =>
              simp only [Option.bind_eq_some_iff, Option.map_eq_some_iff] at h
              obtain ⟨tt, hs, t2, ht2, rfl⟩ := h
              have hi := ih p.length (by omega) p args' t2 rfl (fun y hy => ha y (by simp [hy])) ht2
              by_cases hc : c = 115
              · subst hc
                cases a with
                | str s' =>
                  simp only [argText, show Char.ofNat 115 = 's' from rfl, if_true, Option.some.injEq] at hs
                  subst hs
                  simp only [fmtBound, List.length_cons, List.length_append, strArgs] at *
                  omega
                | u32 n => simp [argText, show Char.ofNat 115 = 's' from rfl] at hs
                | u64 n => simp [argText, show Char.ofNat 115 = 's' from rfl] at hs
                | var v =>
                  simp only [argText, Option.bind_eq_some_iff] at hs
                  obtain ⟨ty, _, h2⟩ := hs
                  cases be <;> simp [varText, show Char.ofNat 115 = 's' from rfl] at h2
              · obtain ⟨ps, ep, hok, htx, hnd⟩ := arg_produces he args' hc (ha a (by simp)) hs
                have hle := texts_le hok
                rw [htx] at hle
                have hsa : strArgs args' ≤ strArgs (a :: args') := by
                  cases a <;> simp [strArgs]
                simp only [fmtBound, List.length_cons, List.length_append] at *
                omega
      · rw [render_cons hx] at h
        obtain ⟨t2, ht2, rfl⟩ := Option.map_eq_some_iff.1 h
        have := ih p.length (by omega) p args t2 rfl ha ht2
        simp only [fmtBound, List.length_cons] at *
        omega

/-- The text produced by a format is never longer than the bound that is reserved for it:
8 bytes per character of the format, 48 per argument, and the lengths of string arguments. -/
theorem C32_bound {e : Env} (he : e.inRange) (be : Backend) (f : List Nat) (args : List Arg) {t : List Nat}
    (ha : ∀ a ∈ args, a.inRange) (h : render e be f args = some t) :
    t.length ≤ f.length * 8 + args.length * 48 + strArgs args :=
  C32_bound_aux he be f.length f args t rfl ha h

/-- Environment for examples: vectors of 8 elements; the conversions are irrelevant. -/
def env8 : Env := ⟨8, 0, fun _ => 0x3ff0000000000000, fun _ => 0⟩
theorem env8_inRange : env8.inRange := ⟨by decide, fun _ => by simp [env8], fun _ => by simp [env8]⟩

/-- `$v = fadd $V, $v` for three 32-bit floating point registers -/
def exFmt : List Nat := bytes "$v = fadd $V, $s$v"
def exArgs : List Arg := [.var ⟨14, 12, 0, false, 0⟩, .var ⟨14, 7, 0, false, 0⟩, .str (bytes "(*) "),
  .var ⟨14, 4294967295, 0, false, 0⟩]

example : render env8 .llvm exFmt exArgs = some (bytes "%f12 = fadd <8 x float> %f7, (*) %f4294967295") := by
  decide +kernel
example : ∃ b', fmtBackend env8 .llvm (new 0 fun _ => 0) exFmt exArgs = .ok b' ∧
    b'.text = bytes "%f12 = fadd <8 x float> %f7, (*) %f4294967295" := by
  obtain ⟨b', h1, h2, -⟩ := C32_format env8_inRange .llvm (new 0 fun _ => 0) exFmt exArgs
    (t := bytes "%f12 = fadd <8 x float> %f7, (*) %f4294967295") (by decide)
    (by intro a ha; fin_cases ha <;> simp [Arg.inRange]) (by decide +kernel)
  exact ⟨b', h1, h2⟩

/-! ### C31: histories -/

/-- After any sequence of operations on any number of buffers — appending, formatting,
rewinding, moving text, constructing, swapping and moving buffers — no operation has left the
memory owned by its buffer, and every buffer holds exactly the text that results from the
sequence.  Moreover, its cursor lies within the allocation. -/
theorem C31_history {e : Env} (he : e.inRange) (junk) (l : List Step) (hl : ∀ s ∈ l, s.inRange)
    {k : Nat → Known} (h : effects e known0 l = some k) :
    ∃ w, runSteps e (world0 junk) l = .ok w ∧
      ∀ i, (w i).text = (k i).text ∧ ((w i).cur < (w i).cap ∨ (w i).cap = 0 ∧ (w i).cur = 0) := by
  obtain ⟨w, e1, h1⟩ := steps_agree he l (agrees0 junk) hl h
  exact ⟨w, e1, fun i => ⟨(h1 i).2.1, (h1 i).1⟩⟩

/-- A buffer whose last operation is not one of `put_u32`, `put_u64`, `put_x32`, `put_x64` and
`delete_trailing_commas` is terminated: a C program that reads the string sees exactly the text
(unless the text itself contains zero bytes, or the buffer does not own any memory, in which
case there is no string).

What is missing for the full property C31 is that the string is terminated after *any*
operation, which is not the case: see `C31_put_u32_unterminated`. -/
theorem C31_terminated_partial {e : Env} (he : e.inRange) (junk) (l : List Step) (hl : ∀ s ∈ l, s.inRange)
    {k : Nat → Known} (h : effects e known0 l = some k) :
    ∃ w, runSteps e (world0 junk) l = .ok w ∧
      ∀ i, (k i).terminated = true → (w i).cap ≠ 0 → 0 ∉ (k i).text → (w i).cstr = some (k i).text := by
  obtain ⟨w, e1, h1⟩ := steps_agree he l (agrees0 junk) hl h
  refine ⟨w, e1, fun i ht hc hz => ?_⟩
  obtain ⟨g, t, z⟩ := h1 i
  rw [← t] at hz ⊢
  rcases g with g | g
  · exact cstr_eq g (z ht hc) hz
  · exact absurd g.1 hc

/-- Appending makes sure that there is memory, so `C31_terminated_partial` applies. -/
theorem C31_put_owns (b : Buf) (s : List Nat) : ∃ b', put b s = .ok b' ∧ b'.cap ≠ 0 := by
  obtain ⟨h1, h2, h3⟩ := reserve_spec (b := b) s.length
  unfold put
  dsimp only
  generalize reserve b s.length = c at *
  rw [store_ok (by omega), ok_bind, store_ok (by simp; omega)]
  exact ⟨_, rfl, by show c.cap ≠ 0; omega⟩

/-- A program that uses most operations -/
def exSteps : List Step := [.new 0 4 (fun _ => 99), .op 0 (.put (bytes "abc")), .op 0 (.putU32 120),
  .op 0 (.fmtBackend .llvm exFmt exArgs), .op 0 (.rewind 20), .new 1 0 (fun _ => 0), .op 1 (.fmt (bytes "xy, , ")),
  .op 1 .deleteTrailingCommas, .swap 0 1, .moveNew 2 1, .op 2 (.moveSuffix 6 1), .op 0 (.putn 46 5)]

example : (effects env8 known0 exSteps).map (fun k => (k 0).text) = some (bytes "xy.....") := by decide +kernel
example : (effects env8 known0 exSteps).map (fun k => (k 2).text) =
    some (bytes "a%f12 = fadd <8 x float> %bc120") := by decide +kernel
example : ∀ s ∈ exSteps, s.inRange := by
  intro s hs
  fin_cases hs <;> first | trivial | exact ⟨by decide, by intro a ha; fin_cases ha <;> simp [Arg.inRange]⟩

/-- The property fails for `put_u32` (and equally for the other operations excluded above):
after `put("abcdef")`, `clear()` and `put_u32(5)`, the text is `5`, but the string that a C
program sees is `55cdef`, as the formatter leaves part of its lookup table behind the cursor and
the previous contents follow.  Within drjit-core, callers always append more text. -/
theorem C31_put_u32_unterminated :
    let l : List Step := [.op 0 (.put (bytes "abcdef")), .op 0 .clear, .op 0 (.putU32 5)]
    ∃ w, runSteps env8 (world0 fun _ _ => 0) l = .ok w ∧
      (w 0).text = bytes "5" ∧ (w 0).cstr = some (bytes "55cdef") := by
  obtain ⟨w, h, h2⟩ := runs (r := runSteps env8 (world0 fun _ _ => 0)
      [.op 0 (.put (bytes "abcdef")), .op 0 .clear, .op 0 (.putU32 5)])
    (f := fun w => ((w 0).text, (w 0).cstr)) (y := (bytes "5", some (bytes "55cdef"))) (by decide +kernel)
  simp only [Prod.mk.injEq] at h2
  exact ⟨w, h, h2⟩

/-- The same for `delete_trailing_commas`. -/
theorem C31_deleteTrailing_unterminated :
    let l : List Step := [.op 0 (.put (bytes "abc, ")), .op 0 .deleteTrailingCommas]
    ∃ w, runSteps env8 (world0 fun _ _ => 0) l = .ok w ∧
      (w 0).text = bytes "abc" ∧ (w 0).cstr = some (bytes "abc, ") := by
  obtain ⟨w, h, h2⟩ := runs (r := runSteps env8 (world0 fun _ _ => 0)
      [.op 0 (.put (bytes "abc, ")), .op 0 .deleteTrailingCommas])
    (f := fun w => ((w 0).text, (w 0).cstr)) (y := (bytes "abc", some (bytes "abc, "))) (by decide +kernel)
  simp only [Prod.mk.injEq] at h2
  exact ⟨w, h, h2⟩

end Verif.StrBuf
