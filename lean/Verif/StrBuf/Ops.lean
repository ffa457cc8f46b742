import Verif.StrBuf.Loop

namespace Verif.StrBuf

/-! ### Reads -/

theorem read_congr {b c : Buf} {i j n : Nat} (h : ∀ k < n, b.byte (i + k) = c.byte (j + k)) :
    b.read i n = c.read j n := by
  apply List.map_congr_left
  intro k hk
  exact h k (List.mem_range.1 hk)

theorem read_take (b : Buf) (i : Nat) {n k : Nat} (h : k ≤ n) : (b.read i n).take k = b.read i k := by
  obtain ⟨m, rfl⟩ := Nat.exists_eq_add_of_le h
  rw [read_append, List.take_append_of_le_length (by simp), List.take_of_length_le (by simp)]

theorem read_drop (b : Buf) (i : Nat) {n k : Nat} (h : k ≤ n) : (b.read i n).drop k = b.read (i + k) (n - k) := by
  obtain ⟨m, rfl⟩ := Nat.exists_eq_add_of_le h
  rw [read_append, List.drop_append_of_le_length (by simp), List.drop_of_length_le (by simp)]
  simp

/-- Consistency of the pointers: the cursor points into the allocation, so that there is always
room for a terminator. -/
def Good (b : Buf) : Prop := b.cur < b.cap ∨ (b.cap = 0 ∧ b.cur = 0)

theorem reserve_spec {b : Buf} (n : Nat) :
    (reserve b n).cur + n < (reserve b n).cap ∧ (reserve b n).cur = b.cur ∧
      (∀ i, (reserve b n).byte i = b.byte i) := by
  unfold reserve
  split
  · have := expand_cap b b.cur n
    exact ⟨by simpa using this.1, rfl, fun _ => rfl⟩
  · exact ⟨by omega, rfl, fun _ => rfl⟩

theorem text_of {b c : Buf} (hc : c.cur = b.cur) (h : ∀ i, c.byte i = b.byte i) : c.text = b.text := by
  unfold Buf.text
  rw [hc]
  exact read_ext fun j _ _ => h j

/-- The result of an operation -/
def Result (r : Except Fault Buf) (t : List Nat) (term : Bool) : Prop :=
  ∃ b, r = .ok b ∧ Good b ∧ b.text = t ∧ (term = true → b.cap ≠ 0 → b.byte b.cur = 0)

theorem store_zero {b : Buf} (h : b.cur < b.cap) : Result (b.store b.cur [0]) b.text true := by
  refine ⟨b.stored b.cur [0], store_ok (by simp; omega), Or.inl h, ?_, fun _ _ => ?_⟩
  · exact read_ext fun j _ hj => stored_byte_lt (by simp at hj; omega)
  · show (b.stored b.cur [0]).byte b.cur = 0
    have := stored_byte_in (b := b) (i := b.cur) (j := 0) (bs := [0]) (by simp)
    simpa using this

theorem put_result (b : Buf) (s : List Nat) : Result (put b s) (b.text ++ s) true := by
  obtain ⟨h1, h2, h3⟩ := reserve_spec (b := b) s.length
  have ht := text_of h2 h3
  unfold put
  dsimp only
  generalize reserve b s.length = c at *
  rw [store_ok (by omega), ok_bind]
  have := store_zero (b := { c.stored c.cur s with cur := c.cur + s.length }) (by simpa using h1)
  have e : Buf.text { c.stored c.cur s with cur := c.cur + s.length } = c.text ++ s := by
    show (c.stored c.cur s).read 0 (c.cur + s.length) = _
    rw [stored_read _ _ _ (le_refl _), List.take_length]; rfl
  rw [e, ht] at this
  exact this

theorem putc_result (b : Buf) (c : Nat) : Result (putc b c) (b.text ++ [c]) true := put_result b [c]

theorem putLoop_spec (c : Nat) : ∀ (k : Nat) (b : Buf), b.cur + k ≤ b.cap →
    ∃ b', putLoop c k b = .ok b' ∧ b'.cap = b.cap ∧ b'.cur = b.cur + k ∧
      b'.text = b.text ++ List.replicate k c := by
  intro k
  induction k with
  | zero => intro b _; exact ⟨b, rfl, rfl, rfl, by simp⟩
  | succ k ih =>
    intro b h
    rw [putLoop, store_ok (by simp; omega), ok_bind]
    obtain ⟨b', e, c1, u, t⟩ := ih { b.stored b.cur [c] with cur := b.cur + 1 } (by simp; omega)
    refine ⟨b', e, c1, by rw [u]; show b.cur + 1 + k = _; omega, ?_⟩
    have e2 : Buf.text { b.stored b.cur [c] with cur := b.cur + 1 } = b.text ++ [c] := by
      show (b.stored b.cur [c]).read 0 (b.cur + 1) = _
      rw [stored_read _ _ _ (by simp)]; rfl
    rw [t, e2, List.replicate_succ]; simp

theorem putn_spec (b : Buf) (c k : Nat) : ∃ b', putn b c k = .ok b' ∧ b'.cur = b.cur + k ∧
    b'.cur < b'.cap ∧ b'.text = b.text ++ List.replicate k c ∧ b'.byte b'.cur = 0 := by
  obtain ⟨h1, h2, h3⟩ := reserve_spec (b := b) k
  have ht := text_of h2 h3
  unfold putn
  dsimp only
  generalize reserve b k = d at *
  obtain ⟨b', e, c1, u, t⟩ := putLoop_spec c k d (by omega)
  rw [e, ok_bind]
  obtain ⟨b2, e2, g, t2, z⟩ := store_zero (b := b') (by omega)
  have e3 : b2 = b'.stored b'.cur [0] := by
    rw [store_ok (by simp; omega)] at e2; cases e2; rfl
  subst e3
  refine ⟨_, e2, by rw [stored_cur, u, h2], by rw [stored_cur, stored_cap]; omega, ?_, ?_⟩
  · rw [t2, t, ht]
  · exact z rfl (by simp; omega)

theorem putn_result (b : Buf) (c k : Nat) : Result (putn b c k) (b.text ++ List.replicate k c) true := by
  obtain ⟨b', e, u, l, t, z⟩ := putn_spec b c k
  exact ⟨b', e, Or.inl l, t, fun _ _ => z⟩

/-- Rewinding to a position within the text -/
theorem rewindTo_result {b : Buf} (hg : Good b) {p : Nat} (h : p ≤ b.cur) :
    Result (rewindTo b p) (b.text.take p) true := by
  unfold rewindTo
  dsimp only
  have e : Buf.text { b with cur := p } = b.text.take p := by
    show b.read 0 p = (b.read 0 b.cur).take p
    rw [read_take _ _ h]
  split
  · rename_i hc
    have := store_zero (b := { b with cur := p }) (by rcases hg with h' | h'; show p < b.cap; omega; exact absurd h'.1.symm hc)
    rw [e] at this
    exact this
  · rename_i hc
    have hc' : b.cap = 0 := by simpa [eq_comm] using hc
    refine ⟨_, rfl, Or.inr ⟨hc', ?_⟩, e, fun _ h => absurd hc' h⟩
    rcases hg with h' | h'
    · omega
    · show p = 0; omega

theorem rewind_eq {b : Buf} {r : Nat} (h : r ≤ b.cur) : rewind b r = rewindTo b (b.cur - r) := by
  rw [rewind, if_neg (by omega)]; rfl

theorem clear_eq (b : Buf) : clear b = rewindTo b 0 := rfl

theorem text_length (b : Buf) : b.text.length = b.cur := by simp [Buf.text]

theorem trailing_spec (b : Buf) : ∀ n, b.read 0 (trailing b.byte n) = (b.read 0 n).rdropWhile (fun c => c = 44 ∨ c = 32) ∧
    trailing b.byte n ≤ n := by
  intro n
  induction n with
  | zero => exact ⟨rfl, le_refl _⟩
  | succ n ih =>
    have hs : b.read 0 (n + 1) = b.read 0 n ++ [b.byte n] := by
      rw [read_append]; simp [Buf.read]
    rw [trailing]
    split
    · rename_i h
      refine ⟨?_, by omega⟩
      rw [ih.1, hs, List.rdropWhile_concat_pos _ _ _ (by simpa using h)]
    · rename_i h
      refine ⟨?_, le_refl _⟩
      rw [hs, List.rdropWhile_concat_neg _ _ _ (by simpa using h)]

theorem deleteTrailing_result {b : Buf} (hg : Good b) :
    Result (.ok (deleteTrailingCommas b)) (b.text.rdropWhile fun c => c = 44 ∨ c = 32) false := by
  obtain ⟨h1, h2⟩ := trailing_spec b b.cur
  refine ⟨_, rfl, ?_, h1, fun h => nomatch h⟩
  rcases hg with h | h
  · left; show trailing b.byte b.cur < b.cap; omega
  · right; exact ⟨h.1, by show trailing b.byte b.cur = 0; omega⟩

/-- A writer at the cursor after reserving space -/
theorem atCur_result {b : Buf} {n : Nat} {w : Buf → Nat → Except Fault (Buf × Nat)} {s : List Nat}
    (hs : s.length ≤ n) (hw : ∀ c : Buf, c.cur + n < c.cap → Writes (w c c.cur) c c.cur s) :
    Result (atCur w (reserve b n)) (b.text ++ s) false := by
  obtain ⟨h1, h2, h3⟩ := reserve_spec (b := b) n
  have ht := text_of h2 h3
  generalize reserve b n = c at *
  obtain ⟨b', e, c1, u, r⟩ := hw c (by omega)
  refine ⟨{ b' with cur := c.cur + s.length }, ?_, Or.inl ?_, ?_, fun h => nomatch h⟩
  · rw [atCur, e]; rfl
  · show c.cur + s.length < b'.cap
    omega
  · show b'.read 0 (c.cur + s.length) = _
    rw [r, ← ht]; rfl

theorem vsnprintf_spec {b : Buf} (hg : Good b) (text : List Nat) :
    ∃ b', vsnprintf b b.cur (b.cap - b.cur) text = .ok b' ∧ b'.cap = b.cap ∧ b'.cur = b.cur ∧
      b'.read 0 b.cur = b.read 0 b.cur ∧
      (b.cur + text.length < b.cap → b'.read 0 (b.cur + text.length) = b.read 0 b.cur ++ text ∧
        b'.byte (b.cur + text.length) = 0) := by
  unfold vsnprintf
  split
  · exact ⟨b, rfl, rfl, rfl, rfl, fun h => by omega⟩
  · rename_i hc
    have hl : (text.take (b.cap - b.cur - 1) ++ [0]).length ≤ b.cap - b.cur := by
      simp; omega
    rw [store_ok (by omega)]
    refine ⟨_, rfl, rfl, rfl, read_ext fun j _ hj => stored_byte_lt (by omega), fun h => ?_⟩
    have e : text.take (b.cap - b.cur - 1) = text := List.take_of_length_le (by omega)
    rw [e]
    constructor
    · rw [stored_read _ _ _ (by simp)]; simp
    · rw [stored_byte_in (by simp)]; simp

theorem fmt_result {b : Buf} (hg : Good b) (text : List Nat) : Result (fmt b text) (b.text ++ text) true := by
  have last : ∀ (c : Buf) (k : Nat), Good c → c.cur + text.length < c.cap → c.text = b.text →
      Result (fmtLoop (k + 1) c text) (b.text ++ text) true := by
    intro c k hgc hc ht
    obtain ⟨b', e, c1, u, r, f⟩ := vsnprintf_spec hgc text
    obtain ⟨f1, f2⟩ := f hc
    rw [fmtLoop]
    dsimp only
    rw [e, ok_bind, if_pos (by constructor <;> omega)]
    refine ⟨_, rfl, Or.inl ?_, ?_, fun _ _ => ?_⟩
    · show b'.cur + text.length < b'.cap; omega
    · show b'.read 0 (b'.cur + text.length) = _
      rw [u, f1, ← ht]; rfl
    · show b'.byte (b'.cur + text.length) = 0
      rw [u]; exact f2
  unfold fmt
  by_cases hfit : b.cur + text.length < b.cap
  · exact last b 1 hg hfit rfl
  · obtain ⟨b', e, c1, u, r, f⟩ := vsnprintf_spec hg text
    rw [fmtLoop]
    dsimp only
    rw [e, ok_bind, if_neg (by omega)]
    have hx := expand_cap b' b'.cur text.length
    refine last (expand b' b'.cur text.length) 0 (Or.inl (by simp; omega)) (by simpa using hx.1) ?_
    show b'.read 0 b'.cur = _
    rw [u, r]; rfl

theorem fmtBackend_result {e : Env} (he : e.inRange) {be : Backend} {b : Buf} {f : List Nat} {args : List Arg}
    {t : List Nat} (hf : ∀ c ∈ f, c < 256) (ha : ∀ a ∈ args, a.inRange) (h : render e be f args = some t) :
    Result (fmtBackend e be b f args) (b.text ++ t) true := by
  obtain ⟨h1, h2, h3⟩ := reserve_spec (b := b) (fmtBound f.length args.length)
  have ht := text_of h2 h3
  unfold fmtBackend
  dsimp only
  generalize reserve b (fmtBound f.length args.length) = c at *
  obtain ⟨b', e1, l1, l2, r⟩ := loop_spec he be args.length f.length f args 0 c c.cur t rfl hf ha (by omega) h1 h
  rw [e1, ok_bind]
  dsimp only
  rw [if_neg (by simp), store_ok (by simp; omega), ok_bind]
  refine ⟨_, rfl, Or.inl ?_, ?_, fun _ _ => ?_⟩
  · show c.cur + t.length < b'.cap; exact l1
  · show (b'.stored (c.cur + t.length) [0]).read 0 (c.cur + t.length) = _
    rw [read_ext (c := b') fun j _ hj => stored_byte_lt (by omega), r, ← ht]; rfl
  · show (b'.stored (c.cur + t.length) [0]).byte (c.cur + t.length) = 0
    have := stored_byte_in (b := b') (i := c.cur + t.length) (j := 0) (bs := [0]) (by simp)
    simpa using this

theorem moveSuffix_result {b : Buf} {s p : Nat} (hp : p ≤ s) (hs : s ≤ b.cur) :
    Result (moveSuffix b s p) (b.text.take p ++ b.text.drop s ++ (b.text.drop p).take (s - p)) true := by
  obtain ⟨b1, e1, u1, l1, t1, _⟩ := putn_spec b 0 (b.cur - s)
  have hb1 : b1.read 0 b.cur = b.text := by
    have : b1.text.take b.cur = b.text := by rw [t1, List.take_append_of_le_length (by rw [text_length]), List.take_of_length_le (by rw [text_length])]
    rw [← this, Buf.text, read_take _ _ (by omega)]
  unfold moveSuffix
  dsimp only
  rw [e1, ok_bind, memmove, if_pos (by omega), store_ok (by simp; omega), ok_bind, memcpy, if_neg (by omega), memmove,
    if_pos (by simp; omega), store_ok (by simp; omega), ok_bind]
  set b2 := b1.stored (p + (b.cur - s)) (b1.read p (b.cur - p)) with hb2
  set b3 := b2.stored p (b2.read b.cur (b.cur - s)) with hb3
  have hcap : b3.cap = b1.cap := rfl
  have hcur : b3.cur = b1.cur := rfl
  have key := rewindTo_result (b := b3) (p := b.cur) (Or.inl (by rw [hcap, hcur]; exact l1)) (by rw [hcur]; omega)
  have e : b3.text.take b.cur = b.text.take p ++ b.text.drop s ++ (b.text.drop p).take (s - p) := by
    rw [Buf.text, read_take _ _ (by rw [hcur]; omega)]
    rw [show b.cur = p + (b.cur - s) + (s - p) by omega, read_append, read_append, Nat.zero_add]
    rw [← hb1, read_take _ _ (by omega), read_drop _ _ hs, read_drop _ _ (by omega), read_take _ _ (by omega)]
    congr 1
    · congr 1
      · apply read_ext; intro j _ hj
        rw [hb3, stored_byte_lt (by omega), hb2, stored_byte_lt (by omega)]
      · rw [hb3, stored_read_in _ _ _ (by simp)]
        rw [List.take_of_length_le (by simp)]
        apply read_congr
        intro k hk
        rw [hb2, show b.cur + k = p + (b.cur - s) + (b.cur + k - (p + (b.cur - s))) by omega,
          stored_byte_in (by simp; omega)]
        simp only [Buf.read]
        rw [List.getD_eq_getElem?_getD, List.getElem?_map, List.getElem?_range (by omega)]
        simp; congr 1; omega
    · apply read_congr
      intro k hk
      rw [hb3, stored_byte_ge (by simp), hb2, Nat.zero_add, stored_byte_in (by simp; omega)]
      simp only [Buf.read]
      rw [List.getD_eq_getElem?_getD, List.getElem?_map, List.getElem?_range (by omega)]
      simp
  rw [e] at key
  exact key

/-- Every operation has its intended effect. -/
theorem op_result {e : Env} (he : e.inRange) {b : Buf} (hg : Good b) {o : Op} (ho : o.inRange) {t : List Nat}
    (h : o.text e b.text = some t) : Result (o.run e b) t o.terminates := by
  cases o with
  | put s => cases h; exact put_result b s
  | putc c => cases h; exact putc_result b c
  | putn c k => cases h; exact putn_result b c k
  | putU32 n =>
    simp only [Op.text] at h
    split at h <;> cases h
    rename_i hn
    exact atCur_result (w := (w_u32 · · n)) (dec32 hn) fun c hc => w_u32_spec (b := c) (d := c.cur) hn (by omega)
  | putU64 n =>
    simp only [Op.text] at h
    split at h <;> cases h
    rename_i hn
    have := dec64 hn
    exact atCur_result (w := (w_u64 · · n)) this fun c hc => w_u64_spec (b := c) (d := c.cur) n hn (by omega) (by omega)
  | putX32 n =>
    simp only [Op.text] at h
    split at h <;> cases h
    rename_i hn
    have := hex32 hn
    exact atCur_result (w := (w_x64 · · n)) this fun c hc => w_x64_spec (b := c) (d := c.cur) (n := n) (by omega) (by omega)
  | putX64 n =>
    simp only [Op.text] at h
    split at h <;> cases h
    rename_i hn
    have := hex64 hn
    exact atCur_result (w := (w_x64 · · n)) this fun c hc => w_x64_spec (b := c) (d := c.cur) (n := n) (by omega) (by omega)
  | fmt s => cases h; exact fmt_result hg s
  | fmtBackend be f a =>
    obtain ⟨s, hs, rfl⟩ := Option.map_eq_some_iff.1 h
    exact fmtBackend_result he ho.1 ho.2 hs
  | clear =>
    cases h
    have := rewindTo_result hg (p := 0) (Nat.zero_le _)
    simpa [Op.run, Op.terminates, clear_eq] using this
  | rewindTo p =>
    simp only [Op.text, text_length] at h
    split at h <;> cases h
    exact rewindTo_result hg (by assumption)
  | rewind r =>
    simp only [Op.text, text_length] at h
    split at h <;> cases h
    rename_i hr
    have := rewindTo_result hg (p := b.cur - r) (by omega)
    simp only [Op.run, rewind_eq hr]
    exact this
  | deleteTrailingCommas => cases h; exact deleteTrailing_result hg
  | moveSuffix s p =>
    simp only [Op.text, text_length] at h
    split at h <;> cases h
    rename_i hr
    exact moveSuffix_result hr.1 hr.2

/-! ### Histories -/

/-- Each buffer is consistent with what is known about it. -/
def Agrees (w : Nat → Buf) (k : Nat → Known) : Prop :=
  ∀ i, Good (w i) ∧ (w i).text = (k i).text ∧
    ((k i).terminated = true → (w i).cap ≠ 0 → (w i).byte (w i).cur = 0)

theorem upd_same {α : Type} (f : Nat → α) (i : Nat) (x : α) : upd f i x i = x := by simp [upd]

theorem agrees_upd {w : Nat → Buf} {k : Nat → Known} (h : Agrees w k) {i : Nat} {b : Buf} {n : Known}
    (hb : Good b ∧ b.text = n.text ∧ (n.terminated = true → b.cap ≠ 0 → b.byte b.cur = 0)) :
    Agrees (upd w i b) (upd k i n) := by
  intro j
  unfold upd
  split
  · exact hb
  · exact h j

theorem step_agrees {e : Env} (he : e.inRange) {w : Nat → Buf} {k k' : Nat → Known} (h : Agrees w k)
    {s : Step} (hs : s.inRange) (hk : s.effect e k = some k') :
    ∃ w', s.run e w = .ok w' ∧ Agrees w' k' := by
  cases s with
  | new i c junk =>
    cases hk
    refine ⟨_, rfl, agrees_upd h ?_⟩
    unfold new
    split
    · exact ⟨Or.inr ⟨rfl, rfl⟩, rfl, fun _ h => absurd rfl h⟩
    · exact ⟨Or.inl (by show 0 < c; omega), rfl, fun _ _ => rfl⟩
  | op i o =>
    obtain ⟨t, ht, rfl⟩ := Option.map_eq_some_iff.1 hk
    obtain ⟨hg, htx, _⟩ := h i
    rw [← htx] at ht
    obtain ⟨b, e1, g, t1, z⟩ := op_result he hg hs ht
    refine ⟨upd w i b, ?_, agrees_upd h ⟨g, t1, z⟩⟩
    simp only [Step.run]
    rw [e1]; rfl
  | swap i j =>
    cases hk
    exact ⟨_, rfl, agrees_upd (agrees_upd h (h j)) (h i)⟩
  | moveNew i j =>
    simp only [Step.effect] at hk
    split at hk <;> cases hk
    exact ⟨_, rfl, agrees_upd (agrees_upd h (h j)) ⟨Or.inr ⟨rfl, rfl⟩, rfl, fun _ h => absurd rfl h⟩⟩

theorem steps_agree {e : Env} (he : e.inRange) (l : List Step) : ∀ {w : Nat → Buf} {k k' : Nat → Known},
    Agrees w k → (∀ s ∈ l, s.inRange) → effects e k l = some k' →
    ∃ w', runSteps e w l = .ok w' ∧ Agrees w' k' := by
  induction l with
  | nil => intro w k k' h _ hk; cases hk; exact ⟨w, rfl, h⟩
  | cons s l ih =>
    intro w k k' h hr hk
    obtain ⟨k1, hk1, hk2⟩ := Option.bind_eq_some_iff.1 hk
    obtain ⟨w1, e1, h1⟩ := step_agrees he h (hr s (by simp)) hk1
    obtain ⟨w2, e2, h2⟩ := ih h1 (fun x hx => hr x (by simp [hx])) hk2
    refine ⟨w2, ?_, h2⟩
    rw [runSteps, e1, ok_bind, e2]

theorem agrees0 (junk) : Agrees (world0 junk) known0 :=
  fun _ => ⟨Or.inr ⟨rfl, rfl⟩, rfl, fun _ h => absurd rfl h⟩

/-- Reading a terminated string -/
theorem cstr_eq {b : Buf} (hc : b.cur < b.cap) (hz : b.byte b.cur = 0) (hn : 0 ∉ b.text) : b.cstr = some b.text := by
  have : (List.range b.cap).find? (fun i => decide (b.byte i = 0)) = some b.cur := by
    rw [List.find?_range_eq_some]
    refine ⟨by simpa using hz, by simpa using hc, fun j hj => ?_⟩
    simp only [Bool.not_eq_eq_eq_not, Bool.not_true, decide_eq_false_iff_not]
    intro h0
    apply hn
    exact List.mem_map.2 ⟨j, List.mem_range.2 hj, by simpa using h0⟩
  rw [Buf.cstr, this]; rfl

end Verif.StrBuf
