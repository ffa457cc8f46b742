import Verif.StrBuf.Run

namespace Verif.StrBuf

/-! ### Individual writers -/

/-- What a writer produces -/
def Piece.text : Piece → List Nat
  | .u32 n => decimal n
  | .u64 n => decimal n
  | .x64 n => hex n
  | .q64 n => hex16 n
  | .row r => r.take (r.getD 7 0)
  | .lit s => s

/-- Arguments are in range. -/
def Piece.ok : Piece → Prop
  | .u32 n => n < 2 ^ 32
  | .u64 n => n < 2 ^ 64
  | .x64 n => n < 2 ^ 64
  | .q64 n => n < 2 ^ 64
  | .row r => r.length = 8 ∧ r.getD 7 0 ≤ 6
  | .lit _ => True

/-- Space needed by a writer, including bytes it writes past its end -/
def Piece.need : Piece → Nat
  | .u32 _ => 10
  | .u64 _ => 20
  | .x64 _ => 16
  | .q64 _ => 16
  | .row _ => 8
  | .lit s => s.length

theorem dec32 {n : Nat} (h : n < 2 ^ 32) : (decimal n).length ≤ 10 :=
  decimal_length_le (by omega) (by norm_num; omega)
theorem dec64 {n : Nat} (h : n < 2 ^ 64) : (decimal n).length ≤ 20 :=
  decimal_length_le (by omega) (by norm_num; omega)
theorem hex64 {n : Nat} (h : n < 2 ^ 64) : (hex n).length ≤ 16 :=
  (hex_length_le (by omega)).2 (by norm_num; omega)
theorem hex32 {n : Nat} (h : n < 2 ^ 32) : (hex n).length ≤ 8 :=
  (hex_length_le (by omega)).2 (by norm_num; omega)

theorem Piece.text_le {p : Piece} (h : p.ok) : p.text.length ≤ p.need := by
  cases p with
  | u32 n => exact dec32 h
  | u64 n => exact dec64 h
  | x64 n => exact hex64 h
  | q64 n => exact (hex16_length h).le
  | row r => simp only [Piece.text, Piece.need, List.length_take]; have := h.1; omega
  | lit s => exact le_refl _

theorem w_strn_spec {b : Buf} {d : Nat} {s : List Nat} (h : d + s.length ≤ b.cap) :
    Writes (w_strn b d s) b d s := by
  refine ⟨b.stored d s, ?_, rfl, rfl, ?_⟩
  · rw [w_strn, store_ok h]; rfl
  · rw [stored_read _ _ _ (le_refl _), List.take_length]

theorem w_type_spec {b : Buf} {d : Nat} {r : List Nat} (hl : r.length = 8) (h7 : r.getD 7 0 ≤ 6)
    (h : d + 8 ≤ b.cap) : Writes (w_type b d r) b d (r.take (r.getD 7 0)) := by
  have hlen : (r.take (r.getD 7 0)).length = r.getD 7 0 := by rw [List.length_take]; omega
  refine ⟨b.stored d r, ?_, rfl, rfl, ?_⟩
  · rw [w_type, store_ok (by omega), hlen]; rfl
  · rw [hlen, stored_read _ _ _ (by omega)]

theorem Piece.write_spec {b : Buf} {d : Nat} {p : Piece} (h : p.ok) (hd : d + p.need ≤ b.cap) :
    Writes (p.write b d) b d p.text := by
  cases p with
  | u32 n => exact w_u32_spec h hd
  | u64 n =>
    have := dec64 (n := n) h
    simp only [Piece.need] at hd
    exact w_u64_spec n h (by omega) (by omega)
  | x64 n =>
    have := hex64 (n := n) h
    simp only [Piece.need] at hd
    exact w_x64_spec h (by omega)
  | q64 n => exact w_q64_spec h hd
  | row r => exact w_type_spec h.1 h.2 hd
  | lit s => exact w_strn_spec hd

/-- Text and space of a sequence of writers -/
def texts (ps : List Piece) : List Nat := ps.flatMap Piece.text
def needs (ps : List Piece) : Nat := (ps.map Piece.need).sum

theorem texts_le {ps : List Piece} (h : ∀ p ∈ ps, p.ok) : (texts ps).length ≤ needs ps := by
  induction ps with
  | nil => simp [texts, needs]
  | cons p ps ih =>
    have h1 := Piece.text_le (h p (by simp))
    have h2 := ih fun q hq => h q (by simp [hq])
    simp only [texts, needs, List.flatMap_cons, List.length_append, List.map_cons, List.sum_cons] at *
    omega

theorem writePieces_spec (ps : List Piece) : ∀ (b : Buf) (d : Nat), (∀ p ∈ ps, p.ok) →
    d + needs ps ≤ b.cap → Writes (writePieces b d ps) b d (texts ps) := by
  induction ps with
  | nil => intro b d _ _; exact ⟨b, rfl, rfl, rfl, by simp [texts]⟩
  | cons p ps ih =>
    intro b d hok hd
    have hn : needs (p :: ps) = p.need + needs ps := by simp [needs]
    have hp := Piece.text_le (hok p (by simp))
    obtain ⟨b1, e1, c1, u1, r1⟩ := Piece.write_spec (b := b) (d := d) (hok p (by simp)) (by omega)
    obtain ⟨b2, e2, c2, u2, r2⟩ := ih b1 (d + p.text.length) (fun q hq => hok q (by simp [hq])) (by omega)
    have ht : texts (p :: ps) = p.text ++ texts ps := by simp [texts]
    refine ⟨b2, ?_, by rw [c2, c1], by rw [u2, u1], ?_⟩
    · rw [writePieces, e1, ok_bind]
      show writePieces b1 (d + p.text.length) ps = _
      rw [e2, ht, List.length_append, Nat.add_assoc]
    · rw [ht, List.length_append, ← Nat.add_assoc, r2, r1, List.append_assoc]

/-! ### Type tables -/

def Ty.code : Ty → Nat
  | .void => 0 | .bool => 1 | .baseInt => 2 | .i8 => 3 | .u8 => 4 | .i16 => 5 | .u16 => 6 | .i32 => 7
  | .u32 => 8 | .i64 => 9 | .u64 => 10 | .ptr => 11 | .baseFloat => 12 | .f16 => 13 | .f32 => 14
  | .f64 => 15

theorem ofCode_code {n : Nat} {t : Ty} (h : Ty.ofCode n = some t) : n = t.code := by
  have hn : n < 16 := by
    by_contra hc
    rw [Ty.ofCode, List.getElem?_eq_none (by simp; omega)] at h
    cases h
  have : ∀ n < 16, ∃ t, Ty.ofCode n = some t ∧ n = t.code := by decide +kernel
  obtain ⟨t', h1, h2⟩ := this n hn
  rw [h1] at h
  cases h
  exact h2

/-- The row `r` stands for the name `s`. -/
def IsRow (r : List Nat) (s : String) : Prop :=
  r.length = 8 ∧ r.getD 7 0 ≤ 6 ∧ r.take (r.getD 7 0) = bytes s

instance (r s) : Decidable (IsRow r s) := by unfold IsRow; infer_instance

theorem row_llvm (t : Ty) : IsRow (typeNameLlvm t.code) t.llvm := by cases t <;> decide +kernel
theorem row_llvmBin (t : Ty) : IsRow (typeNameLlvmBin t.code) t.llvmBin := by cases t <;> decide +kernel
theorem row_llvmBig (t : Ty) : IsRow (typeNameLlvmBig t.code) t.llvmBig := by cases t <;> decide +kernel
theorem row_llvmAbbrev (t : Ty) : IsRow (typeNameLlvmAbbrev t.code) t.llvmAbbrev := by
  cases t <;> decide +kernel
theorem row_reg (t : Ty) : IsRow (typePrefix t.code) t.reg := by cases t <;> decide +kernel
theorem row_ptx (t : Ty) : IsRow (typeNamePtx t.code) t.ptx := by cases t <;> decide +kernel
theorem row_ptxBits (t : Ty) : IsRow (typeNamePtxBin2 t.code) t.ptxBits := by cases t <;> decide +kernel
theorem row_ptxBin (t : Ty) : IsRow (typeNamePtxBin t.code) t.ptxBin := by cases t <;> decide +kernel
theorem row_metal (t : Ty) : IsRow (typeNameMetal t.code) t.metal := by cases t <;> decide +kernel
theorem row_metalBin (t : Ty) : IsRow (typeNameMetalBin t.code) t.metalBin := by
  cases t <;> decide +kernel
theorem size_code (t : Ty) : typeSize t.code = t.size := by cases t <;> rfl
theorem size_le (t : Ty) : t.size ≤ 8 := by cases t <;> decide

theorem code_bool (t : Ty) : t.code = 1 ↔ t = .bool := by cases t <;> decide

theorem inMemory_code (t : Ty) : (if t.code = 1 then 4 else t.code) = t.inMemory.code := by
  cases t <;> rfl

/-- What the specification demands of a directive: it calls writers producing `t` that need at
most `k` bytes. -/
def Produces (d : Directive) (rest : List Arg) (t : List Nat) (k : Nat) : Prop :=
  ∃ ps, d = .ok (ps, rest) ∧ (∀ p ∈ ps, p.ok) ∧ texts ps = t ∧ needs ps ≤ k

theorem isRow_text {r : List Nat} {s : String} (h : IsRow r s) : (Piece.row r).text = bytes s := h.2.2
theorem isRow_ok {r : List Nat} {s : String} (h : IsRow r s) : (Piece.row r).ok := ⟨h.1, h.2.1⟩

@[simp] theorem texts_nil : texts [] = [] := rfl
@[simp] theorem texts_cons (p ps) : texts (p :: ps) = p.text ++ texts ps := by simp [texts]
@[simp] theorem needs_nil : needs [] = 0 := rfl
@[simp] theorem needs_cons (p ps) : needs (p :: ps) = p.need + needs ps := by simp [needs]

theorem plain_produces {e : Env} (he : e.inRange) {be : Backend} {c : Nat} {t : List Nat}
    (args : List Arg) (h : plainText e be (Char.ofNat c) = some t) :
    Produces (directive e be c args) args t 15 := by
  have hw : e.vectorWidth < 2 ^ 32 := by have := he.width; omega
  unfold plainText at h
  split at h
  · cases h
    refine ⟨[.u32 e.vectorWidth], ?_, ?_, ?_, ?_⟩
    · simp_all [directive, llvmDirective]
    · simpa [Piece.ok] using hw
    · simp [Piece.text]
    · simp [Piece.need]
  · cases h
    refine ⟨[.lit (bytes "zeroinitializer")], ?_, ?_, ?_, ?_⟩
    · simp_all [directive, llvmDirective]
    · simp [Piece.ok]
    · simp [Piece.text]
    · simp [Piece.need, bytes]
  · cases h
    rename_i hc
    by_cases hd : e.callableDepth > 0
    · refine ⟨[.lit (bytes "<"), .u32 e.vectorWidth, .lit (bytes " x ")], ?_, ?_, ?_, ?_⟩
      · simp_all [directive, llvmDirective]
      · simpa [Piece.ok] using hw
      · simp [Piece.text, hd]
      · simp [Piece.need, bytes]
    · refine ⟨[], ?_, ?_, ?_, ?_⟩
      · simp_all [directive, llvmDirective]
      · simp
      · simp [hd]
      · simp
  · cases h
    rename_i hc
    by_cases hd : e.callableDepth > 0
    · refine ⟨[.lit (bytes ">")], ?_, ?_, ?_, ?_⟩
      · simp_all [directive, llvmDirective]
      · simp [Piece.ok]
      · simp [Piece.text, hd]
      · simp [Piece.need, bytes]
    · refine ⟨[], ?_, ?_, ?_, ?_⟩
      · simp_all [directive, llvmDirective]
      · simp
      · simp [hd]
      · simp
  · cases h

/-- The sequence of writers for `<W x type>` -/
theorem vec_pieces {e : Env} (he : e.inRange) {r : List Nat} {s : String} (h : IsRow r s) :
    let ps := [Piece.lit (bytes "<"), .u32 e.vectorWidth, .lit (bytes " x "), .row r, .lit (bytes ">")]
    (∀ p ∈ ps, p.ok) ∧ texts ps = vec e s ∧ needs ps = 23 := by
  have hw : e.vectorWidth < 2 ^ 32 := by have := he.width; omega
  refine ⟨?_, ?_, ?_⟩
  · intro p hp
    simp only [List.mem_cons, List.not_mem_nil, or_false] at hp
    rcases hp with rfl | rfl | rfl | rfl | rfl
    · trivial
    · exact hw
    · trivial
    · exact isRow_ok h
    · trivial
  · simp [vec, isRow_text h]
    simp [Piece.text]
  · simp [Piece.need, bytes]

theorem withVar_var (v : VarRef) (args : List Arg) (f : VarRef → List Piece) :
    withVar (.var v :: args) f = .ok (f v, args) := rfl

theorem var_produces {e : Env} (he : e.inRange) {be : Backend} {c : Nat} {v : VarRef} {t : Ty}
    {s : List Nat} (args : List Arg) (hv : v.type = t.code) (hr : (Arg.var v).inRange)
    (h : varText e v t be (Char.ofNat c) = some s) :
    Produces (directive e be c (.var v :: args)) args s 48 := by
  obtain ⟨hreg, hlit, hoff⟩ := hr
  have hcap : ∀ {d} {ps : List Piece} , d = .ok (ps, args) → (∀ p ∈ ps, p.ok) → texts ps = s →
      needs ps ≤ 48 → Produces d args s 48 := fun h1 h2 h3 h4 => ⟨_, h1, h2, h3, h4⟩
  have one : ∀ {r : List Nat} {n : String}, IsRow r n → (∀ p ∈ [Piece.row r], p.ok) ∧
      texts [Piece.row r] = bytes n ∧ needs [Piece.row r] ≤ 48 := by
    intro r n h
    refine ⟨?_, ?_, ?_⟩
    · intro p hp; simp at hp; subst hp; exact isRow_ok h
    · simp [isRow_text h]
    · simp [Piece.need]
  have reg : ∀ {r : List Nat} {n : String}, IsRow r n →
      (∀ p ∈ [Piece.row r, .u32 v.regIndex], p.ok) ∧
      texts [Piece.row r, .u32 v.regIndex] = bytes n ++ decimal v.regIndex ∧
      needs [Piece.row r, .u32 v.regIndex] ≤ 48 := by
    intro r n h
    refine ⟨?_, ?_, ?_⟩
    · intro p hp
      simp only [List.mem_cons, List.not_mem_nil, or_false] at hp
      rcases hp with rfl | rfl
      · exact isRow_ok h
      · exact hreg
    · simp only [texts_cons, texts_nil, isRow_text h, List.append_nil]; rfl
    · simp [Piece.need]
  have num : ∀ {n : Nat}, n < 2 ^ 32 → (∀ p ∈ [Piece.u32 n], p.ok) ∧
      texts [Piece.u32 n] = decimal n ∧ needs [Piece.u32 n] ≤ 48 := by
    intro n h
    refine ⟨?_, ?_, ?_⟩
    · intro p hp; simp at hp; subst hp; exact h
    · simp [Piece.text]
    · simp [Piece.need]
  have hx : ∀ {n : Nat}, n < 2 ^ 64 → (∀ p ∈ [Piece.lit (bytes "0x"), .x64 n], p.ok) ∧
      texts [Piece.lit (bytes "0x"), .x64 n] = bytes "0x" ++ hex n ∧
      needs [Piece.lit (bytes "0x"), .x64 n] ≤ 48 := by
    intro n h
    refine ⟨?_, ?_, ?_⟩
    · intro p hp
      simp only [List.mem_cons, List.not_mem_nil, or_false] at hp
      rcases hp with rfl | rfl
      · trivial
      · exact h
    · simp [Piece.text]
    · simp [Piece.need, bytes]
  have fin : ∀ {d} {ps : List Piece}, d = .ok (ps, args) →
      ((∀ p ∈ ps, p.ok) ∧ texts ps = s ∧ needs ps ≤ 48) → Produces d args s 48 :=
    fun h1 h2 => ⟨_, h1, h2.1, h2.2.1, h2.2.2⟩
  have vecp : ∀ {r : List Nat} {n : String}, IsRow r n →
      let ps := [Piece.lit (bytes "<"), .u32 e.vectorWidth, .lit (bytes " x "), .row r, .lit (bytes ">")]
      (∀ p ∈ ps, p.ok) ∧ texts ps = vec e n ∧ needs ps ≤ 48 := by
    intro r n h
    obtain ⟨a, b, c⟩ := vec_pieces he h
    exact ⟨a, b, by rw [c]; omega⟩
  have hsz : ∀ x : Bool, (if x then 1 else t.size) < 2 ^ 32 := by
    intro x; have := size_le t; split <;> omega
  unfold varText at h
  split at h
  all_goals (try cases h)
  all_goals (rename_i hc)
  case h_1 => exact fin (by simp only [directive, llvmDirective, hc, withVar_var, hv]) (one (row_llvm t))
  case h_2 => exact fin (by simp only [directive, llvmDirective, hc, withVar_var, hv]) (one (row_llvmBin t))
  case h_3 => exact fin (by simp only [directive, llvmDirective, hc, withVar_var, hv]) (one (row_llvmBig t))
  case h_4 =>
    by_cases hb : t = .bool
    · subst hb
      refine fin (ps := [.lit (bytes "i8")]) ?_ ⟨?_, ?_, ?_⟩
      · simp [directive, llvmDirective, hc, withVar_var, hv, Ty.code]
      · simp [Piece.ok]
      · simp [Piece.text, Ty.inMemory, Ty.llvmAbbrev, Ty.llvm]
      · simp [Piece.need, bytes]
    · have h1 : v.type ≠ 1 := by rw [hv]; exact fun h => hb ((code_bool t).1 h)
      have h2 : t.inMemory = t := by cases t <;> first | rfl | exact absurd rfl hb
      have h3 := one (row_llvmAbbrev t)
      refine ⟨[.row (typeNameLlvmAbbrev v.type)], ?_, ?_, ?_, ?_⟩
      · simp only [directive, llvmDirective, hc, withVar_var, if_neg h1]
      · rw [hv]; exact h3.1
      · rw [hv, h2]; exact h3.2.1
      · simp [Piece.need]
  case h_5 => exact fin (by simp only [directive, llvmDirective, hc, withVar_var, hv]) (one (row_llvmAbbrev t))
  case h_6 =>
    exact fin (by simp only [directive, llvmDirective, hc, withVar_var, hv, inMemory_code]) (one (row_llvm t.inMemory))
  case h_7 => exact fin (by simp only [directive, llvmDirective, hc, withVar_var, hv]) (vecp (row_llvm t))
  case h_8 => exact fin (by simp only [directive, llvmDirective, hc, withVar_var, hv]) (vecp (row_llvmBin t))
  case h_9 => exact fin (by simp only [directive, llvmDirective, hc, withVar_var, hv]) (vecp (row_llvmBig t))
  case h_10 =>
    exact fin (by simp only [directive, llvmDirective, hc, withVar_var, hv, inMemory_code])
      (vecp (row_llvm t.inMemory))
  case h_11 => exact fin (by simp only [directive, llvmDirective, hc, withVar_var, hv]) (reg (row_reg t))
  case h_12 =>
    have hvec := vec_pieces he (row_llvm t)
    have hreg' := reg (row_reg t)
    refine fin (ps := [Piece.lit (bytes "<"), .u32 e.vectorWidth, .lit (bytes " x "),
      .row (typeNameLlvm t.code), .lit (bytes ">"), .lit (bytes " "), .row (typePrefix t.code), .u32 v.regIndex])
      (by simp only [directive, llvmDirective, hc, withVar_var, hv]; rfl) ⟨?_, ?_, ?_⟩
    · intro p hp
      simp only [List.mem_cons, List.not_mem_nil, or_false] at hp
      rcases hp with h | h | h | h | h | h | h | h
      · exact hvec.1 p (by simp [h])
      · exact hvec.1 p (by simp [h])
      · exact hvec.1 p (by simp [h])
      · exact hvec.1 p (by simp [h])
      · exact hvec.1 p (by simp [h])
      · subst h; trivial
      · exact hreg'.1 p (by simp [h])
      · exact hreg'.1 p (by simp [h])
    · have h1 := hvec.2.1
      have h2 := hreg'.2.1
      rw [← h1, List.append_assoc, List.append_assoc, ← h2]
      simp [Piece.text]
    · simp [Piece.need, bytes]
  case h_13 =>
    cases t
    case f32 => exact fin (by simp [directive, llvmDirective, hc, withVar_var, hv, Ty.code]) (hx (he.f32 v.literal))
    case f16 => exact fin (by simp [directive, llvmDirective, hc, withVar_var, hv, Ty.code]) (hx (he.f16 v.literal))
    case f64 => exact fin (by simp [directive, llvmDirective, hc, withVar_var, hv, Ty.code]) (hx hlit)
    all_goals
      refine fin (ps := [.u64 v.literal]) ?_ ⟨?_, ?_, ?_⟩
      · simp [directive, llvmDirective, hc, withVar_var, hv, Ty.code]
      · simpa [Piece.ok] using hlit
      · simp [Piece.text]
      · simp [Piece.need]
  case h_14 =>
    exact fin (by simp only [directive, llvmDirective, hc, withVar_var, hv, size_code]) (num (hsz _))
  case h_15 =>
    have hm : t.size * e.vectorWidth < 2 ^ 32 := by
      have := Nat.mul_le_mul_right e.vectorWidth (size_le t)
      have := he.width
      omega
    exact fin (by simp only [directive, llvmDirective, hc, withVar_var, hv, size_code, Nat.mod_eq_of_lt hm])
      (num (by split <;> omega))
  case h_16 =>
    exact fin (by simp only [directive, llvmDirective, hc, withVar_var]) (num (by omega))
  case h_17 => exact fin (by simp only [directive, cudaDirective, hc, withVar_var, hv]) (one (row_ptx t))
  case h_18 => exact fin (by simp only [directive, cudaDirective, hc, withVar_var, hv]) (one (row_ptxBits t))
  case h_19 => exact fin (by simp only [directive, cudaDirective, hc, withVar_var, hv]) (one (row_ptxBin t))
  case h_20 =>
    by_cases hb : t = .bool
    · subst hb
      refine fin (ps := [.lit (bytes "%w0")]) ?_ ⟨?_, ?_, ?_⟩
      · simp [directive, cudaDirective, hc, withVar_var, hv, Ty.code]
      · simp [Piece.ok]
      · simp [Piece.text]
      · simp [Piece.need, bytes]
    · have h1 : v.type ≠ 1 := by rw [hv]; exact fun h => hb ((code_bool t).1 h)
      have h3 := reg (row_reg t)
      refine ⟨[.row (typePrefix v.type), .u32 v.regIndex], ?_, ?_, ?_, ?_⟩
      · simp only [directive, cudaDirective, hc, withVar_var, if_neg h1]
      · rw [hv]; exact h3.1
      · rw [hv, if_neg hb]; exact h3.2.1
      · simp [Piece.need]
  case h_21 => exact fin (by simp only [directive, cudaDirective, hc, withVar_var, hv]) (reg (row_reg t))
  case h_22 => exact fin (by simp only [directive, cudaDirective, hc, withVar_var]) (hx hlit)
  case h_23 =>
    exact fin (by simp only [directive, cudaDirective, hc, withVar_var, hv, size_code])
      (num (by have := size_le t; omega))
  case h_24 => exact fin (by simp only [directive, cudaDirective, hc, withVar_var]) (num hoff)
  case h_25 => exact fin (by simp only [directive, metalDirective, hc, withVar_var, hv]) (one (row_metal t))
  case h_26 => exact fin (by simp only [directive, metalDirective, hc, withVar_var, hv]) (one (row_metalBin t))
  case h_27 =>
    refine fin (ps := [.lit (bytes "r"), .u32 v.regIndex]) ?_ ⟨?_, ?_, ?_⟩
    · simp only [directive, metalDirective, hc, withVar_var]
    · simpa [Piece.ok] using hreg
    · simp [Piece.text]
    · simp [Piece.need, bytes]
  case h_28 => exact fin (by simp only [directive, metalDirective, hc, withVar_var]) (hx hlit)
  case h_29 =>
    split at h
    · cases h
      refine fin (ps := [.u32 (v.paramOffset / 8 - 1)]) ?_ (num (by omega))
      simp only [directive, metalDirective, hc, withVar_var]
      rw [show (v.paramOffset / 8 + 2 ^ 32 - 1) % 2 ^ 32 = v.paramOffset / 8 - 1 by omega]
    · cases h

end Verif.StrBuf
