import Verif.StrBuf.Fmt

namespace Verif.StrBuf

theorem ofNat_s {c : Nat} (h : Char.ofNat c = 's') : c = 115 := by
  unfold Char.ofNat at h
  split at h
  · have h1 := congrArg Char.toNat h
    exact h1
  · cases h

theorem arg_produces {e : Env} (he : e.inRange) {be : Backend} {c : Nat} {a : Arg} {t : List Nat}
    (args : List Arg) (hc : c ≠ 115) (ha : a.inRange)
    (h : argText e be (Char.ofNat c) a = some t) :
    Produces (directive e be c (a :: args)) args t 48 := by
  cases a with
  | u32 n =>
    simp only [argText] at h
    split at h
    · rename_i hch
      cases h
      refine ⟨[.u32 n], ?_, ?_, ?_, ?_⟩
      · cases be <;> simp only [directive, llvmDirective, cudaDirective, metalDirective, hch]
      · intro p hp; simp at hp; subst hp; exact ha
      · simp [Piece.text]
      · simp [Piece.need]
    · cases h
  | u64 n =>
    simp only [argText] at h
    split at h
    · rename_i hch
      obtain ⟨hch, hbe⟩ := hch
      cases h
      refine ⟨[.q64 n], ?_, ?_, ?_, ?_⟩
      · cases be <;> first | exact absurd rfl hbe | simp only [directive, llvmDirective, cudaDirective, hch]
      · intro p hp; simp at hp; subst hp; exact ha
      · simp [Piece.text]
      · simp [Piece.need]
    · cases h
  | str s =>
    simp only [argText] at h
    split at h
    · rename_i hch; exact absurd (ofNat_s hch) hc
    · cases h
  | var v =>
    simp only [argText, Option.bind_eq_some_iff] at h
    obtain ⟨ty, h1, h2⟩ := h
    exact var_produces he args (ofCode_code h1) ha h2

theorem plain_ne {e : Env} {be : Backend} {c : Nat} {t : List Nat}
    (h : plainText e be (Char.ofNat c) = some t) : c ≠ 115 := by
  intro hc
  subst hc
  cases be <;> simp [plainText, show Char.ofNat 115 = 's' from rfl] at h

/-! ### Rendering -/

theorem render_cons {e : Env} {be : Backend} {c : Nat} {p : List Nat} {args : List Arg} (h : c ≠ 36) :
    render e be (c :: p) args = (render e be p args).map (c :: ·) := by
  rw [render.eq_def]
  split <;> first | rfl | (simp_all; done) | skip

theorem render_run {e : Env} {be : Backend} (p : List Nat) (args : List Arg) :
    render e be p args =
      (render e be (p.drop (p.takeWhile (· ≠ 36)).length) args).map (p.takeWhile (· ≠ 36) ++ ·) := by
  induction p with
  | nil => simp
  | cons c p ih =>
    by_cases hc : c = 36
    · subst hc; simp [List.takeWhile_cons]
    · have : (c :: p).takeWhile (· ≠ 36) = c :: p.takeWhile (· ≠ 36) := by
        simp [List.takeWhile_cons, hc]
      rw [this, render_cons hc, ih, Option.map_map]
      rfl

theorem render_dollar {e : Env} {be : Backend} {c : Nat} {p : List Nat} {args : List Arg} :
    render e be (36 :: c :: p) args = match plainText e be (Char.ofNat c), args with
    | some t, args => (render e be p args).map (t ++ ·)
    | none, a :: args =>
      (argText e be (Char.ofNat c) a).bind fun t => (render e be p args).map (t ++ ·)
    | none, [] => none := by
  rw [render.eq_def]
  cases args <;> rfl

theorem drop_run (p : List Nat) : p.drop (p.takeWhile (· ≠ 36)).length = [] ∨
    ∃ r, p.drop (p.takeWhile (· ≠ 36)).length = 36 :: r := by
  induction p with
  | nil => simp
  | cons c p ih =>
    by_cases hc : c = 36
    · subst hc; right; exact ⟨p, by simp [List.takeWhile_cons]⟩
    · have : (c :: p).takeWhile (· ≠ 36) = c :: p.takeWhile (· ≠ 36) := by
        simp [List.takeWhile_cons, hc]
      rw [this]; simpa using ih

theorem grow_ge (need cap : Nat) (h : 0 < cap) : need ≤ grow need cap ∧ cap ≤ grow need cap := by
  induction hn : need - cap using Nat.strong_induction_on generalizing cap with
  | _ n ih =>
    rw [grow]
    split
    · rename_i hc
      have := ih (need - cap * 2) (by omega) (cap * 2) (by omega) rfl
      omega
    · omega

theorem expand_cap (b : Buf) (cur n : Nat) : cur + n < (expand b cur n).cap ∧ b.cap ≤ (expand b cur n).cap := by
  unfold expand
  dsimp only
  have := grow_ge (cur + (n + 1)) (if b.cap = 0 then 1 else b.cap) (by split <;> omega)
  split at this <;> split <;> omega

@[simp] theorem expand_read (b : Buf) (cur n i k : Nat) : (expand b cur n).read i k = b.read i k := rfl
@[simp] theorem expand_byte (b : Buf) (cur n i : Nat) : (expand b cur n).byte i = b.byte i := rfl
@[simp] theorem expand_cur (b : Buf) (cur n : Nat) : (expand b cur n).cur = cur := rfl

/-- The main loop of the formatters: given that the reserved space is available, it does not
leave the buffer and produces the text described by the format. -/
theorem loop_spec {e : Env} (he : e.inRange) (be : Backend) (nargs : Nat) (n : Nat) :
    ∀ (p : List Nat) (args : List Arg) (arg : Nat) (b : Buf) (cur : Nat) (t : List Nat),
    p.length = n → (∀ c ∈ p, c < 256) → (∀ a ∈ args, a.inRange) → nargs = arg + args.length →
    cur + fmtBound p.length args.length < b.cap → render e be p args = some t →
    ∃ b', fmtBackendLoop e be nargs b cur p args arg = .ok (b', cur + t.length, nargs) ∧
      cur + t.length < b'.cap ∧ b.cap ≤ b'.cap ∧ b'.read 0 (cur + t.length) = b.read 0 cur ++ t := by
  induction n using Nat.strong_induction_on with
  | _ n ih =>
    intro p args arg b cur t hn hb ha hargs hcap hrender
    rw [fmtBackendLoop]
    by_cases hp : p = []
    · subst hp
      rw [if_pos rfl]
      cases args with
      | cons a r => simp [render] at hrender
      | nil =>
        simp only [render, Option.some.injEq] at hrender
        subst hrender
        simp only [fmtBound, List.length_nil] at *
        exact ⟨b, by simp [hargs], by simpa using hcap, le_refl _, by simp⟩
    · rw [if_neg hp]
      have hpl : 0 < p.length := List.length_pos_iff.2 hp
      have hple : p.length ≤ fmtBound p.length args.length := by unfold fmtBound; omega
      obtain ⟨b1, e1, c1, u1, r1⟩ := w_run_spec p.length p b cur rfl hb (by omega)
      have hpre_le : (p.takeWhile (· ≠ 36)).length ≤ p.length := (List.takeWhile_prefix _).length_le
      have hdl : (p.drop (p.takeWhile (· ≠ 36)).length).length = p.length - (p.takeWhile (· ≠ 36)).length :=
        List.length_drop
      have hdb : ∀ c ∈ p.drop (p.takeWhile (· ≠ 36)).length, c < 256 :=
        fun c hc => hb c (List.mem_of_mem_drop hc)
      rw [render_run] at hrender
      generalize hpre : p.takeWhile (· ≠ 36) = pre at *
      generalize hq : p.drop pre.length = q at *
      obtain ⟨t', ht', rfl⟩ := Option.map_eq_some_iff.1 hrender
      have hdr := drop_run p
      rw [hpre, hq] at hdr
      simp only [fmtBound] at hcap
      split
      · rename_i hr; rw [e1] at hr; cases hr
      · -- end of the format reached
        rename_i b2 cur2 hr
        rw [e1] at hr
        simp only [Except.ok.injEq, Prod.mk.injEq] at hr
        obtain ⟨rfl, rfl, rfl⟩ := hr
        cases args with
        | cons a r => simp [render] at ht'
        | nil =>
          simp only [render, Option.some.injEq] at ht'
          subst ht'
          refine ⟨b1, by simp [hargs], ?_, by rw [c1], by simpa using r1⟩
          simp only [List.append_nil]; omega
      · -- lone `$`
        rename_i b2 cur2 x hr
        rw [e1] at hr
        simp only [Except.ok.injEq, Prod.mk.injEq] at hr
        obtain ⟨rfl, rfl, rfl⟩ := hr
        rcases hdr with h | ⟨r, h⟩
        · cases h
        · simp only [List.cons.injEq] at h
          obtain ⟨rfl, rfl⟩ := h
          simp [render] at ht'
      · rename_i b2 cur2 x c p' hr
        rw [e1] at hr
        simp only [Except.ok.injEq, Prod.mk.injEq] at hr
        obtain ⟨rfl, rfl, rfl⟩ := hr
        obtain rfl : x = 36 := by
          rcases hdr with h | ⟨r, h⟩
          · cases h
          · simp only [List.cons.injEq] at h; exact h.1
        simp only [List.length_cons] at hdl
        have hb' : ∀ c ∈ p', c < 256 := fun y hy => hdb y (by simp [hy])
        rw [render_dollar] at ht'
        by_cases hc : c = 115
        · subst hc
          rw [if_pos rfl]
          have hpl : plainText e be (Char.ofNat 115) = none := by
            cases be <;> simp [plainText, show Char.ofNat 115 = 's' from rfl]
          rw [hpl] at ht'
          cases args with
          | nil => simp at ht'
          | cons a args' =>
            simp only [Option.bind_eq_some_iff, Option.map_eq_some_iff] at ht'
            obtain ⟨s, hs, t2, ht2, rfl⟩ := ht'
            obtain rfl : a = .str s := by
              cases a with
              | u32 n => simp [argText, show Char.ofNat 115 = 's' from rfl] at hs
              | u64 n => simp [argText, show Char.ofNat 115 = 's' from rfl] at hs
              | str s' => simp [argText, show Char.ofNat 115 = 's' from rfl] at hs; rw [hs]
              | var v =>
                simp only [argText, Option.bind_eq_some_iff] at hs
                obtain ⟨ty, _, h2⟩ := hs
                cases be <;> simp [varText, show Char.ofNat 115 = 's' from rfl] at h2
            simp only [List.length_cons] at hargs hcap
            dsimp only
            rw [show nargs - arg - 1 = args'.length by omega]
            generalize hb3 : (if cur + pre.length + s.length + fmtBound p'.length args'.length ≥ b1.cap then
              expand b1 (cur + pre.length) (s.length + fmtBound p'.length args'.length) else b1) = b3
            have h3 : cur + pre.length + s.length + fmtBound p'.length args'.length < b3.cap ∧ b1.cap ≤ b3.cap ∧
                b3.read 0 (cur + pre.length) = b1.read 0 (cur + pre.length) := by
              rw [← hb3]
              split
              · have := expand_cap b1 (cur + pre.length) (s.length + fmtBound p'.length args'.length)
                exact ⟨by omega, this.2, rfl⟩
              · exact ⟨by omega, le_refl _, rfl⟩
            obtain ⟨b4, e4, c4, u4, r4⟩ := w_strn_spec (b := b3) (d := cur + pre.length) (s := s) (by omega)
            rw [e4]
            obtain ⟨b5, e5, c5, l5, r5⟩ := ih p'.length (by omega) p' args' (arg + 1) b4
              (cur + pre.length + s.length) t2 rfl hb' (fun y hy => ha y (by simp [hy])) (by omega)
              (by rw [c4]; omega) ht2
            refine ⟨b5, ?_, ?_, by omega, ?_⟩
            · dsimp only
              rw [e5]; simp only [List.length_append]
              congr 3; omega
            · simp only [List.length_append]; omega
            · rw [show cur + (pre ++ (s ++ t2)).length = cur + pre.length + s.length + t2.length by
                simp only [List.length_append]; omega, r5, r4, h3.2.2, r1]
              simp
        · rw [if_neg hc]
          cases hpt : plainText e be (Char.ofNat c) with
          | some tt =>
            rw [hpt] at ht'
            obtain ⟨t2, ht2, rfl⟩ := Option.map_eq_some_iff.1 ht'
            obtain ⟨ps, ep, hok, htx, hnd⟩ := plain_produces he args hpt
            rw [ep]
            dsimp only
            obtain ⟨b4, e4, c4, u4, r4⟩ := writePieces_spec ps b1 (cur + pre.length) hok (by omega)
            have hle := texts_le hok
            rw [htx] at *
            rw [e4]
            dsimp only
            obtain ⟨b5, e5, c5, l5, r5⟩ := ih p'.length (by omega) p' args (arg + (args.length - args.length)) b4
              (cur + pre.length + tt.length) t2 rfl hb' ha (by omega)
              (by rw [c4, c1]; simp only [fmtBound]; omega) ht2
            refine ⟨b5, ?_, ?_, by omega, ?_⟩
            · rw [e5]; simp only [List.length_append]; congr 3; omega
            · simp only [List.length_append]; omega
            · rw [show cur + (pre ++ (tt ++ t2)).length = cur + pre.length + tt.length + t2.length by
                simp only [List.length_append]; omega, r5, r4, r1]
              simp
          | none =>
            rw [hpt] at ht'
            cases args with
            | nil => simp at ht'
            | cons a args' =>
              simp only [Option.bind_eq_some_iff, Option.map_eq_some_iff] at ht'
              obtain ⟨tt, hs, t2, ht2, rfl⟩ := ht'
              simp only [List.length_cons] at hargs hcap
              obtain ⟨ps, ep, hok, htx, hnd⟩ := arg_produces he args' hc (ha a (by simp)) hs
              rw [ep]
              dsimp only
              obtain ⟨b4, e4, c4, u4, r4⟩ := writePieces_spec ps b1 (cur + pre.length) hok (by omega)
              have hle := texts_le hok
              rw [htx] at *
              rw [e4]
              dsimp only
              obtain ⟨b5, e5, c5, l5, r5⟩ := ih p'.length (by omega) p' args'
                (arg + ((a :: args').length - args'.length)) b4
                (cur + pre.length + tt.length) t2 rfl hb' (fun y hy => ha y (by simp [hy]))
                (by simp only [List.length_cons]; omega)
                (by rw [c4, c1]; simp only [fmtBound]; omega) ht2
              refine ⟨b5, ?_, ?_, by omega, ?_⟩
              · rw [e5]; simp only [List.length_append]; congr 3; omega
              · simp only [List.length_append]; omega
              · rw [show cur + (pre ++ (tt ++ t2)).length = cur + pre.length + tt.length + t2.length by
                  simp only [List.length_append]; omega, r5, r4, r1]
                simp

end Verif.StrBuf
