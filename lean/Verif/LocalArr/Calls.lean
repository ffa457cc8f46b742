import Verif.LocalArr.History

/-
Local arrays (C43): the calls.
-/

namespace Verif.LocalArr

section

variable {s : State} {ms : Meanings} {sv : Nat → Option SVal}

theorem HInv.lt (H : HInv s ms sv) {v : Nat} (h : (s.vars v).kind ≠ .literal) : v < s.next := by
  by_contra hh
  rw [H.fresh v (by omega)] at h
  exact h rfl

theorem HInv.operands (H : HInv s ms sv) : ∀ (args : List Nat) (xs : List SVal),
    (∀ a ∈ args, s.idx a ≠ 0) → operands ms.at args = some xs →
    LocalArr.operands sv (args.map s.idx) = some xs
  | [], _, _, h => h
  | a :: args, xs, h0, h => by
    simp only [LocalArr.operands, Option.bind_eq_some_iff, Option.map_eq_some_iff] at h
    obtain ⟨x, hx, xs', hxs, rfl⟩ := h
    simp only [List.map_cons, LocalArr.operands]
    rw [H.hm a x (h0 a List.mem_cons_self) hx,
      H.operands args xs' (fun b hb => h0 b (List.mem_cons_of_mem _ hb)) hxs]
    rfl

/-- The value of an initialisation is not an array. -/
theorem HInv.initVal (H : HInv s ms sv) {v : Nat} (hk : (s.vars v).kind = .init) :
    (s.vars (s.vars v).value).isArray = false := H.wf.valueI v hk

/-- The offset, if it is turned into a literal. -/
theorem HInv.literal (H : HInv s ms sv) {v : Nat} {x : SVal} (hk : (s.vars v).kind = .literal)
    (hx : sv v = some x) : x = .scalar (some (s.vars v).literal) := by
  have := (H.cons v x hx).1
  simpa [Meant, hk] using this

theorem call_literal (H : HInv s ms sv) (x size : Nat) :
    ∃ sv', HInv (call s (.literal x size)) (ms ++ [meaning ms.at (.literal x size)]) sv' := by
  rw [call_some (s := s) (s' := (s.new { kind := .literal, literal := x, size }).1) (i := s.next) rfl rfl]
  refine H.newRet _ _ ?_ (by simp) ?_ ?_ (by simp)
  · intro d hd
    have := H.pos
    simp [refs] at hd; omega
  · exact wfv_literal (by simp) (by simp)
  · intro y hy
    simp only [meaning, Option.some.injEq] at hy
    subst hy
    exact ⟨by simp [Meant], rfl⟩

theorem call_input (H : HInv s ms sv) (x size : Nat) :
    ∃ sv', HInv (call s (.input x size)) (ms ++ [meaning ms.at (.input x size)]) sv' := by
  rw [call_some (s := s) (s' := (s.new { kind := .evaluated, data := fun _ => x, size }).1) (i := s.next) rfl rfl]
  refine H.newRet _ _ ?_ (by simp) ?_ ?_ (by simp)
  · intro d hd
    have := H.pos
    simp [refs] at hd; omega
  · constructor <;> simp [Kind.accesses]
  · intro y hy
    simp only [meaning, Option.some.injEq] at hy
    subst hy
    refine ⟨?_, rfl⟩
    simp only [Meant, set_self]
    intro z hz
    simpa using hz

theorem call_compute (H : HInv s ms sv) (f : List Nat → Nat) (size : Nat) (args : List Nat) :
    ∃ sv', HInv (call s (.compute f size args)) (ms ++ [meaning ms.at (.compute f size args)]) sv' := by
  cases hc : callOn s (.compute f size args) with
  | none => rw [call_none hc]; exact ⟨sv, H.ret0 _⟩
  | some r =>
    have hc' := hc
    simp only [callOn, compute] at hc'
    split at hc'
    · cases hc'
    · rename_i h1
      split at hc'
      · cases hc'
      · simp only [Option.some.injEq] at hc'
        rw [call_some (s' := r.1) (i := r.2) hc (by rw [← hc']; rfl), ← hc']
        have h0 : ∀ a ∈ args, s.idx a ≠ 0 := by
          intro a ha h0
          apply h1
          simp only [List.any_eq_true, List.mem_map]
          exact ⟨s.idx a, ⟨a, ha, rfl⟩, by simp [h0]⟩
        refine H.newRet _ _ ?_ (by simp) ?_ ?_ (by simp)
        · intro d hd
          have := H.pos
          simp only [refs, Option.toList, List.nil_append, List.mem_cons, List.mem_map] at hd
          rcases hd with rfl | rfl | rfl | rfl | ⟨a, _, rfl⟩
          · omega
          · omega
          · omega
          · omega
          · exact H.hb a
        · constructor <;> simp [Kind.accesses]
        · intro y hy
          simp only [meaning, Option.bind_eq_some_iff] at hy
          obtain ⟨xs, hxs, hy⟩ := hy
          have hop := H.operands args xs h0 hxs
          constructor
          · simp only [Meant, set_self]
            right
            refine ⟨xs, ?_, hy⟩
            rw [operands_congr (sv := sv)]
            · exact hop
            · intro a ha
              simp only [List.mem_map] at ha
              obtain ⟨k, _, rfl⟩ := ha
              exact set_ne _ _ (by have := H.hb k; omega)
          · simp only [computeVal, Option.map_eq_some_iff] at hy
            obtain ⟨_, _, rfl⟩ := hy
            rfl

theorem call_create (H : HInv s ms sv) (size len : Nat) :
    ∃ sv', HInv (call s (.create size len)) (ms ++ [meaning ms.at (.create size len)]) sv' := by
  cases hc : callOn s (.create size len) with
  | none => rw [call_none hc]; exact ⟨sv, H.ret0 _⟩
  | some r =>
    have hc' := hc
    simp only [callOn, arrayCreate] at hc'
    split at hc'
    · cases hc'
    · split at hc'
      · simp only [Option.some.injEq] at hc'
        rw [call_some (s' := r.1) (i := r.2) hc (by rw [← hc']), ← hc']
        exact ⟨sv, H.ret0 _⟩
      · simp only [Option.some.injEq] at hc'
        rw [call_some (s' := r.1) (i := r.2) hc (by rw [← hc']; rfl), ← hc']
        refine H.newRet _ _ ?_ (by simp) ?_ ?_ (by simp [meaning])
        · intro d hd
          have := H.pos
          simp [refs] at hd; omega
        · constructor <;> simp [Kind.accesses]
        · intro y hy
          simp only [meaning, Option.some.injEq] at hy
          subst hy
          refine ⟨by simp [Meant], ?_⟩
          simp [createVal, Shape]

theorem call_init (H : HInv s ms sv) (t v : Nat) :
    ∃ sv', HInv (call s (.init t v)) (ms ++ [meaning ms.at (.init t v)]) sv' := by
  cases hc : callOn s (.init t v) with
  | none => rw [call_none hc]; exact ⟨sv, H.ret0 _⟩
  | some r =>
    have hc' := hc
    simp only [callOn, arrayInit] at hc'
    split at hc'
    · simp only [Option.some.injEq] at hc'
      rw [call_some (s' := r.1) (i := r.2) hc (by rw [← hc']), ← hc']
      exact ⟨sv, H.ret0 _⟩
    · split at hc'
      · cases hc'
      · rename_i h0
        split at hc'
        · cases hc'
        · rename_i h1
          split at hc'
          · cases hc'
          · simp only [Option.some.injEq] at hc'
            rw [call_some (s' := r.1) (i := r.2) hc (by rw [← hc']; rfl), ← hc']
            push Not at h0
            simp only [Bool.or_eq_true, Bool.not_eq_true', not_or, Bool.not_eq_false,
              Bool.not_eq_true] at h1
            have hbt := H.hb t
            have hbv := H.hb v
            have hold : ∀ {α : Type} (g : Nat → α) (a : α) (k : Nat), set g s.next a (s.idx k) = g (s.idx k) :=
              fun g a k => set_ne _ _ (by have := H.hb k; omega)
            refine H.newRet _ _ ?_ (by simp) ?_ ?_ (by simp)
            · intro d hd
              have := H.pos
              simp [refs] at hd
              rcases hd with rfl | rfl | rfl <;> omega
            · constructor <;> simp only [set_self, Kind.accesses, reduceCtorEq, false_implies,
                forall_const]
              · unfold Version
                rw [hold]
                exact ⟨h1.1, H.hv t⟩
              · rw [hold]
              · rw [hold]; exact h1.2
            · intro y hy
              simp only [meaning, Option.bind_eq_some_iff] at hy
              obtain ⟨a, ha, b, hb, hy⟩ := hy
              have h2 := H.hm t a h0.1 ha
              have h3 := H.hm v b h0.2 hb
              constructor
              · simp only [Meant, set_self]
                exact ⟨a, b, by rw [hold]; exact h2, by rw [hold]; exact h3, hy⟩
              · cases a with
                | scalar _ => simp [initVal] at hy
                | arr l c =>
                  have hl := (H.cons _ _ h2).2.2
                  cases b with
                  | arr _ _ => simp [initVal] at hy
                  | scalar x =>
                    simp only [initVal, Option.some.injEq] at hy
                    subst hy
                    exact ⟨rfl, hl⟩

theorem call_read (H : HInv s ms sv) (a o m : Nat) (b : Bool) (hr : ReadOK s ms (.read a o m b)) :
    ∃ sv', HInv (call s (.read a o m b)) (ms ++ [meaning ms.at (.read a o m b)]) sv' := by
  cases hc : callOn s (.read a o m b) with
  | none => rw [call_none hc]; exact ⟨sv, H.ret0 _⟩
  | some r =>
    have hc' := hc
    have hpos := H.pos
    have hba := H.hb a
    have hbo := H.hb o
    have hbm := H.hb m
    have hold : ∀ {α : Type} (g : Nat → α) (x : α) (k : Nat), set g s.next x (s.idx k) = g (s.idx k) :=
      fun g x k => set_ne _ _ (by have := H.hb k; omega)
    simp only [callOn, arrayRead] at hc'
    split at hc'
    · simp only [Option.some.injEq] at hc'
      rw [call_some (s' := r.1) (i := r.2) hc (by rw [← hc']), ← hc']
      exact ⟨sv, H.ret0 _⟩
    · split at hc'
      · cases hc'
      · rename_i h0
        push Not at h0
        obtain ⟨ha0, ho0, hm0⟩ := h0
        -- the meanings of the operands
        have hmean : ∀ y, meaning ms.at (.read a o m b) = some y → ∃ xa xo xm,
            sv (s.idx a) = some xa ∧ sv (s.idx o) = some xo ∧ sv (s.idx m) = some xm ∧
            ms.at m = some xm ∧ readVal xa xo xm = some y := by
          intro y hy
          simp only [meaning, Option.bind_eq_some_iff] at hy
          obtain ⟨xa, hxa, xo, hxo, xm, hxm, hy⟩ := hy
          exact ⟨xa, xo, xm, H.hm a xa ha0 hxa, H.hm o xo ho0 hxo, H.hm m xm hm0 hxm, hxm, hy⟩
        split at hc'
        · -- the mask is the literal zero
          rename_i hz
          simp only [Option.some.injEq] at hc'
          rw [call_some (s' := r.1) (i := r.2) hc (by rw [← hc']; rfl), ← hc']
          refine H.newRet _ _ ?_ (by simp) (wfv_literal (by simp) (by simp)) ?_ (by simp)
          · intro d hd; simp [refs] at hd; omega
          · intro y hy
            obtain ⟨xa, xo, xm, _, _, hxm, _, hy⟩ := hmean y hy
            have := H.literal hz.1 hxm
            rw [hz.2] at this
            subst this
            cases xa with
            | scalar _ => simp [readVal] at hy
            | arr _ _ =>
              simp only [readVal, Option.some.injEq] at hy
              subst hy
              exact ⟨by simp [Meant], rfl⟩
        · rename_i hz
          split at hc'
          · cases hc'
          · rename_i h1
            simp only [Bool.or_eq_true, Bool.not_eq_true', not_or, Bool.not_eq_false,
              Bool.not_eq_true] at h1
            obtain ⟨⟨h1a, h1o⟩, h1m⟩ := h1
            split at hc'
            · cases hc'
            · split at hc'
              · cases hc'
              · rename_i hlen
                simp only [Option.some.injEq, readFrom] at hc'
                have hset : b = false → (s.vars (s.idx a)).kind = .init ∨
                    (s.vars (s.idx a)).kind = .array → ∀ xm, sv (s.idx m) = some xm →
                    ms.at m = some xm → xm ≠ .scalar (some 0) := by
                  rintro hi1 hi2 xm hxm hmm rfl
                  subst hi1
                  rcases hr hi2 with hl | hl
                  · have := H.literal hl hxm
                    simp only [SVal.scalar.injEq, Option.some.injEq] at this
                    exact hz ⟨hl, this.symm⟩
                  · exact hl hmm
                split at hc'
                · rename_i hi
                  simp only [Bool.and_eq_true, Bool.not_eq_true', beq_iff_eq] at hi
                  rw [call_some (s' := r.1) (i := r.2) hc (by rw [← hc']), ← hc']
                  refine ⟨sv, H.ret ?_ ?_ ?_⟩
                  · exact H.bound _ hba _ (by simp [refs])
                  · intro hk
                    exact absurd (H.wf.array _ hk) (by rw [H.initVal hi.2]; simp)
                  · intro h0 y hy
                    obtain ⟨xa, xo, xm, hxa, hxo, hxm, hmm, hy⟩ := hmean y hy
                    have hme := (H.cons _ _ hxa).1
                    simp only [Meant, hi.2] at hme
                    obtain ⟨t, x, _, hx, hiv⟩ := hme
                    have hnz := hset hi.1 (.inl hi.2) xm hxm hmm
                    cases t with
                    | scalar _ => simp [LocalArr.initVal] at hiv
                    | arr l c =>
                      cases x with
                      | arr _ _ => simp [LocalArr.initVal] at hiv
                      | scalar x =>
                        simp only [LocalArr.initVal, Option.some.injEq] at hiv
                        subst hiv
                        cases xm with
                        | arr _ _ => simp [readVal] at hy
                        | scalar xm =>
                          cases xm with
                          | none => simp [readVal] at hy
                          | some n =>
                            cases n with
                            | zero => exact absurd rfl hnz
                            | succ n =>
                              cases xo with
                              | arr _ _ => simp [readVal] at hy
                              | scalar xo =>
                                cases xo with
                                | none => simp [readVal] at hy
                                | some q =>
                                  simp only [readVal] at hy
                                  split at hy
                                  · rename_i hq
                                    simp only [Option.some.injEq] at hy
                                    rw [hx, hy]
                                  · cases hy
                · split at hc'
                  · -- nothing was written yet
                    rename_i hi
                    simp only [Bool.and_eq_true, Bool.not_eq_true', beq_iff_eq] at hi
                    rw [call_some (s' := r.1) (i := r.2) hc (by rw [← hc']; rfl), ← hc']
                    obtain ⟨sv', hsv'⟩ := H.newRet { kind := .compute, size := max (max (s.vars (s.idx a)).size (s.vars (s.idx o)).size) (s.vars (s.idx m)).size }
                      (meaning ms.at (.read a o m b)) (by intro d hd; simp [refs] at hd; omega)
                      (by simp) (by constructor <;> simp [Kind.accesses]) (by
                        intro y hy
                        obtain ⟨xa, xo, xm, hxa, hxo, hxm, hmm, hy⟩ := hmean y hy
                        have hme := (H.cons _ _ hxa).1
                        simp only [Meant, hi.2] at hme
                        subst hme
                        have hnz := hset hi.1 (.inr hi.2) xm hxm hmm
                        have : y = .scalar none := by
                          cases xm with
                          | arr _ _ => simp [createVal, readVal] at hy
                          | scalar xm =>
                            cases xm with
                            | none => simp [createVal, readVal] at hy
                            | some n =>
                              cases n with
                              | zero => exact absurd rfl hnz
                              | succ n =>
                                cases xo with
                                | arr _ _ => simp [createVal, readVal] at hy
                                | scalar xo =>
                                  cases xo with
                                  | none => simp [createVal, readVal] at hy
                                  | some q =>
                                    simp only [createVal, readVal] at hy
                                    split at hy
                                    · simpa using hy.symm
                                    · cases hy
                        subst this
                        exact ⟨by simp [Meant], rfl⟩) (by simp)
                    exact ⟨sv', hsv'⟩
                  · rw [call_some (s' := r.1) (i := r.2) hc (by rw [← hc']; rfl), ← hc']
                    have hkr : (readVar s (s.idx a) (s.idx o) (s.idx m)).kind = .read := by
                      simp only [readVar]; split <;> rfl
                    have hka : (readVar s (s.idx a) (s.idx o) (s.idx m)).isArray = false := by
                      simp only [readVar]; split <;> rfl
                    have hkd : (readVar s (s.idx a) (s.idx o) (s.idx m)).dep0 = s.idx a := by
                      simp only [readVar]; split <;> rfl
                    have hkm : (readVar s (s.idx a) (s.idx o) (s.idx m)).mask = s.idx m := by
                      simp only [readVar]; split <;> rfl
                    refine H.newRet _ _ ?_ (by simp [hkr]) ?_ ?_ (by simp [hkr])
                    · intro d hd
                      simp only [readVar] at hd
                      split at hd <;> simp [refs] at hd <;> omega
                    · constructor <;> simp only [set_self, Kind.accesses, hkr, hka, hkd,
                        reduceCtorEq, false_implies, forall_const]
                      unfold Version
                      rw [hold]
                      exact ⟨h1a, H.hv a⟩
                    · intro y hy
                      obtain ⟨xa, xo, xm, hxa, hxo, hxm, hmm, hyv⟩ := hmean y hy
                      constructor
                      · simp only [Meant, set_self, hkr, hkd, hkm]
                        refine ⟨xa, xo, xm, by rw [hold]; exact hxa, ?_, by rw [hold]; exact hxm, hyv⟩
                        simp only [readVar]
                        split
                        · rename_i hl
                          have := H.literal hl hxo
                          subst this
                          rfl
                        · simp only [offsetVal]
                          rw [hold]; exact hxo
                      · have : ∃ z, y = .scalar z := by
                          unfold readVal at hyv
                          split at hyv
                          · exact ⟨_, by simpa using hyv.symm⟩
                          · split at hyv
                            · exact ⟨_, by simpa using hyv.symm⟩
                            · cases hyv
                          · cases hyv
                        obtain ⟨z, rfl⟩ := this
                        exact hka

theorem bufferFrom_isArray (H : HInv s ms sv) : ∀ (n v : Nat), (s.vars v).isArray = true →
    (s.vars (bufferFrom s.vars n v)).isArray = true
  | 0, _, h => h
  | n + 1, v, h => by
    simp only [bufferFrom]
    cases hk : (s.vars v).kind with
    | array => exact h
    | evaluated => exact h
    | init => exact bufferFrom_isArray H n _ (H.wf.target v (by simp [hk, Kind.accesses])).1
    | write => exact bufferFrom_isArray H n _ (H.wf.array _ (H.wf.storeKind v hk).1)
    | literal => rw [H.wf.scalarL v hk] at h; cases h
    | compute => rw [H.wf.scalarC v hk] at h; cases h
    | read => rw [H.wf.scalarR v hk] at h; cases h

theorem call_write (H : HInv s ms sv) (t o v m : Nat) :
    ∃ sv', HInv (call s (.write t o v m)) (ms ++ [meaning ms.at (.write t o v m)]) sv' := by
  cases hc : callOn s (.write t o v m) with
  | none => rw [call_none hc]; exact ⟨sv, H.ret0 _⟩
  | some r =>
    have hc' := hc
    have hpos := H.pos
    have hbt := H.hb t
    have hbo := H.hb o
    have hbv := H.hb v
    have hbm := H.hb m
    simp only [callOn, arrayWrite] at hc'
    split at hc'
    · simp only [Option.some.injEq] at hc'
      rw [call_some (s' := r.1) (i := r.2) hc (by rw [← hc']), ← hc']
      exact ⟨sv, H.ret0 _⟩
    · split at hc'
      · cases hc'
      · rename_i h0
        push Not at h0
        obtain ⟨ht0, ho0, hv0, hm0⟩ := h0
        have hmean : ∀ y, meaning ms.at (.write t o v m) = some y → ∃ xt xo xv xm,
            sv (s.idx t) = some xt ∧ sv (s.idx o) = some xo ∧ sv (s.idx v) = some xv ∧
            sv (s.idx m) = some xm ∧ writeVal xt xo xv xm = some y := by
          intro y hy
          simp only [meaning, Option.bind_eq_some_iff] at hy
          obtain ⟨xt, hxt, xo, hxo, xv, hxv, xm, hxm, hy⟩ := hy
          exact ⟨xt, xo, xv, xm, H.hm t xt ht0 hxt, H.hm o xo ho0 hxo, H.hm v xv hv0 hxv,
            H.hm m xm hm0 hxm, hy⟩
        split at hc'
        · rename_i hz
          simp only [Option.some.injEq] at hc'
          rw [call_some (s' := r.1) (i := r.2) hc (by rw [← hc']), ← hc']
          refine ⟨sv, H.ret hbt (H.hv t) ?_⟩
          intro _ y hy
          obtain ⟨xt, xo, xv, xm, hxt, hxo, hxv, hxm, hy⟩ := hmean y hy
          have := H.literal hz.1 hxm
          rw [hz.2] at this
          subst this
          cases xt with
          | scalar _ => simp [writeVal] at hy
          | arr l c =>
            cases xv with
            | arr _ _ => simp [writeVal] at hy
            | scalar _ =>
              simp only [writeVal, Option.some.injEq] at hy
              rw [hxt, hy]
        · split at hc'
          · cases hc'
          · rename_i h1
            simp only [Bool.or_eq_true, Bool.not_eq_true', not_or, Bool.not_eq_false,
              Bool.not_eq_true] at h1
            obtain ⟨⟨⟨h1t, h1v⟩, h1m⟩, h1o⟩ := h1
            split at hc'
            · cases hc'
            · split at hc'
              · cases hc'
              · simp only [Option.some.injEq] at hc'
                rw [call_some (s' := r.1) (i := r.2) hc (by rw [← hc']; rfl), ← hc']
                generalize max (max (s.vars (s.idx t)).size (s.vars (s.idx o)).size)
                  (max (s.vars (s.idx v)).size (s.vars (s.idx m)).size) = size
                simp only [writeTo]
                have hbuf := bufferFrom_isArray H (s.idx t + 2) (s.idx t) h1t
                have hbn : buffer s.vars (s.idx t) < s.next := by
                  by_contra hh
                  rw [show bufferFrom s.vars (s.idx t + 2) (s.idx t) = buffer s.vars (s.idx t) from rfl,
                    H.fresh _ (by omega)] at hbuf
                  cases hbuf
                have hb0 : buffer s.vars (s.idx t) ≠ 0 := by
                  intro hh
                  rw [show bufferFrom s.vars (s.idx t + 2) (s.idx t) = buffer s.vars (s.idx t) from rfl,
                    hh, H.zero] at hbuf
                  cases hbuf
                have hk : (writeVar s (s.idx t) (s.idx o) (s.idx v) (s.idx m) size (s.next + 1)).kind
                    = .write := by simp only [writeVar]; split <;> rfl
                have hia : (writeVar s (s.idx t) (s.idx o) (s.idx v) (s.idx m) size (s.next + 1)).isArray
                    = true := by simp only [writeVar]; split <;> rfl
                have hkd : (writeVar s (s.idx t) (s.idx o) (s.idx v) (s.idx m) size (s.next + 1)).dep0
                    = s.idx t := by simp only [writeVar]; split <;> rfl
                have hkv : (writeVar s (s.idx t) (s.idx o) (s.idx v) (s.idx m) size (s.next + 1)).value
                    = s.idx v := by simp only [writeVar]; split <;> rfl
                have hkm : (writeVar s (s.idx t) (s.idx o) (s.idx v) (s.idx m) size (s.next + 1)).mask
                    = s.idx m := by simp only [writeVar]; split <;> rfl
                have hks : (writeVar s (s.idx t) (s.idx o) (s.idx v) (s.idx m) size (s.next + 1)).store
                    = s.next + 1 := by simp only [writeVar]; split <;> rfl
                have hkl : (writeVar s (s.idx t) (s.idx o) (s.idx v) (s.idx m) size (s.next + 1)).len
                    = (s.vars (s.idx t)).len := by simp only [writeVar]; split <;> rfl
                have hko : ∀ q ∈ (writeVar s (s.idx t) (s.idx o) (s.idx v) (s.idx m) size
                    (s.next + 1)).offset.toList, q = s.idx o := by
                  intro q hq
                  simp only [writeVar] at hq
                  split at hq <;> simp at hq
                  exact hq
                have hka : (writeVar s (s.idx t) (s.idx o) (s.idx v) (s.idx m) size (s.next + 1)).args
                    = [] := by simp only [writeVar]; split <;> rfl
                have hoff : ∀ xo, sv (s.idx o) = some xo → offsetVal sv (writeVar s (s.idx t) (s.idx o)
                    (s.idx v) (s.idx m) size (s.next + 1)) = some xo := by
                  intro xo hxo
                  simp only [writeVar]
                  split
                  · rename_i hl
                    have := H.literal hl hxo
                    subst this
                    rfl
                  · exact hxo
                generalize writeVar s (s.idx t) (s.idx o) (s.idx v) (s.idx m) size (s.next + 1) = w at *
                have hold : ∀ (p : Var) u, u < s.next →
                    set (set s.vars s.next w) (s.next + 1) p u = s.vars u := fun p u hu => by
                  rw [set_ne _ _ (by omega), set_ne _ _ (by omega)]
                have hself : ∀ (p : Var), set (set s.vars s.next w) (s.next + 1) p s.next = w :=
                  fun p => by rw [set_ne _ _ (by omega), set_self]
                have hnew := H.new2 w { kind := .array, isArray := true, size, len := (s.vars (s.idx t)).len, dep0 := buffer s.vars (s.idx t) } (meaning ms.at (.write t o v m))
                  (by
                    intro d hd
                    simp only [refs, hkd, hkv, hkm, hks, hka, List.append_nil, List.mem_cons] at hd
                    rcases hd with rfl | rfl | rfl | rfl | hd
                    · omega
                    · omega
                    · omega
                    · omega
                    · rw [hko d hd]; omega)
                  (by
                    intro d hd
                    simp [refs] at hd
                    rcases hd with rfl | rfl <;> omega)
                  hk hks (by omega) (by omega) (by omega)
                  (fun q hq => by rw [hko q hq]; omega) rfl rfl
                  (by
                    have hself' := hself { kind := .array, isArray := true, size, len := (s.vars (s.idx t)).len, dep0 := buffer s.vars (s.idx t) }
                    have hold' := hold { kind := .array, isArray := true, size, len := (s.vars (s.idx t)).len, dep0 := buffer s.vars (s.idx t) }
                    constructor <;> simp only [hself', hk, hia, hkd, hks, hkl, set_self, hold' _ hbt,
                      Kind.accesses, reduceCtorEq, false_implies, forall_const, ne_eq]
                    · unfold Version
                      rw [hold' _ hbt]
                      exact ⟨h1t, H.hv t⟩
                    · exact ⟨trivial, hb0⟩
                    · intro hh
                      simp [buffer, bufferFrom, hh]
                    · intro hh
                      exact buffer_write H.wf hh
                    · intro hh
                      have : (s.vars (s.idx t)).dep0 < s.next := H.bound _ hbt _ (by simp [refs])
                      rw [hold' _ this]
                      intro hh2
                      simp [buffer, bufferFrom, hh, hh2])
                  (by constructor <;> simp [Kind.accesses])
                  (by
                    intro y hy
                    obtain ⟨xt, xo, xv, xm, hxt, hxo, hxv, hxm, hy⟩ := hmean y hy
                    constructor
                    · simp only [Meant, set_self, hk, hkd, hkv, hkm]
                      exact ⟨xt, xo, xv, xm, hxt, hoff xo hxo, hxv, hxm, hy⟩
                    · have hl := (H.cons _ _ hxt).2
                      have : ∃ l c c', xt = .arr l c ∧ y = .arr l c' := by
                        unfold writeVal at hy
                        split at hy
                        · exact ⟨_, _, _, rfl, by simpa using hy.symm⟩
                        · split at hy
                          · exact ⟨_, _, _, rfl, by simpa using hy.symm⟩
                          · cases hy
                        · cases hy
                      obtain ⟨l, c, c', rfl, rfl⟩ := this
                      exact ⟨hia, by rw [hkl]; exact hl.2⟩)
                refine ⟨_, hnew.ret (i := s.next) ?_ ?_ ?_⟩
                · show s.next < s.next + 1 + 1
                  omega
                · show (set (set s.vars s.next w) (s.next + 1) _ s.next).kind = _ → _
                  rw [hself, hk]
                  intro hh; cases hh
                · intro _ y hy
                  rw [set_ne _ _ (by omega), set_self]
                  exact hy

/-- Calls keep the invariant. -/
theorem call_ok (H : HInv s ms sv) (op : Op) (hr : ReadOK s ms op) :
    ∃ sv', HInv (call s op) (ms ++ [meaning ms.at op]) sv' := by
  cases op with
  | literal x size => exact call_literal H x size
  | input x size => exact call_input H x size
  | compute f size args => exact call_compute H f size args
  | create size len => exact call_create H size len
  | init t v => exact call_init H t v
  | write t o v m => exact call_write H t o v m
  | read a o m b => exact call_read H a o m b hr

end

end Verif.LocalArr
