import Verif.Cache.Crash

namespace Verif.Cache
section
variable (G : Codec) (key : Src → Nat) (errs : Bool)

/-- If the temporary file of this process is the entry, then `ino` is that file. -/
def Own (s : Sys) (src : Src) (pid ino : Nat) : Prop :=
  ∀ t, s.link (.tmp (key src) pid) = some t → s.link (.entry (key src)) = some t → ino = t

/-- What holds of a process -/
def POK (s : Sys) (pid : Nat) : PC → Prop
  | .rdHdr src _ ino => errs = false → Own key s src pid ino
  | .rdBody src acc ino => hdrSize ≤ acc.length ∧ (∃ sz, checkHeader sz (acc.take hdrSize) src) ∧
      (∃ q ∈ s.stored, acc.take hdrSize = (encode G q.1 q.2).take hdrSize) ∧
      (errs = false → Own key s src pid ino ∧
        ∀ t, s.link (.tmp (key src) pid) = some t → s.link (.entry (key src)) = some t → acc <+: s.data t)
  | .compile src => errs = false → ∀ t, s.link (.tmp (key src) pid) = some t → s.link (.entry (key src)) ≠ some t
  | .writing src k ino off => (src, k) ∈ s.stored ∧ s.link (.tmp (key src) pid) = some ino ∧
      s.data ino = (encode G src k).take off ∧ off ≤ (encode G src k).length ∧
      (errs = false → ∀ κ, s.link (.entry κ) ≠ some ino)
  | .publish src k => (src, k) ∈ s.stored ∧ ∃ ino, s.link (.tmp (key src) pid) = some ino ∧ s.data ino = encode G src k
  | _ => True

/-- What holds of the rest -/
structure GOK (s : Sys) : Prop where
  fits : ∀ q ∈ s.stored, Fits q.1 q.2 ∧ sumOf G q.1 q.2 ∈ s.hashed
  pre : ∀ ino, s.data ino = [] ∨ ∃ q ∈ s.stored, s.data ino <+: encode G q.1 q.2
  fresh : ∀ n ino, s.link n = some ino → ino < s.next
  tmps : ∀ κ p κ' p' t, s.link (.tmp κ p) = some t → s.link (.tmp κ' p') = some t → κ = κ' ∧ p = p'
  ents : ∀ κ p κ' t, s.link (.tmp κ p) = some t → s.link (.entry κ') = some t → κ = κ'
  loads : ∀ l ∈ s.loads, ∃ x ∈ s.hashed, ∃ q ∈ s.stored, G.H x = G.H (sumOf G q.1 q.2) ∧
    (x = sumOf G q.1 q.2 → l.1 = q.1 ∧ l.2 = .ok q.2)
  full : errs = false → ∀ κ ino, s.link (.entry κ) = some ino → ∃ q ∈ s.stored, key q.1 = κ ∧ s.data ino = encode G q.1 q.2

structure Inv (s : Sys) : Prop where
  glob : GOK G key errs s
  procs : ∀ i p, s.proc i = some p → POK G key errs s p.pid p.pc
  pids : ∀ i j p q, s.proc i = some p → s.proc j = some q → p.pid = q.pid → i = j

variable {G key errs}

/-- What the steps of the process with number `p` do not touch -/
structure Fr (s t : Sys) (p : Nat) : Prop where
  tmp : ∀ κ q, q ≠ p → t.link (.tmp κ q) = s.link (.tmp κ q)
  data : ∀ κ q x, q ≠ p → s.link (.tmp κ q) = some x → t.data x = s.data x
  entry : ∀ κ q x κ', q ≠ p → s.link (.tmp κ q) = some x → t.link (.entry κ') = some x → s.link (.entry κ') = some x
  stored : ∀ q ∈ s.stored, q ∈ t.stored

theorem pok_frame {s t : Sys} {p q : Nat} (hf : Fr s t p) (hq : q ≠ p) {pc : PC} (h : POK G key errs s q pc) :
    POK G key errs t q pc := by
  have own : ∀ {src ino}, Own key s src q ino → Own key t src q ino := by
    intro src ino ho x h1 h2
    rw [hf.tmp _ _ hq] at h1
    exact ho x h1 (hf.entry _ _ _ _ hq h1 h2)
  cases pc with
  | rdHdr src sz ino => exact fun he => own (h he)
  | rdBody src acc ino =>
    obtain ⟨h1, h2, ⟨r, hr, h3⟩, h4⟩ := h
    refine ⟨h1, h2, ⟨r, hf.stored r hr, h3⟩, fun he => ⟨own (h4 he).1, ?_⟩⟩
    intro x hx1 hx2
    rw [hf.tmp _ _ hq] at hx1
    rw [hf.data _ _ _ hq hx1]
    exact (h4 he).2 x hx1 (hf.entry _ _ _ _ hq hx1 hx2)
  | compile src =>
    intro he x h1 h2
    rw [hf.tmp _ _ hq] at h1
    exact h he x h1 (hf.entry _ _ _ _ hq h1 h2)
  | writing src k ino off =>
    obtain ⟨h1, h2, h3, h4, h5⟩ := h
    refine ⟨hf.stored _ h1, by rw [hf.tmp _ _ hq, h2], by rw [hf.data _ _ _ hq h2, h3], h4, ?_⟩
    intro he κ hc
    exact h5 he κ (hf.entry _ _ _ _ hq h2 hc)
  | publish src k =>
    obtain ⟨h1, ino, h2, h3⟩ := h
    exact ⟨hf.stored _ h1, ino, by rw [hf.tmp _ _ hq, h2], by rw [hf.data _ _ _ hq h2, h3]⟩
  | idle => trivial
  | check => trivial
  | size => trivial
  | openF => trivial
  | reject => trivial
  | cleanup => trivial

/-- A step of process `i`: the other processes are not affected. -/
theorem inv_step {s t : Sys} {i p : Nat} {pc pc' : PC} (hi : Inv G key errs s) (hp : s.proc i = some ⟨p, pc⟩)
    (ht : t.proc = fun j => if j = i then some ⟨p, pc'⟩ else s.proc j) (hf : Fr s t p)
    (hg : GOK G key errs t) (hok : POK G key errs t p pc') : Inv G key errs t := by
  refine ⟨hg, ?_, ?_⟩
  · intro j q hq
    rw [ht] at hq
    dsimp only at hq
    split at hq
    · injection hq with hq; subst hq; exact hok
    · rename_i hne
      refine pok_frame hf ?_ (hi.procs j q hq)
      intro hc
      exact hne (hi.pids j i q ⟨p, pc⟩ hq hp hc)
  · intro j j' q q' hq hq' hpid
    rw [ht] at hq hq'
    dsimp only at hq hq'
    split at hq <;> split at hq'
    · omega
    · injection hq with hq; subst hq
      rename_i h1 h2
      exact absurd (hi.pids i j' _ _ hp hq' hpid) (fun h => h2 h.symm)
    · injection hq' with hq'; subst hq'
      rename_i h1 h2
      exact absurd (hi.pids j i _ _ hq hp hpid) h1
    · exact hi.pids j j' q q' hq hq' hpid

/-- A step that only changes the program counter (and possibly the history) -/
theorem inv_goto {s : Sys} {i p : Nat} {pc pc' : PC} (hi : Inv G key errs s) (hp : s.proc i = some ⟨p, pc⟩)
    (hok : POK G key errs s p pc') : Inv G key errs (s.goto i p pc') := by
  refine inv_step (t := s.goto i p pc') hi hp rfl ⟨fun _ _ _ => rfl, fun _ _ _ _ _ => rfl, fun _ _ _ _ _ _ h => h, fun _ h => h⟩ ?_ ?_
  · have := hi.glob
    exact ⟨this.fits, this.pre, this.fresh, this.tmps, this.ents, this.loads, this.full⟩
  · revert hok
    cases pc' <;> exact fun h => h

theorem pok_goto {s : Sys} {i p q : Nat} {pc pc' : PC} (h : POK G key errs s q pc') : POK G key errs (s.goto i p pc) q pc' := by
  revert h; cases pc' <;> exact fun h => h

theorem gok_goto {s : Sys} {i p : Nat} {pc : PC} (h : GOK G key errs s) : GOK G key errs (s.goto i p pc) :=
  ⟨h.fits, h.pre, h.fresh, h.tmps, h.ents, h.loads, h.full⟩

theorem inv_init : Inv G key errs Sys.init := by
  refine ⟨⟨?_, ?_, ?_, ?_, ?_, ?_, ?_⟩, ?_, ?_⟩ <;> simp [Sys.init]

/-- Removal of an entry -/
theorem gok_unlink_entry {s : Sys} (κ : Nat) (h : GOK G key errs s) : GOK G key errs (s.setLink (.entry κ) none) := by
  have sub : ∀ n x, (s.setLink (.entry κ) none).link n = some x → s.link n = some x := by
    intro n x hx
    simp only [Sys.setLink] at hx
    split at hx
    · cases hx
    · exact hx
  exact ⟨h.fits, h.pre, fun n x hx => h.fresh n x (sub _ _ hx), fun κ p κ' p' t h1 h2 => h.tmps κ p κ' p' t (sub _ _ h1) (sub _ _ h2),
    fun κ p κ' t h1 h2 => h.ents κ p κ' t (sub _ _ h1) (sub _ _ h2), h.loads, fun he κ x hx => h.full he κ x (sub _ _ hx)⟩

theorem fr_unlink_entry (s : Sys) (κ p : Nat) : Fr s (s.setLink (.entry κ) none) p := by
  refine ⟨fun _ _ _ => by simp [Sys.setLink], fun _ _ _ _ _ => rfl, ?_, fun _ h => h⟩
  intro κ1 q x κ2 _ _ h
  simp only [Sys.setLink] at h
  split at h
  · cases h
  · exact h

theorem prefix_length {a b : List Byte} (h : a <+: b) : a.length ≤ b.length := h.length_le

/-- Reading from a file that is being created or complete -/
theorem header_of_prefix {s : Sys} {ino : Nat} (h : GOK G key errs s) (hl : hdrSize ≤ (s.data ino).length) :
    ∃ q ∈ s.stored, (s.data ino).take hdrSize = (encode G q.1 q.2).take hdrSize := by
  rcases h.pre ino with hd | ⟨q, hq, r, hr⟩
  · rw [hd] at hl; simp [hdrSize] at hl
  · refine ⟨q, hq, ?_⟩
    rw [← hr, List.take_append_of_le_length hl]

/-- The announced size of a stored file -/
theorem announced_encode {q : Src × Kernel} {acc : List Byte} (hf : Fits q.1 q.2)
    (h : acc.take hdrSize = (encode G q.1 q.2).take hdrSize) : (encode G q.1 q.2).length = hdrSize + announced acc := by
  unfold announced
  rw [h, parse_encode G hf, encode_length]; rfl

theorem take_length_of_le {l : List Byte} {n : Nat} (h : n ≤ l.length) : (l.take n).length = n := by simp [h]

theorem pwrite_end (d c : List Byte) {off : Nat} (h : d.length = off) : pwrite d off c = d ++ c := by
  subst h
  unfold pwrite
  rw [List.take_length, Nat.sub_self, List.drop_eq_nil_of_le (by omega)]
  simp

theorem inv_of_step {s t : Sys} (hi : Inv G key errs s) (h : Step G key errs s t) : Inv G key errs t := by
  cases h with
  | spawn i pid h1 h2 =>
    refine ⟨gok_goto hi.glob, ?_, ?_⟩
    · intro j q hq
      simp only [Sys.goto] at hq
      split at hq
      · injection hq with hq; subst hq; trivial
      · exact pok_goto (hi.procs j q hq)
    · intro j j' q q' hq hq' hpid
      simp only [Sys.goto] at hq hq'
      split at hq <;> split at hq'
      · omega
      · injection hq with hq; subst hq
        exact absurd hpid.symm (h2 _ _ hq')
      · injection hq' with hq'; subst hq'
        exact absurd hpid (h2 _ _ hq)
      · exact hi.pids j j' q q' hq hq' hpid
  | crash i =>
    have hg := hi.glob
    refine ⟨⟨hg.fits, hg.pre, hg.fresh, hg.tmps, hg.ents, hg.loads, hg.full⟩, ?_, ?_⟩
    · intro j q hq
      dsimp only at hq
      split at hq
      · cases hq
      · have := hi.procs j q hq
        revert this
        cases q.pc <;> exact fun h => h
    · intro j j' q q' hq hq' hpid
      dsimp only at hq hq'
      split at hq
      · cases hq
      · split at hq'
        · cases hq'
        · exact hi.pids j j' q q' hq hq' hpid
  | start i p src h => exact inv_goto hi h trivial
  | checkNo i p src h hl => exact inv_goto hi h (fun _ t _ hc => by rw [hl] at hc; cases hc)
  | checkYes i p src h hl => exact inv_goto hi h trivial
  | sizeNo i p src h hl => exact inv_goto hi h (fun _ t _ hc => by rw [hl] at hc; cases hc)
  | sizeYes i p src ino h hl => exact inv_goto hi h (by split <;> trivial)
  | openNo i p src sz h hl => exact inv_goto hi h (fun _ t _ hc => by rw [hl] at hc; cases hc)
  | openYes i p src sz ino h hl =>
    refine inv_goto hi h (fun _ t _ hc => ?_)
    rw [hl] at hc; injection hc
  | hdrShort i p src sz ino h hl =>
    refine inv_goto hi h (fun he t h1 h2 => ?_)
    have := hi.procs i _ h he t h1 h2
    subst this
    obtain ⟨q, _, _, hd⟩ := hi.glob.full he _ _ h2
    rw [hd, encode_length] at hl
    omega
  | hdr i p src sz ino n h hl hn =>
    refine inv_goto hi h ?_
    split
    · rename_i hc
      have hlen : hdrSize ≤ ((s.data ino).take n).length := by simp; omega
      refine ⟨hlen, ⟨sz, hc⟩, ?_, ?_⟩
      · obtain ⟨q, hq, hh⟩ := header_of_prefix hi.glob hl
        refine ⟨q, hq, ?_⟩
        rw [List.take_take, min_eq_left hn, hh]
      · intro he
        have ho := hi.procs i _ h he
        refine ⟨ho, fun t h1 h2 => ?_⟩
        have := ho t h1 h2
        subst this
        exact List.take_prefix _ _
    · trivial
  | more i p src acc ino n h =>
    refine inv_goto hi h ?_
    obtain ⟨h1, h2, h3, h4⟩ := hi.procs i _ h
    have e : (acc ++ ((s.data ino).drop acc.length).take n).take hdrSize = acc.take hdrSize :=
      List.take_append_of_le_length h1
    refine ⟨by simp; omega, by rw [e]; exact h2, by rw [e]; exact h3, fun he => ⟨(h4 he).1, fun t ht1 ht2 => ?_⟩⟩
    have := (h4 he).1 t ht1 ht2
    subst this
    obtain ⟨r, hr⟩ := (h4 he).2 _ ht1 ht2
    rw [← hr, List.drop_left]
    exact List.prefix_append_right_inj acc |>.2 (List.take_prefix _ _)
  | eof i p src acc ino h hl hd =>
    refine inv_goto hi h (fun he t ht1 ht2 => ?_)
    obtain ⟨h1, h2, h3, h4⟩ := hi.procs i _ h
    have := (h4 he).1 t ht1 ht2
    subst this
    obtain ⟨r, hr⟩ := (h4 he).2 _ ht1 ht2
    obtain ⟨q, hq, _, hd2⟩ := hi.glob.full he _ _ ht2
    have e : acc.take hdrSize = (encode G q.1 q.2).take hdrSize := by
      rw [← hd2, ← hr, List.take_append_of_le_length h1]
    have := announced_encode (hi.glob.fits q hq).1 e
    rw [hd2] at hd
    omega
  | rdErr i p src acc ino sz he h =>
    have : POK G key errs s p (.compile src) := fun hc => by rw [he] at hc; cases hc
    rcases h with h | h | h | h | h <;> exact inv_goto hi h this
  | decideNo i p src acc ino h hl hv =>
    have hg := hi.glob
    refine inv_step hi h rfl ⟨fun _ _ _ => rfl, fun _ _ _ _ _ => rfl, fun _ _ _ _ _ _ h => h, fun _ h => h⟩ ?_ trivial
    refine ⟨fun q hq => ⟨(hg.fits q hq).1, ?_⟩, hg.pre, hg.fresh, hg.tmps, hg.ents, fun l hl => ?_, hg.full⟩
    · exact List.mem_cons_of_mem _ (hg.fits q hq).2
    · obtain ⟨x, hx, r⟩ := hg.loads l hl
      exact ⟨x, List.mem_cons_of_mem _ hx, r⟩
  | decideYes i p src acc ino v h hl hv hne =>
    have hg := hi.glob
    obtain ⟨h1, ⟨sz, h2⟩, ⟨q, hq, h3⟩, -⟩ := hi.procs i _ h
    refine inv_step hi h rfl ⟨fun _ _ _ => rfl, fun _ _ _ _ _ => rfl, fun _ _ _ _ _ _ h => h, fun _ h => h⟩ ?_ trivial
    refine ⟨fun q hq => ⟨(hg.fits q hq).1, ?_⟩, hg.pre, hg.fresh, hg.tmps, hg.ents, fun l hl => ?_, hg.full⟩
    · exact List.mem_cons_of_mem _ (hg.fits q hq).2
    · rcases List.mem_cons.1 hl with rfl | hl
      · have hck : (acc.take hdrSize).drop ckOff = G.H (sumOf G q.1 q.2) := by
          have hl := Header.bytes_length (headerOf G q.1 q.2)
          rw [h3, encode_take, show ckOff = 17 from rfl, ← hl, List.drop_left]; rfl
        refine ⟨_, List.mem_cons_self, q, hq, ?_, ?_⟩
        · by_contra hc
          apply hne
          rw [← hv]
          unfold loadBody
          dsimp only
          rw [if_pos (by rw [hck]; exact fun e => hc e.symm)]
        · intro hx
          have := loadBody_sound G (hg.fits q hq).1 (by simp; omega) h2 hck (fun _ => hx.symm) (by rw [hv]; exact hne)
          exact ⟨this.1, by rw [← hv]; exact this.2⟩
      · obtain ⟨x, hx, r⟩ := hg.loads l hl
        exact ⟨x, List.mem_cons_of_mem _ hx, r⟩
  | remove i p src h =>
    refine inv_step hi h rfl ?_ (gok_goto (gok_unlink_entry _ hi.glob)) (pok_goto ?_)
    · have := fr_unlink_entry s (key src) p
      exact ⟨this.tmp, this.data, this.entry, this.stored⟩
    · intro _ t _ hc
      simp [Sys.setLink] at hc
  | readOnly i p src h => rcases h with h | h <;> exact inv_goto hi h trivial
  | create i p src k h hfit hl =>
    have hg := hi.glob
    have hfresh : ∀ n, s.link n ≠ some s.next := fun n hc => absurd (hg.fresh n _ hc) (by omega)
    have lk : ∀ n x, (if n = Name.tmp (key src) p then some s.next else s.link n) = some x →
        (n = .tmp (key src) p ∧ x = s.next) ∨ (n ≠ .tmp (key src) p ∧ x ≠ s.next ∧ s.link n = some x) := by
      intro n x hx
      split at hx
      · injection hx with hx; exact Or.inl ⟨by assumption, hx.symm⟩
      · exact Or.inr ⟨by assumption, fun hc => hfresh n (by rw [hx, hc]), hx⟩
    refine inv_step hi h rfl ?_ (gok_goto ?_) (pok_goto ?_)
    · refine ⟨?_, ?_, ?_, fun q hq => List.mem_cons_of_mem _ hq⟩
      · intro κ q hq
        have : Name.tmp κ q ≠ Name.tmp (key src) p := by intro hc; injection hc with _ hc; exact hq hc
        simp [Sys.goto, Sys.setLink, Sys.setData, this]
      · intro κ q x _ hx
        have : x ≠ s.next := fun hc => hfresh _ (by rw [hx, hc])
        simp [Sys.goto, Sys.setLink, Sys.setData, this]
      · intro κ q x κ' _ _ hx
        simpa [Sys.goto, Sys.setLink, Sys.setData] using hx
    · refine ⟨?_, ?_, ?_, ?_, ?_, ?_, ?_⟩
      · intro q hq
        rcases List.mem_cons.1 hq with rfl | hq
        · exact ⟨hfit, List.mem_cons_self⟩
        · exact ⟨(hg.fits q hq).1, List.mem_cons_of_mem _ (hg.fits q hq).2⟩
      · intro ino
        simp only [Sys.setData, Sys.setLink]
        split
        · exact Or.inl rfl
        · rcases hg.pre ino with hp | ⟨q, hq, hp⟩
          · exact Or.inl hp
          · exact Or.inr ⟨q, List.mem_cons_of_mem _ hq, hp⟩
      · intro n ino hn
        rcases lk n ino hn with ⟨_, rfl⟩ | ⟨_, _, hn⟩
        · exact Nat.lt_succ_self _
        · exact Nat.lt_succ_of_lt (hg.fresh n ino hn)
      · intro κ q κ' q' x h1 h2
        rcases lk _ x h1 with ⟨a1, rfl⟩ | ⟨_, a2, a3⟩
        · rcases lk _ _ h2 with ⟨b1, _⟩ | ⟨_, b2, _⟩
          · injection a1 with c1 c2; injection b1 with d1 d2; exact ⟨c1.trans d1.symm, c2.trans d2.symm⟩
          · exact absurd rfl b2
        · rcases lk _ x h2 with ⟨_, b1⟩ | ⟨_, _, b3⟩
          · exact absurd b1 a2
          · exact hg.tmps κ q κ' q' x a3 b3
      · intro κ q κ' x h1 h2
        rcases lk (.entry κ') x h2 with ⟨b1, _⟩ | ⟨_, b2, b3⟩
        · cases b1
        · rcases lk (.tmp κ q) x h1 with ⟨_, a1⟩ | ⟨_, _, a3⟩
          · exact absurd a1 b2
          · exact hg.ents κ q κ' x a3 b3
      · intro l hl
        obtain ⟨x, hx, q, hq, r⟩ := hg.loads l hl
        exact ⟨x, List.mem_cons_of_mem _ hx, q, List.mem_cons_of_mem _ hq, r⟩
      · intro he κ ino hn
        rcases lk (.entry κ) ino hn with ⟨b1, _⟩ | ⟨_, b2, b3⟩
        · cases b1
        · obtain ⟨q, hq, h1, h2⟩ := hg.full he κ ino b3
          refine ⟨q, List.mem_cons_of_mem _ hq, h1, ?_⟩
          simp only [Sys.setData, Sys.setLink]
          rw [if_neg b2, h2]
    · refine ⟨List.mem_cons_self, by simp [Sys.setLink, Sys.setData], by simp [Sys.setLink, Sys.setData], by omega, ?_⟩
      intro _ κ hc
      rcases lk (.entry κ) _ hc with ⟨b1, _⟩ | ⟨_, b2, _⟩
      · cases b1
      · exact b2 rfl
  | trunc i p src k ino h hfit hl =>
    have hg := hi.glob
    have hcomp := hi.procs i _ h
    have hne : errs = false → ∀ κ, s.link (.entry κ) ≠ some ino := by
      intro he κ hc
      have := hg.ents _ _ _ _ hl hc
      subst this
      exact hcomp he ino hl hc
    refine inv_step hi h rfl ?_ (gok_goto ?_) (pok_goto ?_)
    · refine ⟨fun _ _ _ => rfl, ?_, fun _ _ _ _ _ _ h => h, fun q hq => List.mem_cons_of_mem _ hq⟩
      intro κ q x hq hx
      have : x ≠ ino := by
        rintro rfl
        exact hq (hg.tmps _ _ _ _ _ hx hl).2
      simp [Sys.goto, Sys.setData, this]
    · refine ⟨?_, ?_, hg.fresh, hg.tmps, hg.ents, ?_, ?_⟩
      · intro q hq
        rcases List.mem_cons.1 hq with rfl | hq
        · exact ⟨hfit, List.mem_cons_self⟩
        · exact ⟨(hg.fits q hq).1, List.mem_cons_of_mem _ (hg.fits q hq).2⟩
      · intro x
        simp only [Sys.setData]
        split
        · exact Or.inl rfl
        · rcases hg.pre x with hp | ⟨q, hq, hp⟩
          · exact Or.inl hp
          · exact Or.inr ⟨q, List.mem_cons_of_mem _ hq, hp⟩
      · intro l hl
        obtain ⟨x, hx, q, hq, r⟩ := hg.loads l hl
        exact ⟨x, List.mem_cons_of_mem _ hx, q, List.mem_cons_of_mem _ hq, r⟩
      · intro he κ x hx
        obtain ⟨q, hq, h1, h2⟩ := hg.full he κ x hx
        refine ⟨q, List.mem_cons_of_mem _ hq, h1, ?_⟩
        simp only [Sys.setData]
        rw [if_neg (by rintro rfl; exact hne he κ hx), h2]
    · exact ⟨List.mem_cons_self, hl, by simp [Sys.setData], by omega, hne⟩
  | write i p src k ino off n h =>
    have hg := hi.glob
    obtain ⟨h1, h2, h3, h4, h5⟩ := hi.procs i _ h
    have hd : pwrite (s.data ino) off (((encode G src k).drop off).take n) =
        (encode G src k).take (off + (((encode G src k).drop off).take n).length) := by
      have hlen : (s.data ino).length = off := by rw [h3]; simp [h4]
      rw [pwrite_end _ _ hlen, h3, List.take_add]
      congr 1
      rw [List.length_take, ← List.take_eq_take_min]
    have hle : off + (((encode G src k).drop off).take n).length ≤ (encode G src k).length := by
      simp only [List.length_take, List.length_drop]; omega
    rw [hd]
    generalize off + (((encode G src k).drop off).take n).length = off' at *
    refine inv_step hi h rfl ?_ (gok_goto ?_) (pok_goto ?_)
    · refine ⟨fun _ _ _ => rfl, ?_, fun _ _ _ _ _ _ h => h, fun q hq => hq⟩
      intro κ q x hq hx
      have : x ≠ ino := by
        rintro rfl
        exact hq (hg.tmps _ _ _ _ _ hx h2).2
      simp [Sys.goto, Sys.setData, this]
    · refine ⟨hg.fits, ?_, hg.fresh, hg.tmps, hg.ents, hg.loads, ?_⟩
      · intro x
        simp only [Sys.setData]
        split
        · exact Or.inr ⟨_, h1, List.take_prefix _ _⟩
        · exact hg.pre x
      · intro he κ x hx
        obtain ⟨q, hq, e1, e2⟩ := hg.full he κ x hx
        refine ⟨q, hq, e1, ?_⟩
        simp only [Sys.setData]
        rw [if_neg (by rintro rfl; exact h5 he κ hx), e2]
    · exact ⟨h1, h2, by simp [Sys.setData], hle, h5⟩
  | closed i p src k ino off h hl =>
    obtain ⟨h1, h2, h3, h4, h5⟩ := hi.procs i _ h
    exact inv_goto hi h ⟨h1, ino, h2, by rw [h3, List.take_of_length_le hl]⟩
  | writeErr i p src k ino off h => exact inv_goto hi h trivial
  | linkYes i p src k ino h hl hn =>
    have hg := hi.glob
    obtain ⟨h1, ino', h2, h3⟩ := hi.procs i _ h
    have : ino' = ino := by rw [hl] at h2; injection h2 with h2; exact h2.symm
    subst this
    have lk : ∀ n x, (if n = Name.entry (key src) then some ino' else s.link n) = some x →
        (n = .entry (key src) ∧ x = ino') ∨ s.link n = some x := by
      intro n x hx
      split at hx
      · injection hx with hx; exact Or.inl ⟨by assumption, hx.symm⟩
      · exact Or.inr hx
    refine inv_step hi h rfl ?_ (gok_goto ?_) trivial
    · refine ⟨?_, fun _ _ _ _ _ => rfl, ?_, fun q hq => hq⟩
      · intro κ q _
        simp [Sys.goto, Sys.setLink]
      · intro κ q x κ' hq hx hx2
        rcases lk (.entry κ') x hx2 with ⟨_, rfl⟩ | hx2
        · exact absurd (hg.tmps _ _ _ _ _ hx hl).2 hq
        · exact hx2
    · refine ⟨hg.fits, hg.pre, ?_, ?_, ?_, hg.loads, ?_⟩
      · intro n x hx
        rcases lk n x hx with ⟨_, rfl⟩ | hx
        · exact hg.fresh _ _ hl
        · exact hg.fresh _ _ hx
      · intro κ q κ' q' x e1 e2
        rcases lk (.tmp κ q) x e1 with ⟨a, _⟩ | e1
        · cases a
        rcases lk (.tmp κ' q') x e2 with ⟨a, _⟩ | e2
        · cases a
        exact hg.tmps κ q κ' q' x e1 e2
      · intro κ q κ' x e1 e2
        rcases lk (.tmp κ q) x e1 with ⟨a, _⟩ | e1
        · cases a
        rcases lk (.entry κ') x e2 with ⟨a, rfl⟩ | e2
        · injection a with a
          rw [a]
          exact (hg.tmps _ _ _ _ _ e1 hl).1
        · exact hg.ents κ q κ' x e1 e2
      · intro he κ x hx
        rcases lk (.entry κ) x hx with ⟨a, rfl⟩ | hx
        · injection a with a
          exact ⟨_, h1, a.symm, h3⟩
        · exact hg.full he κ x hx
  | linkNo i p src k h => exact inv_goto hi h trivial
  | rmTmp i p src h =>
    have hg := hi.glob
    have sub : ∀ n x, (if n = Name.tmp (key src) p then none else s.link n) = some x → s.link n = some x := by
      intro n x hx
      split at hx
      · cases hx
      · exact hx
    refine inv_step hi h rfl ?_ (gok_goto ?_) trivial
    · refine ⟨?_, fun _ _ _ _ _ => rfl, fun _ _ _ _ _ _ h => sub _ _ h, fun q hq => hq⟩
      intro κ q hq
      have : Name.tmp κ q ≠ Name.tmp (key src) p := by intro hc; injection hc with _ hc; exact hq hc
      simp [Sys.goto, Sys.setLink, this]
    · exact ⟨hg.fits, hg.pre, fun n x hx => hg.fresh n x (sub _ _ hx), fun κ p κ' p' t h1 h2 => hg.tmps κ p κ' p' t (sub _ _ h1) (sub _ _ h2),
        fun κ p κ' t h1 h2 => hg.ents κ p κ' t (sub _ _ h1) (sub _ _ h2), hg.loads, fun he κ x hx => hg.full he κ x (sub _ _ hx)⟩
  | rmTmpErr i p src h => exact inv_goto hi h trivial
  | evict κ =>
    refine ⟨gok_unlink_entry _ hi.glob, ?_, hi.pids⟩
    intro i p hp
    exact pok_frame (fr_unlink_entry s κ (p.pid + 1)) (by omega) (hi.procs i p hp)

theorem reach_inv {s : Sys} (h : Reach G key errs s) : Inv G key errs s := by
  induction h with
  | init => exact inv_init
  | step _ hs ih => exact inv_of_step ih hs

end
end Verif.Cache
