import Verif.CoopMat.Spec
import Mathlib.Tactic.Ring

/-!
# C73: Packing matrices copies exactly their entries
-/
namespace Verif.CoopMat
open Verif.Par
open Verif.Llvm (add32 mul32 add32_eq mul32_eq)

/-! ### Positions -/

theorem ok_pos {d : Descr} (h : d.Ok) {r c b : Nat} (he : d.Entry r c b) : r * d.stride + c < d.size := by
  obtain ⟨h1, h2, _⟩ := he
  have := Nat.mul_le_mul_right d.stride (show r ≤ d.rows - 1 by omega)
  rw [h.size]; omega

theorem ok_byte {d : Descr} (h : d.Ok) {r c b : Nat} (he : d.Entry r c b) :
    d.byte r c b < (d.offset + d.size) * d.tsize := by
  have h1 := ok_pos h he
  have h2 : (d.offset + r * d.stride + c + 1) * d.tsize ≤ (d.offset + d.size) * d.tsize := Nat.mul_le_mul_right _ (by omega)
  have := he.2.2
  rw [Nat.add_mul, Nat.one_mul] at h2
  unfold Descr.byte
  omega

theorem byte_inj {d : Descr} (h : d.cols ≤ d.stride) {r c b r' c' b' : Nat} (he : d.Entry r c b) (he' : d.Entry r' c' b')
    (hb : d.byte r c b = d.byte r' c' b') : r = r' ∧ c = c' ∧ b = b' := by
  obtain ⟨h1, h2, h3⟩ := he
  obtain ⟨g1, g2, g3⟩ := he'
  unfold Descr.byte at hb
  have ht : 0 < d.tsize := by omega
  have e1 := congrArg (· / d.tsize) hb
  have e2 := congrArg (· % d.tsize) hb
  simp only [Nat.mul_comm _ d.tsize, Nat.mul_add_div ht, Nat.mul_add_mod, Nat.div_eq_of_lt h3, Nat.div_eq_of_lt g3,
    Nat.mod_eq_of_lt h3, Nat.mod_eq_of_lt g3, Nat.add_zero] at e1 e2
  have e3 : r * d.stride + c = r' * d.stride + c' := by omega
  have hs : 0 < d.stride := by omega
  have e4 := congrArg (· / d.stride) e3
  have e5 := congrArg (· % d.stride) e3
  simp only [Nat.mul_comm _ d.stride, Nat.mul_add_div hs, Nat.mul_add_mod, Nat.div_eq_of_lt (show c < d.stride by omega),
    Nat.div_eq_of_lt (show c' < d.stride by omega), Nat.mod_eq_of_lt (show c < d.stride by omega),
    Nat.mod_eq_of_lt (show c' < d.stride by omega), Nat.add_zero] at e4 e5
  exact ⟨e4, e5, e2⟩

/-- The bytes from the start of row `j` on -/
theorem byte_row {d : Descr} {j k : Nat} (hj : j < d.rows) (hk : k < d.cols * d.tsize) :
    ∃ c b : Nat, d.Entry j c b ∧ k = c * d.tsize + b ∧ (d.offset + j * d.stride) * d.tsize + k = d.byte j c b := by
  have ht : 0 < d.tsize := by
    rcases Nat.eq_zero_or_pos d.tsize with h | h
    · rw [h] at hk; omega
    · exact h
  have hdm := Nat.div_add_mod k d.tsize
  rw [Nat.mul_comm] at hdm
  refine ⟨k / d.tsize, k % d.tsize, ⟨hj, ?_, Nat.mod_lt _ ht⟩, by omega, ?_⟩
  · rw [Nat.div_lt_iff_lt_mul ht]; exact hk
  · unfold Descr.byte
    rw [Nat.add_mul (d.offset + j * d.stride)]
    omega

/-- The bytes from the start of a matrix on, if its rows are contiguous -/
theorem byte_all {d : Descr} (hs : d.stride = d.cols) {k : Nat} (hk : k < d.rows * d.cols * d.tsize) :
    ∃ r c b : Nat, d.Entry r c b ∧ k = (r * d.cols + c) * d.tsize + b ∧ d.offset * d.tsize + k = d.byte r c b := by
  have hc : 0 < d.cols := by
    rcases Nat.eq_zero_or_pos d.cols with h | h
    · rw [h] at hk; simp at hk
    · exact h
  have ht : 0 < d.tsize := by
    rcases Nat.eq_zero_or_pos d.tsize with h | h
    · rw [h] at hk; omega
    · exact h
  have h1 : k / d.tsize < d.rows * d.cols := by rw [Nat.div_lt_iff_lt_mul ht]; exact hk
  have hdm := Nat.div_add_mod k d.tsize
  have hdm2 := Nat.div_add_mod (k / d.tsize) d.cols
  rw [Nat.mul_comm] at hdm hdm2
  have hk' : k = (k / d.tsize / d.cols * d.cols + k / d.tsize % d.cols) * d.tsize + k % d.tsize := by rw [hdm2]; omega
  refine ⟨k / d.tsize / d.cols, k / d.tsize % d.cols, k % d.tsize, ⟨?_, Nat.mod_lt _ hc, Nat.mod_lt _ ht⟩, hk', ?_⟩
  · rw [Nat.div_lt_iff_lt_mul hc]; exact h1
  · unfold Descr.byte
    rw [hs, Nat.add_assoc d.offset, Nat.add_mul d.offset]
    omega

/-! ### One task -/

/-- What a task reads and writes -/
def reads (d : Descr) : Set Loc := {l | l.1 = Buf.inp ∧ l.2 ∈ d.Bytes}
@[inherit_doc reads] def writes (d : Descr) : Set Loc := {l | l.1 = Buf.out ∧ l.2 ∈ d.Bytes}

theorem memcpy_spec {R W : Set Loc} {dst src n : Nat} (m : Loc → UInt8)
    (hR : ∀ k, k < n → (Buf.inp, src + k) ∈ R) (hW : ∀ k, k < n → (Buf.out, dst + k) ∈ W) :
    wp R W (memcpy dst src n) m fun _ m' => (∀ k, k < n → m' (Buf.out, dst + k) = m (Buf.inp, src + k))
      ∧ (∀ a, m' (Buf.inp, a) = m (Buf.inp, a)) ∧ ∀ a, (a < dst ∨ dst + n ≤ a) → m' (Buf.out, a) = m (Buf.out, a) := by
  unfold memcpy
  refine wp_loop (fun j _ m' => (∀ k, k < j → m' (Buf.out, dst + k) = m (Buf.inp, src + k))
      ∧ (∀ a, m' (Buf.inp, a) = m (Buf.inp, a)) ∧ ∀ a, (a < dst ∨ dst + j ≤ a) → m' (Buf.out, a) = m (Buf.out, a)) ?_ ?_
  · exact ⟨fun k hk => by omega, fun _ => rfl, fun _ _ => rfl⟩
  · rintro j _ m1 hj ⟨h1, h2, h3⟩
    refine ⟨hR j hj, hW j hj, fun k hk => ?_, fun a => ?_, fun a ha => ?_⟩
    · unfold upd
      by_cases e : k = j
      · subst e; rw [if_pos rfl]; exact h2 _
      · rw [if_neg (by rintro h; have := (Prod.mk.inj h).2; omega)]
        exact h1 k (by omega)
    · unfold upd
      rw [if_neg (by rintro h; have := (Prod.mk.inj h).1; cases this)]
      exact h2 a
    · unfold upd
      rw [if_neg (by rintro h; have := (Prod.mk.inj h).2; omega)]
      exact h3 a (by omega)

theorem packTask_spec {i o : Descr} (hi : i.Ok) (ho : o.Ok) (hs : SameShape i o) (m : Loc → UInt8) :
    wp (reads i) (writes o) (packTask i o) m fun _ m' =>
      ∀ r c b : Nat, i.Entry r c b → m' (Buf.out, o.byte r c b) = m (Buf.inp, i.byte r c b) := by
  have et : ∀ {r c b : Nat}, i.Entry r c b ↔ o.Entry r c b := by
    intro r c b
    unfold Descr.Entry
    rw [hs.rows, hs.cols, hs.tsize]
  have hif := hi.fits
  have hof := ho.fits
  rw [Nat.add_mul] at hif hof
  unfold packTask
  by_cases hc : i.stride = i.cols ∧ o.stride = o.cols
  · rw [if_pos hc]
    have hsz : i.size = i.rows * i.cols := by
      rw [hi.size, hc.1]
      have := hi.rpos
      have h1 : i.rows = (i.rows - 1) + 1 := by omega
      conv_rhs => rw [h1, Nat.add_mul, Nat.one_mul]
    rw [mul32_eq (by rw [← hs.tsize]; omega), mul32_eq (by omega), mul32_eq (by omega), hsz]
    refine wp_mono (memcpy_spec m ?_ ?_) ?_
    · intro k hk
      obtain ⟨r, c, b, h1, _, h3⟩ := byte_all hc.1 hk
      exact ⟨rfl, r, c, b, h1, h3⟩
    · intro k hk
      obtain ⟨r, c, b, h1, _, h3⟩ := byte_all (d := o) hc.2 (k := k) (by rw [hs.rows, hs.cols, hs.tsize]; exact hk)
      rw [hs.tsize] at h3
      exact ⟨rfl, r, c, b, h1, h3⟩
    · rintro _ m' ⟨h1, _, _⟩ r c b he
      have hlt : (r * i.cols + c) * i.tsize + b < i.rows * i.cols * i.tsize := by
        have := ok_pos hi he
        rw [hc.1, hsz] at this
        have h2 := Nat.mul_le_mul_right i.tsize (show r * i.cols + c + 1 ≤ i.rows * i.cols by omega)
        rw [Nat.add_mul, Nat.one_mul] at h2
        have := he.2.2
        omega
      have := h1 _ hlt
      have e1 : i.offset * i.tsize + ((r * i.cols + c) * i.tsize + b) = i.byte r c b := by
        unfold Descr.byte; rw [hc.1]; ring
      have e2 : o.offset * i.tsize + ((r * i.cols + c) * i.tsize + b) = o.byte r c b := by
        unfold Descr.byte; rw [hc.2, hs.cols, hs.tsize]; ring
      rw [e1, e2] at this
      exact this
  · rw [if_neg hc]
    have hcs := Nat.mul_le_mul_right i.tsize (show i.cols ≤ i.size by rw [hi.size]; omega)
    rw [mul32_eq (a := i.cols) (by omega)]
    have key : wp (reads i) (writes o) (Prog.loop i.rows () fun j _ =>
        memcpy (mul32 (add32 o.offset (mul32 j o.stride)) i.tsize)
          (mul32 (add32 i.offset (mul32 j i.stride)) i.tsize) (i.cols * i.tsize)) m fun _ m' =>
        (∀ r c b : Nat, r < i.rows → i.Entry r c b → m' (Buf.out, o.byte r c b) = m (Buf.inp, i.byte r c b))
          ∧ ∀ a, m' (Buf.inp, a) = m (Buf.inp, a) := by
      refine wp_loop (fun j _ m' => (∀ r c b : Nat, r < j → i.Entry r c b → m' (Buf.out, o.byte r c b) = m (Buf.inp, i.byte r c b))
          ∧ ∀ a, m' (Buf.inp, a) = m (Buf.inp, a)) ?_ ?_
      · exact ⟨fun r c b hr => by omega, fun _ => rfl⟩
      · rintro j _ m1 hj ⟨h1, h2⟩
        have hjo : (o.offset + j * o.stride) * o.tsize ≤ (o.offset + o.size) * o.tsize := by
          apply Nat.mul_le_mul_right
          have := Nat.mul_le_mul_right o.stride (show j ≤ o.rows - 1 by rw [hs.rows]; omega)
          rw [ho.size]; omega
        have hji : (i.offset + j * i.stride) * i.tsize ≤ (i.offset + i.size) * i.tsize := by
          apply Nat.mul_le_mul_right
          have := Nat.mul_le_mul_right i.stride (show j ≤ i.rows - 1 by omega)
          rw [hi.size]; omega
        have hof' := ho.fits
        have hif' := hi.fits
        have hle : ∀ (x t : Nat), 0 < t → x ≤ x * t := fun x t ht => Nat.le_mul_of_pos_right x ht
        have q1 := hle (o.offset + j * o.stride) o.tsize ho.tpos
        have q2 := hle (i.offset + j * i.stride) i.tsize hi.tpos
        have eo : mul32 (add32 o.offset (mul32 j o.stride)) i.tsize = (o.offset + j * o.stride) * o.tsize := by
          rw [mul32_eq (a := j) (by omega), add32_eq (by omega), ← hs.tsize, mul32_eq (by omega)]
        have ei : mul32 (add32 i.offset (mul32 j i.stride)) i.tsize = (i.offset + j * i.stride) * i.tsize := by
          rw [mul32_eq (a := j) (by omega), add32_eq (by omega), mul32_eq (by omega)]
        rw [eo, ei]
        refine wp_mono (memcpy_spec m1 ?_ ?_) ?_
        · intro k hk
          obtain ⟨c, b, g1, _, g3⟩ := byte_row hj hk
          exact ⟨rfl, j, c, b, g1, g3⟩
        · intro k hk
          obtain ⟨c, b, g1, _, g3⟩ := byte_row (d := o) (j := j) (k := k) (by rw [hs.rows]; exact hj) (by rw [hs.cols, hs.tsize]; exact hk)
          exact ⟨rfl, j, c, b, g1, g3⟩
        · rintro _ m' ⟨g1, g2, g3⟩
          refine ⟨fun r c b hr he => ?_, fun a => by rw [g2, h2]⟩
          by_cases e : r = j
          · subst e
            have hlt : c * i.tsize + b < i.cols * i.tsize := by
              have := Nat.mul_le_mul_right i.tsize (show c + 1 ≤ i.cols from he.2.1)
              rw [Nat.add_mul, Nat.one_mul] at this
              have := he.2.2
              omega
            have := g1 _ hlt
            have e1 : (i.offset + r * i.stride) * i.tsize + (c * i.tsize + b) = i.byte r c b := by
              unfold Descr.byte; ring
            have e2 : (o.offset + r * o.stride) * o.tsize + (c * i.tsize + b) = o.byte r c b := by
              unfold Descr.byte; rw [hs.tsize]; ring
            rw [e1, e2, h2] at this
            exact this
          · rw [g3, h1 r c b (by omega) he]
            left
            -- an earlier row ends before the start of row `j`
            have h4 : (o.offset + r * o.stride + c + 1) * o.tsize ≤ (o.offset + j * o.stride) * o.tsize := by
              apply Nat.mul_le_mul_right
              have h5 := Nat.mul_le_mul_right o.stride (show r + 1 ≤ j by omega)
              rw [Nat.add_mul, Nat.one_mul] at h5
              have h6 := (et.1 he).2.1
              have h7 := ho.stride
              omega
            have h8 := (et.1 he).2.2
            rw [Nat.add_mul, Nat.one_mul] at h4
            unfold Descr.byte
            omega
    exact wp_mono key fun _ m' h r c b he => h.1 r c b he.1 he

/-! ### All tasks -/

theorem pack_disj {count : Nat} {i o : Nat → Descr} (h : Valid count i o) (k l : Nat) (hk : k < count) (hl : l < count) (hne : k ≠ l)
    (a : Loc) (ha : a ∈ writes (o k)) : a ∉ reads (i l) ∧ a ∉ writes (o l) := by
  refine ⟨fun hr => ?_, fun hw => h.disj k l hk hl hne _ ha.2 hw.2⟩
  have h1 := ha.1
  rw [hr.1] at h1
  cases h1

/-- **C73 (partial).**  In every interleaving of the tasks, packing copies every entry of every matrix to its place
in the output buffer, and leaves all other bytes of the output buffer (also those between the
rows of a matrix), and the input buffer as they are.  Missing: matrices that extend beyond 4 GiB (false, see
`C73_offset_counterexample`). -/
theorem C73_pack_partial (count : Nat) (i o : Nat → Descr) (h : Valid count i o) (m m' : Loc → UInt8)
    (he : (pack count i o).Ends m m') :
    (∀ k, k < count → ∀ r c b : Nat, (i k).Entry r c b → m' (Buf.out, (o k).byte r c b) = m (Buf.inp, (i k).byte r c b))
      ∧ (∀ a : Nat, (∀ k, k < count → a ∉ (o k).Bytes) → m' (Buf.out, a) = m (Buf.out, a))
      ∧ ∀ a : Nat, m' (Buf.inp, a) = m (Buf.inp, a) := by
  obtain ⟨h1, h2⟩ := phase_spec (R := fun k => reads (i k)) (W := fun k => writes (o k))
    (Q := fun k m' => ∀ r c b : Nat, (i k).Entry r c b → m' (Buf.out, (o k).byte r c b) = m (Buf.inp, (i k).byte r c b))
    (pack_disj h) (fun k hk => packTask_spec (h.inp k hk) (h.out k hk) (h.shape k hk) m) he
  refine ⟨fun k hk r c b hrc => ?_, fun a ha => h2 _ fun k hk hw => ha k hk hw.2, fun a => h2 _ ?_⟩
  · obtain ⟨mk, g1, g2, _⟩ := h1 k hk
    rw [g2 _ ⟨rfl, r, c, b, ?_, rfl⟩]
    · exact g1 r c b hrc
    · have hs := h.shape k hk
      obtain ⟨e1, e2, e3⟩ := hrc
      exact ⟨by rw [hs.rows]; exact e1, by rw [hs.cols]; exact e2, by rw [hs.tsize]; exact e3⟩
  · rintro k hk ⟨hw, _⟩
    cases hw

/-- **C73 (partial).**  Only bytes of entries are accessed. -/
theorem C73_safe_partial (count : Nat) (i o : Nat → Descr) (h : Valid count i o) (m : Loc → UInt8) :
    (pack count i o).Safe (fun w l =>
      (w = false ∧ l.1 = Buf.inp ∧ ∃ k, k < count ∧ l.2 ∈ (i k).Bytes) ∨ (w = true ∧ l.1 = Buf.out ∧ ∃ k, k < count ∧ l.2 ∈ (o k).Bytes)) m :=
  phase_safe (R := fun k => reads (i k)) (W := fun k => writes (o k)) (pack_disj h)
    (fun k hk => packTask_spec (h.inp k hk) (h.out k hk) (h.shape k hk) m)
    (fun k hk _ hl => Or.inl ⟨rfl, hl.1, k, hk, hl.2⟩) (fun k hk _ hl => Or.inr ⟨rfl, hl.1, k, hk, hl.2⟩)

/-- **C73 (partial).**  Packing and then unpacking into a buffer with arbitrary content yields the original
entries. -/
theorem C73_roundtrip_partial (count : Nat) (i o : Nat → Descr) (h : Valid count i o) (h' : Valid count o i)
    (m m1 m2 m3 : Loc → UInt8) (he : (pack count i o).Ends m m1) (hm : ∀ a : Nat, m2 (Buf.inp, a) = m1 (Buf.out, a))
    (he' : (pack count o i).Ends m2 m3) :
    ∀ k, k < count → ∀ a, a ∈ (i k).Bytes → m3 (Buf.out, a) = m (Buf.inp, a) := by
  rintro k hk a ⟨r, c, b, hrc, rfl⟩
  have hs := h.shape k hk
  have hrc' : (o k).Entry r c b :=
    ⟨by rw [hs.rows]; exact hrc.1, by rw [hs.cols]; exact hrc.2.1, by rw [hs.tsize]; exact hrc.2.2⟩
  rw [(C73_pack_partial count o i h' m2 m3 he').1 k hk r c b hrc', hm, (C73_pack_partial count i o h m m1 he).1 k hk r c b hrc]

/-! ### Layouts -/

theorem computeLayout_size {d : Descr} {offset : Nat} (hr : 0 < d.rows) (hf : d.rows * d.cols < 2 ^ 32) (hr' : d.rows < 2 ^ 32) :
    (computeLayout d offset).size = d.rows * d.cols ∧ d.rows * d.cols = (d.rows - 1) * d.cols + d.cols := by
  have h1 : d.rows * d.cols = (d.rows - 1) * d.cols + d.cols := by
    conv_lhs => rw [show d.rows = (d.rows - 1) + 1 by omega, Nat.add_mul, Nat.one_mul]
  have h2 : add32 d.rows (2 ^ 32 - 1) = d.rows - 1 := by
    unfold add32
    rw [show d.rows + (2 ^ 32 - 1) = (d.rows - 1) + 2 ^ 32 by omega, Nat.add_mod_right, Nat.mod_eq_of_lt (by omega)]
  refine ⟨?_, h1⟩
  show add32 (mul32 (add32 d.rows (2 ^ 32 - 1)) d.cols) d.cols = _
  rw [h2, mul32_eq (by omega), add32_eq (by omega)]
  omega

/-- What the descriptors made by `layouts` look like -/
theorem layouts_spec (t : Nat) : ∀ (ds : List Descr) (offset : Nat),
    (∀ d ∈ ds, d.tsize = t ∧ 0 < d.rows ∧ d.rows < 2 ^ 32) → offset + (ds.map fun d => d.rows * d.cols).sum < 2 ^ 32 →
    (layouts ds offset).length = ds.length
      ∧ (∀ (k : Nat) (d o : Descr), ds[k]? = some d → (layouts ds offset)[k]? = some o →
          SameShape d o ∧ o.stride = o.cols ∧ o.size = (o.rows - 1) * o.stride + o.cols ∧ offset ≤ o.offset
            ∧ o.offset + o.size ≤ offset + (ds.map fun d => d.rows * d.cols).sum)
      ∧ (∀ (k l : Nat) (o o' : Descr), k < l → (layouts ds offset)[k]? = some o → (layouts ds offset)[l]? = some o' →
          o.offset + o.size ≤ o'.offset) := by
  intro ds
  induction ds with
  | nil => intro offset _ _; exact ⟨rfl, fun k d o h => (by cases h), fun k l o o' _ h => (by cases h)⟩
  | cons d ds ih =>
    intro offset hd hs
    rw [List.map_cons, List.sum_cons] at hs
    obtain ⟨_, hr, hr'⟩ := hd d List.mem_cons_self
    obtain ⟨hz, hz'⟩ := computeLayout_size (offset := offset) hr (by omega) hr'
    obtain ⟨i1, i2, i3⟩ := ih (offset + (computeLayout d offset).size) (fun x hx => hd x (List.mem_cons_of_mem _ hx)) (by rw [hz]; omega)
    rw [hz] at i1 i2 i3
    unfold layouts
    rw [hz]
    refine ⟨by rw [List.length_cons, i1, List.length_cons], ?_, ?_⟩
    · rintro (_ | k) x o hx ho
      · cases hx; cases ho
        refine ⟨⟨rfl, rfl, rfl⟩, rfl, ?_, Nat.le_refl _, ?_⟩
        · rw [hz, hz']; rfl
        · rw [hz, List.map_cons, List.sum_cons]
          show offset + _ ≤ _
          omega
      · obtain ⟨g1, g2, g3, g4, g5⟩ := i2 k x o hx ho
        rw [List.map_cons, List.sum_cons]
        exact ⟨g1, g2, g3, by omega, by omega⟩
    · rintro (_ | k) (_ | l) o o' hkl ho ho'
      · omega
      · cases ho
        have hl : l < ds.length := by
          rw [← i1]
          rw [List.getElem?_cons_succ] at ho'
          exact (List.getElem?_eq_some_iff.1 ho').1
        obtain ⟨_, _, _, g4, _⟩ := i2 l ds[l] o' (List.getElem?_eq_getElem hl) ho'
        rw [hz]
        exact g4
      · omega
      · exact i3 k l o o' (by omega) ho ho'

/-- Descriptor `k` of a list (arbitrary beyond the end) -/
def nth (ds : List Descr) (k : Nat) : Descr := ds[k]?.getD ⟨0, 0, 0, 0, 0, 0⟩

theorem nth_some {ds : List Descr} {k : Nat} (h : k < ds.length) : ds[k]? = some (nth ds k) := by
  unfold nth
  rw [List.getElem?_eq_getElem h]; rfl

/-- **C73 (partial).**  The layouts computed by `jit_coop_vec_compute_layout`, with each matrix at the end of the
preceding one, are a valid output for `jit_coop_vec_pack_matrices`, and they are a valid input for the conversion back if the
input matrices do not overlap. -/
theorem C73_layouts_partial (t : Nat) (ds : List Descr) (offset : Nat) (hd : ∀ d ∈ ds, d.Ok ∧ d.tsize = t)
    (hs : (offset + (ds.map fun d => d.rows * d.cols).sum) * t < 2 ^ 32) :
    Valid ds.length (nth ds) (nth (layouts ds offset))
      ∧ ((∀ k l, k < ds.length → l < ds.length → k ≠ l → ∀ a, a ∈ (nth ds k).Bytes → a ∉ (nth ds l).Bytes) →
          Valid ds.length (nth (layouts ds offset)) (nth ds)) := by
  by_cases hemp : ds = []
  · subst hemp
    refine ⟨⟨fun k hk => ?_, fun k hk => ?_, fun k hk => ?_, fun k l hk => ?_⟩, fun _ => ⟨fun k hk => ?_, fun k hk => ?_, fun k hk => ?_, fun k l hk => ?_⟩⟩ <;>
      exact absurd hk (by simp)
  have ht : 0 < t := by
    obtain ⟨d, hdm⟩ := List.exists_mem_of_ne_nil _ hemp
    obtain ⟨h1, h2⟩ := hd d hdm
    rw [← h2]; exact h1.tpos
  have hle := Nat.le_mul_of_pos_right (offset + (ds.map fun d => d.rows * d.cols).sum) ht
  obtain ⟨h1, h2, h3⟩ := layouts_spec t ds offset (fun d hdm => ⟨(hd d hdm).2, (hd d hdm).1.rpos, (hd d hdm).1.rows⟩) (by omega)
  have hin : ∀ k, k < ds.length → (nth ds k).Ok ∧ (nth ds k).tsize = t := fun k hk =>
    hd _ (List.mem_of_getElem? (nth_some hk))
  have hsh : ∀ k, k < ds.length → SameShape (nth ds k) (nth (layouts ds offset) k) := fun k hk =>
    (h2 k _ _ (nth_some hk) (nth_some (by omega))).1
  have hok : ∀ k, k < ds.length → (nth (layouts ds offset) k).Ok := by
    intro k hk
    obtain ⟨g1, g2, g3, g4, g5⟩ := h2 k _ _ (nth_some hk) (nth_some (by omega))
    obtain ⟨f1, f2⟩ := hin k hk
    refine ⟨by rw [g1.tsize]; exact f1.tpos, by rw [g1.rows]; exact f1.rpos, by rw [g1.rows]; exact f1.rows, by omega, g3, ?_⟩
    rw [g1.tsize, f2]
    exact Nat.lt_of_le_of_lt (Nat.mul_le_mul_right t g5) hs
  have hlo : ∀ k l, k < ds.length → l < ds.length → k < l → ∀ a, a ∈ (nth (layouts ds offset) k).Bytes →
      ∀ a', a' ∈ (nth (layouts ds offset) l).Bytes → a < a' := by
    rintro k l hk hl hkl a ⟨r, c, b, he, rfl⟩ a' ⟨r', c', b', he', rfl⟩
    have g1 := ok_byte (hok k hk) he
    have g2 := h3 k l _ _ hkl (nth_some (by omega)) (nth_some (by omega))
    rw [(hsh k hk).tsize, (hin k hk).2] at g1
    have g3 := Nat.mul_le_mul_right t (show (nth (layouts ds offset) k).offset + (nth (layouts ds offset) k).size ≤
      (nth (layouts ds offset) l).offset + r' * (nth (layouts ds offset) l).stride + c' by omega)
    have e : (nth (layouts ds offset) l).byte r' c' b' = ((nth (layouts ds offset) l).offset
        + r' * (nth (layouts ds offset) l).stride + c') * t + b' := by
      unfold Descr.byte
      rw [(hsh l hl).tsize, (hin l hl).2]
    rw [e]
    omega
  refine ⟨⟨fun k hk => (hin k hk).1, hok, hsh, ?_⟩, fun hdis => ⟨hok, fun k hk => (hin k hk).1, ?_, hdis⟩⟩
  · intro k l hk hl hne a ha ha'
    rcases Nat.lt_or_gt_of_ne hne with h | h
    · exact Nat.lt_irrefl _ (hlo k l hk hl h a ha a ha')
    · exact Nat.lt_irrefl _ (hlo l k hl hk h a ha' a ha)
  · intro k hk
    obtain ⟨e1, e2, e3⟩ := hsh k hk
    exact ⟨e1.symm, e2.symm, e3.symm⟩

/-! ### Examples -/

/-- Two matrices of 16 bit numbers with 2 x 3 entries, side by side in an array with rows of 6 entries -/
def left : Descr := ⟨2, 2, 3, 0, 6, 9⟩
@[inherit_doc left] def right : Descr := ⟨2, 2, 3, 3, 6, 9⟩

theorem left_ok : left.Ok := ⟨by decide, by decide, by decide, by decide, by decide, by decide⟩
theorem right_ok : right.Ok := ⟨by decide, by decide, by decide, by decide, by decide, by decide⟩

example : layouts [left, right] 0 = [⟨2, 2, 3, 0, 3, 6⟩, ⟨2, 2, 3, 6, 3, 6⟩] := by decide

/-- packing them one after the other, and the conversion back, where the rows of the two outputs alternate -/
example : Valid 2 (nth [left, right]) (nth (layouts [left, right] 0)) ∧ Valid 2 (nth (layouts [left, right] 0)) (nth [left, right]) := by
  have h := C73_layouts_partial 2 [left, right] 0 (by
    intro d hd
    rcases List.mem_cons.1 hd with rfl | hd
    · exact ⟨left_ok, rfl⟩
    · rw [List.mem_singleton] at hd; subst hd; exact ⟨right_ok, rfl⟩) (by decide)
  refine ⟨h.1, h.2 ?_⟩
  have key : ∀ a, a ∈ left.Bytes → a ∉ right.Bytes := by
    rintro a ⟨r, c, b, ⟨h1, h2, h3⟩, rfl⟩ ⟨r', c', b', ⟨g1, g2, g3⟩, e⟩
    simp only [Descr.byte, left, right] at *
    omega
  intro k l hk hl hne a ha ha'
  have hk : k = 0 ∨ k = 1 := by simp only [List.length_cons, List.length_nil] at hk; omega
  have hl : l = 0 ∨ l = 1 := by simp only [List.length_cons, List.length_nil] at hl; omega
  rcases hk with rfl | rfl <;> rcases hl with rfl | rfl
  · exact hne rfl
  · exact key a ha ha'
  · exact key a ha' ha
  · exact hne rfl

/-- runs exist -/
example (m : Loc → UInt8) : ∃ m', (pack 2 (nth [left, right]) (nth (layouts [left, right] 0))).Ends m m' := phase_ends _ m

/-- **C73 fails** if offsets in bytes exceed 32 bits: here a 1 x 1 matrix of 32 bit numbers at offset 2^30, which is
copied to the start of the buffer (and overwrites what is stored there).  Arrays can have up to 2^32 - 1
elements, and the offset is a 32 bit number of elements. -/
theorem C73_offset_counterexample :
    let i : Descr := ⟨4, 1, 1, 0, 1, 1⟩
    let o : Descr := ⟨4, 1, 1, 2 ^ 30, 1, 1⟩
    let m : Loc → UInt8 := fun l => if l.1 = Buf.inp then 7 else 0
    ∃ m' : Loc → UInt8, (pack 1 (fun _ => i) (fun _ => o)).Ends m m'
      ∧ m' (Buf.out, o.byte 0 0 0) = 0 ∧ 0 ∉ o.Bytes ∧ m' (Buf.out, 0) = 7 := by
  intro i o m
  obtain ⟨m', h⟩ := phase_ends (pack 1 (fun _ => i) (fun _ => o)) m
  let o' : Descr := ⟨4, 1, 1, 0, 1, 1⟩
  have hsame : pack 1 (fun _ => i) (fun _ => o) = pack 1 (fun _ => i) (fun _ => o') := by
    unfold pack packTask
    simp only [i, o, o', mul32]
    rfl
  have hi : i.Ok := ⟨by decide, by decide, by decide, by decide, by decide, by decide⟩
  have hv : Valid 1 (fun _ => i) (fun _ => o') :=
    ⟨fun _ _ => hi, fun _ _ => hi, fun _ _ => ⟨rfl, rfl, rfl⟩, fun k l hk hl hne => by omega⟩
  have h' := h
  rw [hsame] at h'
  obtain ⟨h1, h2, _⟩ := C73_pack_partial 1 _ _ hv m m' h'
  refine ⟨m', h, ?_, ?_, ?_⟩
  · rw [h2]
    · rfl
    · rintro k _ ⟨r, c, b, ⟨e1, e2, e3⟩, e⟩
      simp only [Descr.byte, o, o'] at *
      omega
  · rintro ⟨r, c, b, _, e⟩
    simp only [Descr.byte, o] at e
    omega
  · have := h1 0 (by omega) 0 0 0 ⟨by decide, by decide, by decide⟩
    exact this

end Verif.CoopMat
