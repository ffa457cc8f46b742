import Verif.Tex.Props

/-! # C91: lookups, writes and the lifetime of textures -/
namespace Verif.Tex
open Spec

/-! ### Lookups -/

theorem lookup_prefix {t : Texture} (hc : 0 < t.nChannels) : ∀ n, n < t.nTextures →
    ((List.range n).flatMap fun ti => (List.range (t.channels ti)).map fun ch => (ti, ch)) = (List.range (4 * n)).map fun c => (c / 4, c % 4) := by
  intro n hn
  induction n with
  | zero => rfl
  | succ n ih =>
    rw [List.range_succ, List.flatMap_append, ih (by omega)]
    have := (channels_bounds hc (i := n) (by omega)).2.2.2.1 (by omega)
    simp only [List.flatMap_cons, List.flatMap_nil, List.append_nil, this]
    rw [show 4 * (n + 1) = 4 * n + 4 by omega, List.range_add, List.map_append, List.map_map]
    congr 1
    apply List.map_congr_left
    intro j hj
    rw [List.mem_range] at hj
    simp only [Function.comp_apply, Prod.mk.injEq]
    omega

theorem lookup_eq {t : Texture} (hc : 0 < t.nChannels) : t.lookup = (List.range t.nChannels).map fun c => (c / 4, c % 4) := by
  unfold Texture.lookup
  obtain ⟨n, hn⟩ : ∃ n, t.nTextures = n + 1 := ⟨t.nTextures - 1, by unfold Texture.nTextures; omega⟩
  have hb := channels_bounds hc (i := n) (by omega)
  rw [hn, List.range_succ, List.flatMap_append, lookup_prefix hc n (by omega)]
  simp only [List.flatMap_cons, List.flatMap_nil, List.append_nil]
  rw [← hb.2.2.2.2 (by omega), List.range_add, List.map_append, List.map_map]
  congr 1
  apply List.map_congr_left
  intro j hj
  rw [List.mem_range] at hj
  simp only [Function.comp_apply, Prod.mk.injEq]
  omega

/-- **C91**: lookups return one result per channel, and result `c` comes from where channel `c` is stored. -/
theorem C91_lookup {t : Texture} (hc : 0 < t.nChannels) : t.lookup.length = t.nChannels ∧ ∀ c < t.nChannels, t.lookup[c]? = some (c / 4, c % 4) := by
  rw [lookup_eq hc]
  refine ⟨by simp, fun c h => by simp [h]⟩

theorem bilerp_eq (t : Texture) : t.bilerp = t.lookup.flatMap fun p => (List.range 4).map fun j => (p.1, p.2, j) := by
  unfold Texture.bilerp Texture.lookup
  rw [List.flatMap_assoc]
  apply List.flatMap_congr
  intro ti _
  rw [List.flatMap_map]

theorem flatMap_four {α β : Type} (f : α → Nat → β) : ∀ (l : List α) (c j : Nat), c < l.length → j < 4 →
    (l.flatMap fun p => (List.range 4).map fun j => f p j)[4 * c + j]? = l[c]?.map fun p => f p j := by
  intro l
  induction l with
  | nil => intro c j h; simp at h
  | cons p l ih =>
    intro c j hc hj
    rw [List.flatMap_cons]
    cases c with
    | zero =>
      rw [List.getElem?_append_left (by simp; omega)]
      simp [hj]
    | succ c =>
      rw [List.getElem?_append_right (by simp; omega)]
      have e : 4 * (c + 1) + j - ((List.range 4).map fun j => f p j).length = 4 * c + j := by simp; omega
      rw [e, ih c j (by simpa using hc) hj]
      simp

/-- **C91**: a fetch without interpolation returns four texels per channel, in the order of channels. -/
theorem C91_bilerp {t : Texture} (hc : 0 < t.nChannels) : t.bilerp.length = 4 * t.nChannels ∧
    ∀ c < t.nChannels, ∀ j < 4, t.bilerp[4 * c + j]? = some (c / 4, c % 4, j) := by
  rw [bilerp_eq, lookup_eq hc]
  constructor
  · have : ∀ l : List (Nat × Nat), (l.flatMap fun p => (List.range 4).map fun j => (p.1, p.2, j)).length = 4 * l.length := by
      intro l
      induction l with
      | nil => rfl
      | cons p l ih =>
        rw [List.flatMap_cons, List.length_append, ih]
        simp
        omega
    rw [this]
    simp
  · intro c h j hj
    have := flatMap_four (fun (p : Nat × Nat) j => (p.1, p.2, j)) ((List.range t.nChannels).map fun c => (c / 4, c % 4)) c j (by simpa using h) hj
    rw [this]
    simp [h]

/-- Masked lookups return zero in lanes that are not active, and others what the hardware returns. -/
theorem C91_lookup_mask {F : Type} (zero : F) (masked active : Bool) (hm : masked = false → active = true) (hw : F) :
    lookupLane zero masked active hw = if active then hw else zero := by
  unfold lookupLane
  cases masked with
  | true => rfl
  | false => rw [hm rfl]; rfl

/-! ### Writes -/

theorem no_three {t : Texture} (hc : 0 < t.nChannels) (h3 : t.nChannels % 4 ≠ 3) {i : Nat} (hi : i < t.nTextures) :
    (t.channels i = 1 ∨ t.channels i = 2 ∨ t.channels i = 4) ∧ t.channelsStorage i = t.channels i := by
  have hb := channels_bounds hc hi
  have h : t.channels i ≠ 3 := by
    intro h
    by_cases hl : i + 1 < t.nTextures
    · have := hb.2.2.2.1 hl; omega
    · have := hb.2.2.2.2 (by omega); omega
  refine ⟨by omega, ?_⟩
  unfold Texture.channelsStorage
  rw [if_neg h]

theorem sust_eq {F : Type} {t : Texture} (hc : 0 < t.nChannels) (h3 : t.nChannels % 4 ≠ 3) {i : Nat} (hi : i < t.nTextures) (x : Nat) (value : Nat → F) :
    t.sust i x value = some ⟨x * (t.channels i * t.typeSize) % 2 ^ 32, (List.range (t.channels i)).map fun c => value (i * 4 + c)⟩ := by
  have := (no_three hc h3 hi).1
  unfold Texture.sust
  dsimp only
  rw [if_pos]
  rw [List.length_map, List.length_range]
  rcases this with h | h | h <;> rw [h] <;> rfl

/-- **C91**, for textures whose last part does not have three channels: a write changes all channels of its texel to the given values (converted to the format of the texture), and
nothing else; lanes that are not active change nothing. -/
theorem C91_write_partial {F : Type} {t : Texture} (hv : Valid t) (h3 : t.nChannels % 4 ≠ 3) (conv : F → Nat → Byte) (active : Bool) {x y z : Nat}
    (hx : x < size t 0 0) (hy : y < size t 0 1) (hz : z < size t 0 2) (h32 : size t 0 0 * (4 * t.typeSize) ≤ 2 ^ 32) (value : Nat → F) (a : Arrays) :
    ∃ a', t.write conv active x y z value a = some a' ∧
      (active = false → a' = a) ∧
      (active = true → ∀ ch < t.nChannels, ∀ k < t.typeSize, stored t a' 0 x y z ch k = conv (value ch) k) ∧
      ∀ x' < size t 0 0, ∀ y' z', (x' ≠ x ∨ y' ≠ y ∨ z' ≠ z) → ∀ ch < t.nChannels, ∀ k < t.typeSize, stored t a' 0 x' y' z' ch k = stored t a 0 x' y' z' ch k := by
  obtain ⟨rows, he, _⟩ := extent_eq hv 0
  have hfold : ∀ n ≤ t.nTextures, (List.range n).foldl (fun a ti => match a, t.sust ti x value with
      | some a, some s => some (if active then fun i l => if i = ti ∧ l = 0 then s.exec conv t.typeSize (t.pitch 0 ti) (size t 0 1) (size t 0 2) z y (a i l) else a i l else a)
      | _, _ => none) (some a) = some (if active then fun i l => if i < n ∧ l = 0 then
        (Sust.mk (x * (t.channels i * t.typeSize) % 2 ^ 32) ((List.range (t.channels i)).map fun c => value (i * 4 + c))).exec conv t.typeSize (t.pitch 0 i) (size t 0 1)
          (size t 0 2) z y (a i l) else a i l else a) := by
    intro n hn
    induction n with
    | zero => cases active <;> simp
    | succ n ih =>
      rw [List.range_succ, List.foldl_append, ih (by omega)]
      simp only [List.foldl_cons, List.foldl_nil]
      rw [sust_eq hv.channels h3 (by omega)]
      dsimp only
      congr 1
      cases active with
      | false => rfl
      | true =>
        simp only [if_true]
        funext i l
        by_cases h1 : i = n
        · subst h1
          by_cases h2 : l = 0
          · subst h2
            simp
          · simp [h2]
        · by_cases h2 : i < n
          · have : i < n + 1 := by omega
            simp [h1, h2, this]
          · have : ¬ i < n + 1 := by omega
            simp [h1, h2, this]
  have hwr := hfold t.nTextures (le_refl _)
  unfold Texture.write
  rw [he]
  dsimp only
  refine ⟨_, hwr, fun h => by rw [h]; rfl, fun h ch hch k hk => ?_, fun x' hx' y' z' hne ch hch k hk => ?_⟩
  · obtain ⟨hi, hcm⟩ := channel_split hv.channels hch
    obtain ⟨_, hst⟩ := no_three hv.channels h3 hi
    have hb4 := (channels_bounds hv.channels hi).2.1
    unfold stored
    rw [h]
    simp only [if_true]
    rw [if_pos (show ch / 4 < t.nTextures ∧ True from ⟨hi, trivial⟩)]
    have hlt : x * (t.channels (ch / 4) * t.typeSize) + t.channels (ch / 4) * t.typeSize ≤ size t 0 0 * (t.channels (ch / 4) * t.typeSize) := by
      rw [← Nat.succ_mul]; exact Nat.mul_le_mul_right _ hx
    have hpos : 0 < t.channels (ch / 4) * t.typeSize := Nat.mul_pos (by omega) hv.typeSize
    have hmod : x * (t.channels (ch / 4) * t.typeSize) % 2 ^ 32 = x * (t.channels (ch / 4) * t.typeSize) := by
      apply Nat.mod_eq_of_lt
      have : size t 0 0 * (t.channels (ch / 4) * t.typeSize) ≤ size t 0 0 * (4 * t.typeSize) := Nat.mul_le_mul_left _ (Nat.mul_le_mul_right _ hb4)
      omega
    unfold Sust.exec
    dsimp only
    rw [hmod, hst]
    have ex : (x * t.channels (ch / 4) + ch % 4) * t.typeSize + k = x * (t.channels (ch / 4) * t.typeSize) + (ch % 4 * t.typeSize + k) := by ring
    rw [ex, if_pos ⟨hz, hy, by rw [List.length_map, List.length_range, pitch_eq hv, hst]; exact hlt, rfl, rfl, by omega⟩, Nat.add_sub_cancel_left,
      Nat.add_comm (ch % 4 * t.typeSize) k, Nat.add_mul_div_right _ _ hv.typeSize, Nat.div_eq_of_lt hk, Nat.zero_add, Nat.add_mul_mod_self_right, Nat.mod_eq_of_lt hk]
    simp only [List.getElem?_map, List.getElem?_range hcm, Option.map_some]
    rw [Nat.div_add_mod']
  · obtain ⟨hi, hcm⟩ := channel_split hv.channels hch
    obtain ⟨_, hst⟩ := no_three hv.channels h3 hi
    have hb4 := (channels_bounds hv.channels hi).2.1
    unfold stored
    cases active with
    | false => rfl
    | true =>
      simp only [if_true]
      rw [if_pos (show ch / 4 < t.nTextures ∧ True from ⟨hi, trivial⟩)]
      have hlt : x * (t.channels (ch / 4) * t.typeSize) + t.channels (ch / 4) * t.typeSize ≤ size t 0 0 * (t.channels (ch / 4) * t.typeSize) := by
        rw [← Nat.succ_mul]; exact Nat.mul_le_mul_right _ hx
      have hpos : 0 < t.channels (ch / 4) * t.typeSize := Nat.mul_pos (by omega) hv.typeSize
      have hmod : x * (t.channels (ch / 4) * t.typeSize) % 2 ^ 32 = x * (t.channels (ch / 4) * t.typeSize) := by
        apply Nat.mod_eq_of_lt
        have : size t 0 0 * (t.channels (ch / 4) * t.typeSize) ≤ size t 0 0 * (4 * t.typeSize) := Nat.mul_le_mul_left _ (Nat.mul_le_mul_right _ hb4)
        omega
      unfold Sust.exec
      dsimp only
      rw [hmod, hst]
      have ex : (x' * t.channels (ch / 4) + ch % 4) * t.typeSize + k = x' * (t.channels (ch / 4) * t.typeSize) + (ch % 4 * t.typeSize + k) := by ring
      rw [ex]
      have hb : ch % 4 * t.typeSize + k < t.channels (ch / 4) * t.typeSize := comb_lt hcm hk
      generalize hP : t.channels (ch / 4) * t.typeSize = P at *
      by_cases hc : z < size t 0 2 ∧ y < size t 0 1 ∧ x * P + ((List.range (t.channels (ch / 4))).map fun c => value (ch / 4 * 4 + c)).length * t.typeSize ≤ t.pitch 0 (ch / 4) ∧
          z' = z ∧ y' = y ∧ x * P ≤ x' * P + (ch % 4 * t.typeSize + k)
      · rw [if_pos hc]
        obtain ⟨_, _, _, e1, e2, hle⟩ := hc
        have hxx : x' ≠ x := by
          rcases hne with h | h | h
          · exact h
          · exact absurd e2 h
          · exact absurd e1 h
        have hgt : x < x' := by
          by_contra hcon
          have h5 : x' + 1 ≤ x := by omega
          have h6 : (x' + 1) * P ≤ x * P := Nat.mul_le_mul_right _ h5
          rw [Nat.succ_mul] at h6
          omega
        have h7 : (x + 1) * P ≤ x' * P := Nat.mul_le_mul_right _ hgt
        rw [Nat.succ_mul] at h7
        have hge : t.channels (ch / 4) ≤ (x' * P + (ch % 4 * t.typeSize + k) - x * P) / t.typeSize := by
          rw [Nat.le_div_iff_mul_le hv.typeSize, hP]
          omega
        rw [List.getElem?_eq_none (by rw [List.length_map, List.length_range]; exact hge)]
      · rw [if_neg hc]

/-- **C91**, refuted for textures with three channels (or 7, 11, ...): the generated store has three operands, but only stores with one, two and four exist; its offset is computed from
three channels, although texels occupy four. -/
theorem C91_write_three_counterexample {F : Type} {t : Texture} (h3 : t.nChannels % 4 = 3) (conv : F → Nat → Byte) (value : Nat → F) (a : Arrays) (x y z : Nat) (active : Bool) :
    t.write conv active x y z value a = none ∧ t.channels (t.nTextures - 1) = 3 ∧ t.channelsStorage (t.nTextures - 1) = 4 := by
  have hch : t.channels (t.nTextures - 1) = 3 := by
    unfold Texture.channels
    rw [if_pos rfl, if_neg (by omega), h3]
  refine ⟨?_, hch, by unfold Texture.channelsStorage; rw [hch, if_pos rfl]⟩
  obtain ⟨n, hn⟩ : ∃ n, t.nTextures = n + 1 := ⟨t.nTextures - 1, by unfold Texture.nTextures; omega⟩
  have hs : t.sust n x value = none := by
    rw [hn, Nat.add_sub_cancel] at hch
    unfold Texture.sust
    dsimp only
    rw [hch]
    rfl
  unfold Texture.write
  rw [hn, List.range_succ]
  simp only [List.foldl_append, List.foldl_cons, List.foldl_nil, hs]
  generalize List.foldl _ (some a) (List.range n) = r
  cases r <;> rfl

/-! ### Lifetime -/

/-- Invariant of histories -/
structure Inv (n : Nat) (w : World) : Prop where
  refs : ∀ i < n, w.life.refs i = w.lookups i + (if w.handle then 1 else 0)
  out : ∀ i, n ≤ i → w.lookups i = 0
  alive : ∀ i < n, (w.life.alive i = true ↔ 0 < w.life.refs i)
  count : w.life.outstanding = ((List.range n).filter fun i => decide (0 < w.life.refs i)).length
  deleted : w.life.deleted = if w.life.outstanding = 0 then 1 else 0
  good : w.life.bad = 0

/-- The part of the invariant that does not mention the history -/
structure LInv (n : Nat) (s : Life) : Prop where
  alive : ∀ i < n, (s.alive i = true ↔ 0 < s.refs i)
  count : s.outstanding = ((List.range n).filter fun i => decide (0 < s.refs i)).length
  deleted : s.deleted = if s.outstanding = 0 then 1 else 0
  good : s.bad = 0

theorem count_update {n i : Nat} (hi : i < n) {r r' : Nat → Nat} (h1 : 0 < r i) (h2 : r' i = 0) (hne : ∀ j, j ≠ i → r' j = r j) :
    ((List.range n).filter fun j => decide (0 < r j)).length = ((List.range n).filter fun j => decide (0 < r' j)).length + 1 := by
  induction n with
  | zero => omega
  | succ n ih =>
    rw [List.range_succ, List.filter_append, List.filter_append, List.length_append, List.length_append]
    by_cases h : i = n
    · subst h
      have : ((List.range i).filter fun j => decide (0 < r j)) = (List.range i).filter fun j => decide (0 < r' j) := by
        apply List.filter_congr
        intro j hj
        rw [List.mem_range] at hj
        rw [hne j (by omega)]
      rw [this]
      simp [h1, h2]
    · rw [ih (by omega)]
      have : r' n = r n := hne n (fun e => h e.symm)
      simp only [List.filter_cons, List.filter_nil, this]
      split <;> simp <;> omega

theorem count_congr {n : Nat} {r r' : Nat → Nat} (h : ∀ j < n, (0 < r j ↔ 0 < r' j)) :
    ((List.range n).filter fun j => decide (0 < r j)).length = ((List.range n).filter fun j => decide (0 < r' j)).length := by
  congr 1
  apply List.filter_congr
  intro j hj
  rw [List.mem_range] at hj
  simp [h j hj]

theorem decRef_inv {n i : Nat} {s : Life} (h : LInv n s) (hi : i < n) (hr : 0 < s.refs i) :
    LInv n (s.decRef i) ∧ (s.decRef i).refs = Function.update s.refs i (s.refs i - 1) := by
  have hpos : s.outstanding ≠ 0 := by
    rw [h.count]
    intro hz
    rw [List.length_eq_zero_iff, List.filter_eq_nil_iff] at hz
    exact hz i (List.mem_range.2 hi) (by simp [hr])
  have hdel : s.deleted = 0 := by rw [h.deleted, if_neg hpos]
  unfold Life.decRef
  by_cases h1 : s.refs i = 1
  · rw [if_pos h1]
    have hc := count_update (r := s.refs) (r' := Function.update s.refs i 0) hi hr (by simp) (fun j hj => by simp [hj])
    refine ⟨⟨fun j hj => ?_, ?_, ?_, ?_⟩, by simp [h1]⟩
    · dsimp only
      by_cases hij : j = i
      · subst hij; simp
      · simp only [Function.update_of_ne hij]; exact h.alive j hj
    · dsimp only
      rw [h.count, hc]; omega
    · dsimp only
      rw [hdel]
      by_cases ho : s.outstanding - 1 > 0
      · rw [if_pos ho, if_neg (by omega)]
      · rw [if_neg ho, if_pos (by omega)]
    · dsimp only
      rw [hdel, if_neg (by omega)]
      exact h.good
  · rw [if_neg h1]
    refine ⟨⟨fun j hj => ?_, ?_, h.deleted, h.good⟩, rfl⟩
    · dsimp only
      by_cases hij : j = i
      · subst hij; simp only [Function.update_self]; rw [h.alive j hj]; omega
      · simp only [Function.update_of_ne hij]; exact h.alive j hj
    · dsimp only
      rw [h.count]
      apply count_congr
      intro j _
      by_cases hij : j = i
      · subst hij; simp only [Function.update_self]; omega
      · simp only [Function.update_of_ne hij]

theorem destroy_loop {n : Nat} {s : Life} (h : LInv n s) (hr : ∀ i < n, 0 < s.refs i) : ∀ m ≤ n,
    let s' := (List.range m).foldl (fun s i => Life.decRef i { s with bad := if s.deleted > 0 then s.bad + 1 else s.bad }) s
    LInv n s' ∧ ∀ i, s'.refs i = if i < m then s.refs i - 1 else s.refs i := by
  intro m hm
  induction m with
  | zero => exact ⟨h, fun i => by simp⟩
  | succ m ih =>
    obtain ⟨h1, h2⟩ := ih (by omega)
    simp only [List.range_succ, List.foldl_append, List.foldl_cons, List.foldl_nil]
    generalize (List.range m).foldl (fun s i => Life.decRef i { s with bad := if s.deleted > 0 then s.bad + 1 else s.bad }) s = s1 at *
    have hrm : 0 < s1.refs m := by rw [h2, if_neg (by omega)]; exact hr m (by omega)
    have hpos : s1.outstanding ≠ 0 := by
      rw [h1.count]
      intro hz
      rw [List.length_eq_zero_iff, List.filter_eq_nil_iff] at hz
      exact hz m (List.mem_range.2 (by omega)) (by simp [hrm])
    have hdel : s1.deleted = 0 := by rw [h1.deleted, if_neg hpos]
    have h3 : LInv n { s1 with bad := if s1.deleted > 0 then s1.bad + 1 else s1.bad } :=
      ⟨h1.alive, h1.count, h1.deleted, by dsimp only; rw [hdel, if_neg (by omega)]; exact h1.good⟩
    obtain ⟨h4, h5⟩ := decRef_inv h3 (show m < n by omega) hrm
    refine ⟨h4, fun i => ?_⟩
    rw [h5]
    dsimp only
    by_cases him : i = m
    · subst him
      rw [Function.update_self, h2, if_neg (by omega), if_pos (by omega)]
    · rw [Function.update_of_ne him, h2]
      by_cases hlt : i < m
      · rw [if_pos hlt, if_pos (by omega)]
      · rw [if_neg hlt, if_neg (by omega)]

theorem reach_inv {writable : Bool} {n : Nat} (hn : 0 < n) {w : World} (h : Reach writable n w) : Inv n w := by
  induction h with
  | init =>
    refine ⟨fun i hi => by simp [Life.create, hi], fun _ _ => rfl, fun i hi => by simp [Life.create, hi], ?_, ?_, rfl⟩
    · simp only [Life.create]
      rw [List.filter_eq_self.2 (by intro j hj; rw [List.mem_range] at hj; simp [hj]), List.length_range]
    · show (0 : Nat) = if n = 0 then 1 else 0
      rw [if_neg (by omega)]
  | step _ hs ih =>
    rename_i w w' o _
    cases hs with
    | @lookup i hh hi =>
      refine ⟨fun j hj => ?_, fun j hj => ?_, fun j hj => ?_, ?_, ih.deleted, ih.good⟩
      · dsimp only
        by_cases hij : j = i
        · subst hij; simp only [Function.update_self]; rw [ih.refs j hj]; omega
        · simp only [Function.update_of_ne hij]; exact ih.refs j hj
      · dsimp only
        rw [Function.update_of_ne (by omega)]
        exact ih.out j hj
      · dsimp only
        by_cases hij : j = i
        · subst hij; simp only [Function.update_self]
          rw [ih.alive j hj, ih.refs j hj, hh]; simp
        · simp only [Function.update_of_ne hij]; exact ih.alive j hj
      · dsimp only
        rw [ih.count]
        apply count_congr
        intro j hj
        by_cases hij : j = i
        · subst hij; simp only [Function.update_self]
          rw [ih.refs j hj, hh]; simp
        · simp only [Function.update_of_ne hij]
    | @freeLookup i hp =>
      have hi : i < n := by
        by_contra hc
        have := ih.out i (by omega)
        omega
      have hr := ih.refs i hi
      obtain ⟨h1, h2⟩ := decRef_inv ⟨ih.alive, ih.count, ih.deleted, ih.good⟩ hi (show 0 < w.life.refs i by omega)
      refine ⟨fun j hj => ?_, fun j hj => ?_, h1.alive, h1.count, h1.deleted, h1.good⟩
      · dsimp only
        rw [h2]
        by_cases hij : j = i
        · subst hij; simp only [Function.update_self]; omega
        · simp only [Function.update_of_ne hij]; exact ih.refs j hj
      · dsimp only
        rw [Function.update_of_ne (by omega)]
        exact ih.out j hj
    | write _ _ _ => exact ⟨ih.refs, ih.out, ih.alive, ih.count, ih.deleted, ih.good⟩
    | doneWrite _ => exact ⟨ih.refs, ih.out, ih.alive, ih.count, ih.deleted, ih.good⟩
    | destroy hh =>
      have hr : ∀ i < n, 0 < w.life.refs i := fun i hi => by rw [ih.refs i hi, hh]; simp
      have key : ∀ s0 : Life, LInv n s0 → s0.refs = w.life.refs →
          Inv n ⟨(List.range n).foldl (fun s i => Life.decRef i { s with bad := if s.deleted > 0 then s.bad + 1 else s.bad }) s0, w.lookups, w.writes, false⟩ := by
        intro s0 hl e
        obtain ⟨h1, h2⟩ := destroy_loop hl (by rw [e]; exact hr) n (le_refl _)
        refine ⟨fun i hi => ?_, ih.out, h1.alive, h1.count, h1.deleted, h1.good⟩
        dsimp only
        rw [h2 i, if_pos hi, e, ih.refs i hi, hh]
        simp
      unfold Life.destroy
      cases writable with
      | true => exact key _ ⟨ih.alive, ih.count, ih.deleted, ih.good⟩ rfl
      | false => exact key _ ⟨ih.alive, ih.count, ih.deleted, ih.good⟩ rfl

/-- **C91**: whatever lookups are created and freed before and after the handle is destroyed, the texture object of a pending lookup exists, as do all objects while the user owns the handle.
The structure is deleted once, exactly when everything is released, and never accessed after that. -/
theorem C91_lifetime {writable : Bool} {n : Nat} (hn : 0 < n) {w : World} (h : Reach writable n w) :
    (∀ i < n, (w.life.alive i = true ↔ w.handle = true ∨ 0 < w.lookups i)) ∧
    (w.life.deleted = if w.handle = false ∧ ∀ i < n, w.lookups i = 0 then 1 else 0) ∧ w.life.bad = 0 := by
  have hi := reach_inv hn h
  refine ⟨fun i hlt => ?_, ?_, hi.good⟩
  · rw [hi.alive i hlt, hi.refs i hlt]
    cases w.handle <;> simp
  · rw [hi.deleted, hi.count]
    by_cases hc : w.handle = false ∧ ∀ i < n, w.lookups i = 0
    · rw [if_pos hc, if_pos]
      rw [List.length_eq_zero_iff, List.filter_eq_nil_iff]
      intro i hm
      rw [List.mem_range] at hm
      rw [hi.refs i hm, hc.1, hc.2 i hm]
      simp
    · rw [if_neg hc, if_neg]
      intro hz
      rw [List.length_eq_zero_iff, List.filter_eq_nil_iff] at hz
      apply hc
      have h0 : ∀ i < n, w.life.refs i = 0 := fun i hlt => by
        have := hz i (List.mem_range.2 hlt)
        simp at this
        exact this
      constructor
      · have := h0 0 hn
        rw [hi.refs 0 hn] at this
        cases hh : w.handle with
        | false => rfl
        | true => rw [hh] at this; simp at this
      · intro i hlt
        have := h0 i hlt
        rw [hi.refs i hlt] at this
        omega

/-- **C91**, refuted for writes: a pending write only keeps the variable of the surface object alive, not the surface, which is destroyed with the texture. -/
theorem C91_pending_write_counterexample : ∃ w, Reach true 1 w ∧ 0 < w.writes 0 ∧ w.life.alive 0 = false := by
  have h0 : Reach true 1 _ := .init
  have h1 := h0.step (Step.write (i := 0) rfl rfl (by decide))
  have h2 := h1.step (Step.destroy rfl)
  exact ⟨_, h2, by simp, rfl⟩

/-! ### Examples -/

/-- A three-dimensional texture with seven channels and three levels -/
def sample : Texture := ⟨3, 7, 2, fun d => 5 + d, 3⟩

example : Valid sample := ⟨by decide, by decide, by decide, fun d _ => by simp [sample]⟩
example : sample.nTextures = 2 ∧ sample.channels 1 = 3 ∧ sample.channelsStorage 1 = 4 ∧ sample.needsStaging = true ∧ size sample 1 0 = 2 ∧ size sample 1 2 = 3 := by decide

/-- A texture with six channels that can be written -/
example : Valid ⟨2, 6, 4, fun _ => 9, 1⟩ ∧ (6 % 4 ≠ 3) := ⟨⟨by decide, by decide, by decide, fun _ _ => by simp⟩, by decide⟩

/-- A lookup that outlives the handle -/
example : ∃ w, Reach false 2 w ∧ w.handle = false ∧ 0 < w.lookups 1 ∧ w.life.alive 1 = true ∧ w.life.alive 0 = false := by
  have h0 : Reach false 2 _ := .init
  have h1 := h0.step (Step.lookup (i := 1) rfl (by decide))
  have h2 := h1.step (Step.destroy rfl)
  exact ⟨_, h2, rfl, by simp, rfl, rfl⟩

end Verif.Tex
