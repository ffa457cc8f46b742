import Verif.Cuda.Run
import Verif.Cuda.Launch
import Verif.Cuda.Progress

/-!
# C82: block prefix reductions on CUDA devices
-/
namespace Verif.Cuda

open Verif.Par Verif.Arith

variable {T V H : Type}

theorem mk_fields (size bs : Nat) (excl rev : Bool) : (mkLaunch size bs excl rev).size = size ∧ (mkLaunch size bs excl rev).bs = bs ∧ (mkLaunch size bs excl rev).excl = excl ∧
    (mkLaunch size bs excl rev).rev = rev ∧ (mkLaunch size bs excl rev).threads = (mkLaunch size bs false false).threads ∧
    (roundPow2_32 bs < 1024 → (mkLaunch size bs excl rev).cs = roundPow2_32 bs) := by
  unfold mkLaunch
  simp only
  split
  · exact ⟨rfl, rfl, rfl, rfl, rfl, fun _ => rfl⟩
  · rename_i h
    exact ⟨rfl, rfl, rfl, rfl, rfl, fun h' => absurd h' h⟩

theorem no_ub {size bs : Nat} (hb : 2 ≤ bs) (hle : bs ≤ size) (hs : size + 2 ^ 17 ≤ 2 ^ 31) : hostUb size bs = false := by
  obtain ⟨cp, g⟩ := geo_mk false false hb hle hs
  obtain ⟨_, _, _, _, _, h⟩ := mk_fields size bs false false
  unfold hostUb
  by_cases hc : roundPow2_32 bs < 1024
  · have hcs := h hc
    have h2 := g.cs0
    have hth := g.threads
    have hcp := g.cp1
    rw [hcs] at h2 hth
    simp only [hth]
    rw [Nat.mul_div_cancel _ (by omega)]
    simp only [Bool.and_eq_false_imp, Bool.or_eq_false_iff, decide_eq_false_iff_not]
    intro _
    omega
  · simp [hc]

theorem scanned_one {size e : Nat} (rev : Bool) (he : e < size) : scanned size 1 true rev e = ∅ ∧ scanned size 1 false rev e = {e} := by
  unfold scanned
  constructor
  · ext j
    simp only [Finset.mem_filter, Finset.mem_range, Nat.div_one, Finset.notMem_empty, iff_false]
    rintro ⟨_, rfl, _, h⟩
    exact h trivial rfl
  · ext j
    simp only [Finset.mem_filter, Finset.mem_range, Nat.div_one, Finset.mem_singleton]
    constructor
    · rintro ⟨_, h, _⟩; exact h
    · rintro rfl
      exact ⟨he, rfl, by split <;> omega, fun h => by simp at h⟩

/-- **C82 (prefix reductions on CUDA devices).**  For every array of up to `2^31 - 2^17` elements and every block size, every execution (all interleavings of the threads within thread blocks
and of the accesses of different thread blocks to the scratch memory) yields a prefix reduction, in all four modes, and leaves the memory behind the result alone.

Partial: the kernels for 64 bit unsigned minima and maxima are instantiated with 32 bit elements, larger arrays divide by zero, and large copies for block size 1 are
truncated (see the counterexamples). -/
theorem C82_prefix_partial (R : Red T V) (W : Words V H) (hW : W.Ok) (tsize : Nat) (ident : T) (size bs : Nat) (excl rev : Bool) (x y : Nat → T) (o : PrefixOut T)
    (hid : ident = R.ofV R.init) (hrt : ∀ a, R.ofV (R.toV a) = a) (ht : 1 ≤ tsize) (hsz : size * tsize < 2 ^ 32) (hs : size + 2 ^ 17 ≤ 2 ^ 31) (hb : 1 ≤ bs) (hle : bs ≤ size)
    (h : Prefix R W tsize ident size bs excl rev x y o) : ∃ y', o = .ok y' ∧ IsPrefix R.red R.init R.toV R.ofV size bs excl rev x y y' := by
  unfold Prefix at h
  rw [if_neg (by omega), if_neg (by omega)] at h
  by_cases h1 : bs = 1
  · subst h1
    rw [if_pos rfl] at h
    cases excl with
    | true =>
      rw [if_pos rfl] at h
      refine ⟨_, h, fun e he => ⟨R.init, ?_, ?_⟩, fun e he => ?_⟩
      · rw [(scanned_one rev he).1]; exact Comb.nil
      · simp only [he, if_true]; exact hid
      · simp only; rw [if_neg (by omega)]
    | false =>
      simp only [Bool.false_eq_true, if_false] at h
      rw [u32_lt hsz, Nat.mul_div_cancel _ (by omega)] at h
      refine ⟨_, h, fun e he => ⟨R.toV (x e), ?_, ?_⟩, fun e he => ?_⟩
      · rw [(scanned_one rev he).2]
        exact On.single (f := fun j => R.toV (x j)) e
      · simp only [he, if_true]; rw [hrt]
      · simp only; rw [if_neg (by omega)]
  · rw [if_neg h1, no_ub (by omega) hle hs] at h
    simp only [Bool.false_eq_true, if_false] at h
    obtain ⟨y', h2, h3⟩ := h
    obtain ⟨cp, g⟩ := geo_mk excl rev (show 2 ≤ bs by omega) hle hs
    have := g.runs hW h2
    obtain ⟨e1, e2, e3, e4, _⟩ := mk_fields size bs excl rev
    rw [e1, e2, e3, e4] at this
    exact ⟨y', h3, this⟩

/-- For associative and commutative operations with a neutral element the result is determined: the combination of the preceding elements. -/
theorem IsPrefix.determined {red : V → V → V} [Std.Commutative red] [Std.Associative red] {init : V} (hi : ∀ a, red init a = a) {toV : T → V} {ofV : V → T} {size bs : Nat} {excl rev : Bool}
    {x y y' : Nat → T} (h : IsPrefix red init toV ofV size bs excl rev x y y') {e : Nat} (he : e < size) :
    y' e = ofV (((scanned size bs excl rev e).val.map fun j => toV (x j)).fold red init) := by
  obtain ⟨v, h1, h2⟩ := h.1 e he
  rw [h2, h1.eq_fold hi]

/-- **C82 (each element once).**  Every element is read and written by exactly one thread: the array may be replaced in place. -/
theorem C82_element_once (size bs : Nat) (excl rev : Bool) (hb : 2 ≤ bs) (hle : bs ≤ size) (hs : size + 2 ^ 17 ≤ 2 ^ 31) (e : Nat) (he : e < size) :
    ∃! p : Nat × Nat, let L := mkLaunch size bs excl rev
      p.1 < L.gx * L.gy ∧ p.2 < L.threads ∧ L.valid (L.at p.1).1 (L.at p.1).2 p.2 = true ∧ L.posInInput (L.at p.1).1 (L.at p.1).2 p.2 = e := by
  obtain ⟨cp, g⟩ := geo_mk excl rev hb hle hs
  obtain ⟨e1, _⟩ := mk_fields size bs excl rev
  obtain ⟨c, t, h, _⟩ := g.surj (j := e) (by rw [e1]; exact he)
  obtain ⟨h1, h2, h3, h4⟩ := mem_elem.1 h
  refine ⟨(c, t), ⟨h1, h2, h3, h4.symm⟩, ?_⟩
  rintro ⟨c', t'⟩ ⟨k1, k2, k3, k4⟩
  have := g.elem_inj (mem_elem.2 ⟨k1, k2, k3, k4.symm⟩) h
  exact Prod.ext this.1 this.2

/-- **C82 (scratch memory).**  In launches with several chunks per block, the thread blocks of the grid are exactly those with the indices below the number of chunks, and the index is the
chunk that the kernel computes with 32 bit arithmetic: different thread blocks publish in different cells. -/
theorem C82_chunk_index (size bs : Nat) (excl rev : Bool) (hb : 2 ≤ bs) (hle : bs ≤ size) (hs : size + 2 ^ 17 ≤ 2 ^ 31) (hl : (mkLaunch size bs excl rev).large = true) :
    let L := mkLaunch size bs excl rev
    (∀ c, c < L.gx * L.gy → (L.at c).1 < L.gx ∧ (L.at c).2 < L.gy ∧ ∀ t, L.chunk (L.at c).1 (L.at c).2 t = c) ∧
    ∀ bx yb, bx < L.gx → yb < L.gy → ∃ c, c < L.gx * L.gy ∧ L.at c = (bx, yb) := by
  have hbc := ceilDiv_eq (a := size) (b := bs) (by omega) (by omega)
  obtain ⟨c1, c2, c3⟩ := ceil_spec (a := size) (b := bs) (by omega) (by omega)
  have hcpb := ceilDiv_eq (a := bs) (b := 1024) (by omega) (by omega)
  obtain ⟨g1, g2, g3⟩ := ceil_spec (a := bs) (b := 1024) (by omega) (by omega)
  rw [← hbc] at c1 c2 c3
  rw [← hcpb] at g1 g2 g3
  generalize hL : mkLaunch size bs excl rev = L at *
  unfold mkLaunch at hL
  simp only at hL
  have hns : ¬ roundPow2_32 bs < 1024 := by
    intro hlt
    rw [if_pos hlt] at hL
    subst hL
    exact absurd hl (by simp)
  rw [if_neg hns] at hL
  have hle2 : ceilDiv size bs * ceilDiv bs 1024 ≤ ceilDiv size bs * bs := by
    refine Nat.mul_le_mul_left _ ?_
    rw [hcpb]
    exact Nat.div_le_of_le_mul (by omega)
  generalize ceilDiv size bs = bc at *
  generalize ceilDiv bs 1024 = cpb at *
  have hcp : L.cpb = cpb := by rw [← hL]
  have hxb : L.xb = decide (cpb ≤ bc) := by rw [← hL]
  have hgx : L.gx = if bc < cpb then cpb else bc := by rw [← hL]
  have hgy : L.gy = if bc < cpb then bc else cpb := by rw [← hL]
  have hg : L.gx * L.gy = bc * cpb := by
    rw [hgx, hgy]
    split
    · exact Nat.mul_comm _ _
    · rfl
  have hch : ∀ c t, c < bc * cpb → L.chunk (L.at c).1 (L.at c).2 t = c := by
    intro c t hc
    have hd := Nat.div_add_mod c cpb
    have hm := Nat.mod_lt c (show 0 < cpb by omega)
    rw [Nat.mul_comm] at hd
    unfold Launch.chunk Launch.at
    rw [if_pos hl, if_pos hl, hcp]
    cases L.xb
    · simp only [Bool.false_eq_true, if_false]
      rw [u32_lt (show c / cpb * cpb < 2 ^ 32 by omega), u32_lt (by omega)]; exact hd
    · simp only [if_true]
      rw [u32_lt (show c / cpb * cpb < 2 ^ 32 by omega), u32_lt (by omega)]; exact hd
  simp only
  rw [hg]
  refine ⟨fun c hc => ?_, fun bx yb hx hy => ?_⟩
  · have hm := Nat.mod_lt c (show 0 < cpb by omega)
    have hdlt : c / cpb < bc := Nat.div_lt_of_lt_mul (by rw [Nat.mul_comm]; exact hc)
    refine ⟨?_, ?_, fun t => hch c t hc⟩
    · unfold Launch.at
      rw [if_pos hl, hcp, hxb, hgx]
      by_cases h : cpb ≤ bc
      · rw [if_pos (decide_eq_true h), if_neg (by omega)]; exact hdlt
      · rw [if_neg (by simpa using h), if_pos (by omega)]; exact hm
    · unfold Launch.at
      rw [if_pos hl, hcp, hxb, hgy]
      by_cases h : cpb ≤ bc
      · rw [if_pos (decide_eq_true h), if_neg (by omega)]; exact hm
      · rw [if_neg (by simpa using h), if_pos (by omega)]; exact hdlt
  · have key : ∀ b r, b < bc → r < cpb → b * cpb + r < bc * cpb ∧ (b * cpb + r) / cpb = b ∧ (b * cpb + r) % cpb = r := by
      intro b r h1 h2
      refine ⟨?_, ?_, ?_⟩
      · calc b * cpb + r < b * cpb + cpb := by omega
          _ = (b + 1) * cpb := (Nat.succ_mul _ _).symm
          _ ≤ bc * cpb := Nat.mul_le_mul_right _ h1
      · rw [Nat.mul_comm, Nat.mul_add_div (by omega), Nat.div_eq_of_lt h2, Nat.add_zero]
      · rw [Nat.mul_comm, Nat.mul_add_mod, Nat.mod_eq_of_lt h2]
    by_cases h : cpb ≤ bc
    · rw [hgx, if_neg (by omega)] at hx
      rw [hgy, if_neg (by omega)] at hy
      obtain ⟨k1, k2, k3⟩ := key bx yb hx hy
      refine ⟨_, k1, ?_⟩
      unfold Launch.at
      rw [if_pos hl, hcp, hxb, if_pos (decide_eq_true h), k2, k3]
    · rw [hgx, if_pos (by omega)] at hx
      rw [hgy, if_pos (by omega)] at hy
      obtain ⟨k1, k2, k3⟩ := key yb bx hy hx
      refine ⟨_, k1, ?_⟩
      unfold Launch.at
      rw [if_pos hl, hcp, hxb, if_neg (by simpa using h), k2, k3]

/-! ### Progress and existence of executions -/

theorem terminated_step {C : Cfg V H} {s t : LState V H} {c x : Nat} (st : LStep C c s t) (h : C.Terminated s x) : C.Terminated t x := by
  by_cases hx : x = c
  · subst hx
    cases st with
    | store1 h1 => have := h.2; omega
    | load w l k hw hl hk hd _ _ => rw [h.1 w hw] at hd; cases hd
    | sync w hw hd _ => rw [h.1 w hw] at hd; cases hd
    | finish => exact h
    | store2 v h1 h2 => have := h.2; omega
  · obtain ⟨h1, h2, _⟩ := step_other st hx
    exact ⟨fun w hw => by rw [h2]; exact h.1 w hw, by rw [h1]; exact h.2⟩

theorem terminated_run {C : Cfg V H} {on : Nat → Prop} {s t : LState V H} {x : Nat} (r : LRun C on s t) (h : C.Terminated s x) : C.Terminated t x := by
  induction r with
  | refl => exact h
  | tail c _ _ _ st ih => exact terminated_step st ih

theorem run_all {C : Cfg V H} (hn : 1 ≤ C.nw) (hwp : 1 ≤ C.warps) (hcpb : 1 ≤ C.cpb) (s : LState V H) (hw : WInv C s) : ∃ t, LRun C (fun _ => True) s t ∧ ∀ c, c < C.chunks → C.Terminated t c := by
  have : ∀ n, n ≤ C.chunks → ∃ t, LRun C (fun _ => True) s t ∧ ∀ c, c < n → C.Terminated t c := by
    intro n
    induction n with
    | zero => intro _; exact ⟨s, .refl _, fun c h => absurd h (by omega)⟩
    | succ n ih =>
      intro hle
      obtain ⟨t, h1, h2⟩ := ih (by omega)
      obtain ⟨u, k1, k2⟩ := progress hn hwp hcpb (show n < C.chunks by omega) t (winv_run hw h1)
      refine ⟨u, h1.trans (k1.mono fun _ _ => trivial), fun c hc => ?_⟩
      by_cases h : c = n
      · subst h
        exact k2 c (by unfold Cfg.row; omega) (Nat.le_refl _)
      · exact terminated_run k1 (h2 c (by omega))
  exact this _ (Nat.le_refl _)

/-- **C82 (no deadlock).**  Whatever the thread blocks have done so far, a chunk can still terminate, and the chunks before it in its row too, without any step of later chunks or of other rows:
devices that start thread blocks in the order of their indices never wait for one that cannot be started. -/
theorem C82_progress (C : Cfg V H) (hn : 1 ≤ C.nw) (hw : 1 ≤ C.warps) (hc : 1 ≤ C.cpb) (s : LState V H) (r : LRun C (fun _ => True) (LState.start C) s) (c : Nat) (hlt : c < C.chunks) :
    ∃ t, LRun C (fun x => c - c % C.cpb ≤ x ∧ x ≤ c) s t ∧ ∀ x, c - c % C.cpb ≤ x → x ≤ c → C.Terminated t x :=
  progress hn hw hc hlt s (winv_run winv_start r)

theorem look_exists (L : Launch) (R : Red T V) (W : Words V H) (m : Nat → SLoc → V) (hn : 1 ≤ W.nw) (hw : 1 ≤ L.threads / 32) (hc : 1 ≤ L.cpb) :
    ∃ s, LRun (L.cfg R W m) (fun _ => True) (LState.start (L.cfg R W m)) s ∧ ∀ c, c < L.gx * L.gy → (L.cfg R W m).Terminated s c := by
  have h1 : 1 ≤ (L.cfg R W m).nw := hn
  have h2 : 1 ≤ (L.cfg R W m).warps := hw
  have h3 : 1 ≤ (L.cfg R W m).cpb := hc
  have h4 : WInv (L.cfg R W m) (LState.start (L.cfg R W m)) := winv_start
  have h5 : (L.cfg R W m).chunks = L.gx * L.gy := rfl
  rw [← h5]
  exact run_all h1 h2 h3 _ h4

/-- **C82 (executions exist).** -/
theorem C82_execution_exists (R : Red T V) (W : Words V H) (hW : W.Ok) (size bs : Nat) (excl rev : Bool) (hb : 2 ≤ bs) (hle : bs ≤ size) (hs : size + 2 ^ 17 ≤ 2 ^ 31) (x y : Nat → T) :
    ∃ y', (mkLaunch size bs excl rev).Runs R W x y y' := by
  classical
  obtain ⟨cp, g⟩ := geo_mk excl rev hb hle hs
  generalize mkLaunch size bs excl rev = L at *
  have hscan : ∀ c, ∃ m, L.Scan R x (L.at c).1 (L.at c).2 m := by
    intro c
    let m0 : SLoc → V := fun l => match l with
      | .sh _ => R.init
      | .reg t => if L.valid (L.at c).1 (L.at c).2 t then R.toV (x (L.posInInput (L.at c).1 (L.at c).2 t)) else R.init
    obtain ⟨m', h⟩ := ends_exists (scanPhases R.red L L.rounds) m0
    exact ⟨m', m0, fun t _ => rfl, h⟩
  choose m hm using hscan
  have hlook : ∃ pre val, L.Looked R W m pre val := by
    by_cases hl : (L.large && L.scratch) = true
    · have hkind := g.kind
      rw [if_pos hl] at hkind
      have hwp : 1 ≤ L.threads / 32 := by rw [hkind.2]; omega
      obtain ⟨s, h1, h2⟩ := look_exists L R W m hW.1 hwp g.cpb1
      refine ⟨fun c t => (L.cfg R W m).prefixOf s c t, fun c t => R.red (m c (.reg t)) ((L.cfg R W m).prefixOf s c t), ?_⟩
      unfold Launch.Looked
      rw [if_pos hl]
      exact ⟨s, h1, h2, fun c t _ _ => ⟨rfl, rfl⟩⟩
    · refine ⟨fun _ _ => R.init, fun c t => m c (.reg t), ?_⟩
      unfold Launch.Looked
      rw [if_neg hl]
      exact fun c t _ _ => ⟨rfl, rfl⟩
  obtain ⟨pre, val, hlook⟩ := hlook
  have hlast : ∀ c, ∃ res, L.Last (L.at c).1 (L.at c).2 (m c) (pre c) (val c) res := by
    intro c
    by_cases hex : L.excl = true
    · let m0 : SLoc → V := fun l => match l with
        | .sh i => m c (.sh i)
        | .reg t => val c t
      obtain ⟨m', h⟩ := ends_exists (L.lastPhases (L.at c).1 (L.at c).2 (pre c)) m0
      refine ⟨fun t => m' (.reg t), ?_⟩
      unfold Launch.Last
      rw [if_pos hex]
      exact ⟨m0, m', fun _ => rfl, fun _ _ => rfl, h, fun _ _ => rfl⟩
    · refine ⟨val c, ?_⟩
      unfold Launch.Last
      rw [if_neg hex]
      exact fun _ _ => rfl
  choose res hres using hlast
  refine ⟨fun e => if h : ∃ p : Nat × Nat, e ∈ L.elem p.1 p.2 then R.ofV (res h.choose.1 h.choose.2) else y e, m, pre, val, res, fun c _ => hm c, hlook, fun c _ => hres c, ?_, ?_⟩
  · intro c t hc ht hv
    have hel : L.posInInput (L.at c).1 (L.at c).2 t ∈ L.elem c t := mem_elem.2 ⟨hc, ht, hv, rfl⟩
    have hex : ∃ p : Nat × Nat, L.posInInput (L.at c).1 (L.at c).2 t ∈ L.elem p.1 p.2 := ⟨(c, t), hel⟩
    simp only [dif_pos hex]
    obtain ⟨q1, q2⟩ := g.elem_inj hex.choose_spec hel
    rw [q1, q2]
  · intro e h
    refine dif_neg ?_
    rintro ⟨⟨c, t⟩, hel⟩
    obtain ⟨hc, ht, hv, he⟩ := mem_elem.1 hel
    exact h c t hc ht hv he.symm

/-- **C82 (errors).**  Invalid block sizes are reported. -/
theorem C82_raise (R : Red T V) (W : Words V H) (tsize : Nat) (ident : T) (size bs : Nat) (excl rev : Bool) (x y : Nat → T) (h0 : size ≠ 0) (hb : bs = 0 ∨ size < bs) (o : PrefixOut T)
    (h : Prefix R W tsize ident size bs excl rev x y o) : o = .raise := by
  unfold Prefix at h
  rwa [if_neg h0, if_pos hb] at h

/-! ### Concrete operations -/

/-- 32 bit unsigned sums (common.h:93-99); a value is one word -/
def addU32 : Red (BitVec 32) (BitVec 32) := { red := fun a b => a + b, init := 0, toV := id, ofV := id }

/-- One word: `store_with_status` for 16 and 32 bit values (common.h:180-198, 210-232) -/
def oneWord [Inhabited V] : Words V V := { nw := 1, part := fun _ v => v, join := fun g => (g 0).getD default }

/-- Two words: 64 bit values (common.h:200-208, 234-254) -/
def twoWords : Words (BitVec 64) (BitVec 32) :=
  { nw := 2, part := fun k v => if k = 0 then v.setWidth 32 else (v >>> 32).setWidth 32
    join := fun g => ((g 0).getD 0).setWidth 64 + ((g 1).getD 0).setWidth 64 <<< 32 }

theorem oneWord_ok [Inhabited V] : (oneWord : Words V V).Ok := by
  refine ⟨Nat.le_refl _, fun g v h => ?_⟩
  show (g 0).getD default = v
  rw [h 0 (by show 0 < 1; omega)]; rfl

theorem twoWords_ok : twoWords.Ok := by
  refine ⟨by show 1 ≤ 2; omega, fun g v h => ?_⟩
  show ((g 0).getD 0).setWidth 64 + ((g 1).getD 0).setWidth 64 <<< 32 = v
  rw [h 0 (by show 0 < 2; omega), h 1 (by show 1 < 2; omega)]
  show ((v.setWidth 32).setWidth 64) + (((v >>> 32).setWidth 32).setWidth 64) <<< 32 = v
  apply BitVec.eq_of_toNat_eq
  have := v.isLt
  rw [BitVec.toNat_add, BitVec.toNat_shiftLeft, BitVec.toNat_setWidth, BitVec.toNat_setWidth, BitVec.toNat_setWidth, BitVec.toNat_setWidth, BitVec.toNat_ushiftRight,
    Nat.shiftRight_eq_div_pow, Nat.shiftLeft_eq]
  omega

/-- Every execution of `jit_block_prefix_reduce` on 1, 2, 3, 4, 5 with block size 3 yields 1, 3, 6, 4, 9 -/
example : ∃ y', (mkLaunch 5 3 false false).Runs addU32 oneWord (fun i => BitVec.ofNat 32 (i + 1)) (fun _ => 7) y' :=
  C82_execution_exists addU32 oneWord oneWord_ok 5 3 false false (by omega) (by omega) (by omega) _ _

instance : Std.Commutative addU32.red := ⟨fun a b => BitVec.add_comm a b⟩
instance : Std.Associative addU32.red := ⟨fun a b c => BitVec.add_assoc a b c⟩

example (y' : Nat → BitVec 32) (h : Prefix addU32 oneWord 4 0 5 3 false false (fun i => BitVec.ofNat 32 (i + 1)) (fun _ => 7) (.ok y')) :
    (y' 0, y' 1, y' 2, y' 3, y' 4, y' 5) = (1, 3, 6, 4, 9, 7) := by
  obtain ⟨y'', h1, h2⟩ := C82_prefix_partial addU32 oneWord oneWord_ok 4 0 5 3 false false _ _ _ rfl (fun _ => rfl) (by omega) (by omega) (by omega) (by omega) (by omega) h
  cases h1
  rw [h2.determined (fun a => BitVec.zero_add a) (show 0 < 5 by omega), h2.determined (fun a => BitVec.zero_add a) (show 1 < 5 by omega), h2.determined (fun a => BitVec.zero_add a) (show 2 < 5 by omega),
    h2.determined (fun a => BitVec.zero_add a) (show 3 < 5 by omega), h2.determined (fun a => BitVec.zero_add a) (show 4 < 5 by omega), h2.2 5 (by omega)]
  decide

/-- exclusive, in reverse: 5, 3, 0, 5, 0 -/
example (y' : Nat → BitVec 32) (h : Prefix addU32 oneWord 4 0 5 3 true true (fun i => BitVec.ofNat 32 (i + 1)) (fun _ => 7) (.ok y')) :
    (y' 0, y' 1, y' 2, y' 3, y' 4, y' 5) = (5, 3, 0, 5, 0, 7) := by
  obtain ⟨y'', h1, h2⟩ := C82_prefix_partial addU32 oneWord oneWord_ok 4 0 5 3 true true _ _ _ rfl (fun _ => rfl) (by omega) (by omega) (by omega) (by omega) (by omega) h
  cases h1
  rw [h2.determined (fun a => BitVec.zero_add a) (show 0 < 5 by omega), h2.determined (fun a => BitVec.zero_add a) (show 1 < 5 by omega), h2.determined (fun a => BitVec.zero_add a) (show 2 < 5 by omega),
    h2.determined (fun a => BitVec.zero_add a) (show 3 < 5 by omega), h2.determined (fun a => BitVec.zero_add a) (show 4 < 5 by omega), h2.2 5 (by omega)]
  decide

/-- A launch with three chunks per block and look-back: 64 bit values -/
example (x y : Nat → BitVec 64) : ∃ y', (mkLaunch 5000 2500 true true).Runs ({ red := fun a b => a + b, init := 0, toV := id, ofV := id } : Red (BitVec 64) (BitVec 64)) twoWords x y y' :=
  C82_execution_exists _ twoWords twoWords_ok 5000 2500 true true (by omega) (by omega) (by omega) _ _

example : (mkLaunch 5000 2500 true true).large = true ∧ (mkLaunch 5000 2500 true true).scratch = true ∧ (mkLaunch 5000 2500 true true).gx = 3 ∧ (mkLaunch 5000 2500 true true).gy = 2 := by decide

/-! ### Counterexamples -/

/-- **C82 (counterexample: large copies).**  With block size 1 the byte count of the copy is a 32 bit product: for 2^29 elements of 8 bytes nothing is copied. -/
theorem C82_copy_counterexample (R : Red T V) (W : Words V H) (ident : T) (rev : Bool) (x y : Nat → T) (o : PrefixOut T) (h : Prefix R W 8 ident (2 ^ 29) 1 false rev x y o) : o = .ok y := by
  unfold Prefix at h
  rw [if_neg (by omega), if_neg (by omega), if_pos rfl] at h
  simp only [Bool.false_eq_true, if_false] at h
  have h0 : u32 (2 ^ 29 * 8) / 8 = 0 := by unfold u32; omega
  rw [h, h0]
  simp only [Nat.not_lt_zero, if_false]

/-- **C82 (counterexample: large blocks).**  Arrays of more than 2^31 elements that form a single block (cumulative sums) divide by zero on the host. -/
theorem C82_division_counterexample (R : Red T V) (W : Words V H) (tsize : Nat) (ident : T) (excl rev : Bool) (x y : Nat → T) (o : PrefixOut T)
    (h : Prefix R W tsize ident (2 ^ 31 + 1) (2 ^ 31 + 1) excl rev x y o) : o = .ub := by
  unfold Prefix at h
  rw [if_neg (by omega), if_neg (by omega), if_neg (by omega), if_pos (by decide)] at h
  exact h

/-- Maxima of 64 bit unsigned integers: `BLOCK_P_RED_ALL` instantiates the kernel `block_prefix_reduce_max_u64_*` with `uint32_t` (block_prefix_reduce.cuh:236-243); its elements are the
32 bit words of the array. -/
def maxU64Kernel : Red Nat Nat := { red := max, init := 0, toV := id, ofV := id }

/-- **C82 (counterexample: 64 bit minima and maxima).**  The inclusive prefix maximum of the 64 bit integers 1 and 2^33 should be 1 and 2^33.  The array consists of the words
1, 0, 0, 2; every execution of the kernel replaces the first two words by 1, 1 and leaves the others alone: the first result is 2^32 + 1. -/
theorem C82_max_u64_counterexample (y' : Nat → Nat) (h : (mkLaunch 2 2 false false).Runs maxU64Kernel oneWord (fun i => [1, 0, 0, 2].getD i 0) (fun i => [1, 0, 0, 2].getD i 0) y') :
    y' 0 + 2 ^ 32 * y' 1 = 2 ^ 32 + 1 ∧ y' 0 + 2 ^ 32 * y' 1 ≠ 1 := by
  obtain ⟨cp, g⟩ := geo_mk false false (show 2 ≤ 2 by omega) (show 2 ≤ 2 by omega) (by omega)
  have h2 : IsPrefix max 0 id id 2 2 false false (fun i => [1, 0, 0, 2].getD i 0) (fun i => [1, 0, 0, 2].getD i 0) y' := g.runs oneWord_ok h
  rw [h2.determined (fun a => Nat.zero_max a) (show 0 < 2 by omega), h2.determined (fun a => Nat.zero_max a) (show 1 < 2 by omega)]
  decide

end Verif.Cuda
