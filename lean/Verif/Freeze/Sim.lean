import Verif.Freeze.Model
import Verif.Freeze.Kernel

/-!
# Simulation relation between direct execution and replay

`Sim` relates the state of the recorder, the arrays of a direct execution, and the
state of a replay that has executed the operations recorded so far.  `sl` assigns
slots to arrays, and `ρ` addresses (of the replay).
-/

namespace Verif.Freeze

/-- The array `x` is stored in slot `s`. -/
structure At (addr : Nat → Nat) (r : Rec) (st : RState) (sl : Nat → Option Nat) (ρ : Nat → Nat)
    (x : Nat) (b : Buf) (s : Nat) : Prop where
  asg : sl x = some s
  map : r.map (addr x) = some s
  slot : st.slot s = { data := some (ρ x), allocSize := b.cells.length, dataSize := b.len }
  heap : st.heap (ρ x) = some (b.cells.map (ren ρ))
  type : (r.var s).type = b.vt.getD 0
  vt : b.vt ≠ some 0
  refs : ∀ t ∈ refsOf b.cells, (sl t).isSome

structure Sim (addr : Nat → Nat) (nin : Nat) (live : List Nat) (r : Rec) (m : Mem) (st : RState)
    (sl : Nat → Option Nat) (ρ : Nat → Nat) : Prop where
  exn : r.exn = false
  apart : Apart addr live
  live : ∀ x, (m.buf x).isSome → x ∈ live
  look : ∀ x b, m.buf x = some b → ∃ s, At addr r st sl ρ x b s
  slotLt : ∀ x s, sl x = some s → s < r.n
  slInj : ∀ x y s, sl x = some s → sl y = some s → x = y
  slData : ∀ x s, sl x = some s → (st.slot s).data = some (ρ x)
  rhoInj : ∀ x y, (sl x).isSome → (sl y).isSome → ρ x = ρ y → x = y
  rhoLt : ∀ x, (sl x).isSome → ρ x < st.next
  slDead : ∀ x, (sl x).isSome → (m.buf x).isSome ∨ m.dead x = true
  mapLive : ∀ p s, r.map p = some s → ∃ x, (m.buf x).isSome ∧ addr x = p ∧ sl x = some s
  surj : ∀ s, s < r.n → ∃ x, sl x = some s
  fresh : ∀ s, r.n ≤ s → st.slot s = {}
  init : ∀ s, s < r.n → (r.var s).state ≠ .uninit
  inputs : r.inputs = List.range nin
  ninLe : nin ≤ r.n
  isIn : ∀ s, s < r.n → (r.var s).init = decide (s < nin)
  index : ∀ s, s < nin → (r.var s).index = s

/-- The second assignment extends the first one. -/
def Ext (sl sl1 : Nat → Option Nat) (ρ ρ1 : Nat → Nat) : Prop :=
  ∀ x, (sl x).isSome → sl1 x = sl x ∧ ρ1 x = ρ x

theorem Ext.refl (sl : Nat → Option Nat) (ρ : Nat → Nat) : Ext sl sl ρ ρ := fun _ _ => ⟨rfl, rfl⟩

theorem Ext.trans {sl sl1 sl2 : Nat → Option Nat} {ρ ρ1 ρ2 : Nat → Nat} (h : Ext sl sl1 ρ ρ1)
    (h' : Ext sl1 sl2 ρ1 ρ2) : Ext sl sl2 ρ ρ2 := by
  intro x hx
  obtain ⟨a, b⟩ := h x hx
  obtain ⟨c, d⟩ := h' x (by rw [a]; exact hx)
  exact ⟨c.trans a, d.trans b⟩

theorem Ext.ren {sl sl1 : Nat → Option Nat} {ρ ρ1 : Nat → Nat} (h : Ext sl sl1 ρ ρ1)
    {cs : List (Cell Nat)} (hr : ∀ t ∈ refsOf cs, (sl t).isSome) :
    cs.map (ren ρ1) = cs.map (ren ρ) := by
  apply List.map_congr_left
  intro c hc
  cases c with
  | byte b => rfl
  | undef => rfl
  | ref t k =>
    simp only [Verif.Freeze.ren]
    rw [(h t (hr t (mem_refsOf.2 ⟨k, hc⟩))).2]

/-- The arrays that may exist can be extended. -/
theorem Sim.weaken {addr : Nat → Nat} {nin : Nat} {live live' : List Nat} {r : Rec} {m : Mem}
    {st : RState} {sl : Nat → Option Nat} {ρ : Nat → Nat}
    (h : Sim addr nin live r m st sl ρ) (ha : Apart addr live') (hl : ∀ x ∈ live, x ∈ live') :
    Sim addr nin live' r m st sl ρ :=
  { h with apart := ha, live := fun x hx => hl x (h.live x hx) }

theorem Sim.push {addr : Nat → Nat} {nin : Nat} {live : List Nat} {r : Rec} {m : Mem}
    {st : RState} {sl : Nat → Option Nat} {ρ : Nat → Nat}
    (h : Sim addr nin live r m st sl ρ) (op : Op) : Sim addr nin live (r.push op) m st sl ρ :=
  { h with look := fun x b hb => by
             obtain ⟨s, hs⟩ := h.look x b hb
             exact ⟨s, { hs with }⟩ }

theorem Sim.setDry {addr : Nat → Nat} {nin : Nat} {live : List Nat} {r : Rec} {m : Mem}
    {st : RState} {sl : Nat → Option Nat} {ρ : Nat → Nat}
    (h : Sim addr nin live r m st sl ρ) (d : Bool) :
    Sim addr nin live { r with dry := d } m st sl ρ :=
  { h with look := fun x b hb => by
             obtain ⟨s, hs⟩ := h.look x b hb
             exact ⟨s, { hs with }⟩ }

/-! ## Reading -/

section
variable {addr : Nat → Nat} {nin : Nat} {live : List Nat} {r : Rec} {m : Mem} {st : RState}
  {sl : Nat → Option Nat} {ρ : Nat → Nat} {x : Nat} {b : Buf} {s : Nat}

theorem At.load (h : At addr r st sl ρ x b s) {n : Nat} {cs : List (Cell Nat)}
    (hb : m.buf x = some b) (hc : m.read x n = some cs) :
    loadSlot st s n = some (cs.map (ren ρ)) := by
  unfold Mem.read Mem.get at hc
  rw [hb] at hc
  simp only [Option.map_some, Option.bind_some] at hc
  unfold loadSlot Verif.Freeze.load
  simp only [h.slot, h.heap, Option.bind_some, List.length_map]
  split_ifs at hc with hn
  · rw [if_pos hn]
    simp only [Option.some.injEq] at hc ⊢
    rw [← hc, List.map_take]

theorem read_refs {n : Nat} {cs : List (Cell Nat)} {t : Nat}
    (hb : m.buf x = some b) (hc : m.read x n = some cs) (ht : t ∈ refsOf cs) :
    t ∈ refsOf b.cells := by
  unfold Mem.read Mem.get at hc
  rw [hb] at hc
  simp only [Option.map_some, Option.bind_some] at hc
  split_ifs at hc with hn
  · simp only [Option.some.injEq] at hc
    obtain ⟨k, hk⟩ := mem_refsOf.1 ht
    rw [← hc] at hk
    exact mem_refsOf.2 ⟨k, List.mem_of_mem_take hk⟩

theorem read_length {n : Nat} {cs : List (Cell Nat)} (hc : m.read x n = some cs) :
    cs.length = n := by
  unfold Mem.read at hc
  rw [Option.bind_eq_some_iff] at hc
  obtain ⟨c, _, hc⟩ := hc
  split_ifs at hc with hn
  simp only [Option.some.injEq] at hc
  rw [← hc, List.length_take]
  omega

theorem read_buf {n : Nat} {cs : List (Cell Nat)} (hc : m.read x n = some cs) :
    ∃ b, m.buf x = some b := by
  unfold Mem.read Mem.get at hc
  rw [Option.bind_eq_some_iff] at hc
  obtain ⟨c, hc', _⟩ := hc
  rw [Option.map_eq_some_iff] at hc'
  obtain ⟨b, hb, _⟩ := hc'
  exact ⟨b, hb⟩

theorem At.size (h : At addr r st sl ρ x b s) (hb : m.buf x = some b) {vt size : Nat}
    (hh : Has m x vt size) : (st.slot s).size (typeSize vt) = some size := by
  obtain ⟨b', hb', e, hle, h0, hlt, ht⟩ := hh
  rw [hb] at hb'
  cases hb'
  rw [h.slot]
  unfold Slot.size
  have hd : b.len / typeSize vt = size := by
    rw [← e]
    exact Nat.mul_div_cancel _ ht
  simp only [hd, e]
  rw [if_neg (by omega), if_neg (by omega), if_neg (by simp), Nat.mod_eq_of_lt hlt]

theorem At.input (h : At addr r st sl ρ x b s) (hs : Sim addr nin live r m st sl ρ)
    (a : Access) (ha : a.slot = s) :
    addInput r a = some (if a.vtype = 0 then { a with vtype := b.vt.getD 0 } else a) := by
  unfold addInput
  rw [ha, if_neg, h.type]
  rintro ⟨_, h'⟩
  exact hs.init s (hs.slotLt x s h.asg) h'

theorem At.inParam (h : At addr r st sl ρ x b s) (hs : Sim addr nin live r m st sl ρ)
    (vt : Nat) :
    addInParam r (addr x) vt =
      some { slot := s, ptype := .input, vtype := if vt = 0 then b.vt.getD 0 else vt } := by
  unfold addInParam getVariable
  rw [h.map, Option.bind_some, h.input hs _ rfl]
  by_cases e : vt = 0
  · simp [e]
  · simp [e]

theorem Sim.at_eq (hs : Sim addr nin live r m st sl ρ) (hb : m.buf x = some b)
    (h : sl x = some s) : At addr r st sl ρ x b s := by
  obtain ⟨s', h'⟩ := hs.look x b hb
  have := h'.asg.symm.trans h
  simp only [Option.some.injEq] at this
  exact this ▸ h'

end

/-! ## Writing -/

/-- Change the contents of an array. -/
def Mem.fill (m : Mem) (x : Nat) (cs : List (Cell Nat)) : Mem :=
  match m.buf x with
  | some b => m.set x { b with cells := cs }
  | none => m

/-- Allocate an array if it does not exist. -/
def Mem.ensure (m : Mem) (x bytes : Nat) (vt : Option Nat) : Mem :=
  match m.buf x with
  | some b => m.set x { b with vt := vt.or b.vt }
  | none => m.set x { cells := List.replicate bytes .undef, len := bytes, vt := vt }

theorem Mem.set_set (m : Mem) (x : Nat) (b c : Buf) : (m.set x b).set x c = m.set x c := by
  unfold Mem.set
  simp only [Mem.mk.injEq, and_true]
  funext y
  split_ifs <;> rfl

theorem Mem.set_self (m : Mem) (x : Nat) (b : Buf) : (m.set x b).buf x = some b := by
  simp [Mem.set]

theorem Mem.set_other (m : Mem) {x y : Nat} (b : Buf) (h : y ≠ x) :
    (m.set x b).buf y = m.buf y := by
  simp [Mem.set, h]

theorem put_eq {m m2 : Mem} {x : Nat} {cs : List (Cell Nat)} {vt : Option Nat}
    (ht : Target m x cs.length) (h : m.put x cs vt = some m2) :
    m2 = (m.ensure x cs.length vt).fill x cs ∧ (m.buf x = none → m.dead x = false) := by
  unfold Mem.put at h
  cases hb : m.buf x with
  | none =>
    rw [hb] at h
    unfold Mem.new at h
    rw [hb] at h
    simp only at h
    split_ifs at h with hd
    simp only [Option.some.injEq] at h
    constructor
    · rw [← h]
      unfold Mem.ensure
      rw [hb]
      unfold Mem.fill
      simp only [Mem.set_self]
      rw [Mem.set_set]
    · intro _
      simpa using hd
  | some b =>
    rw [hb] at h
    simp only at h
    split_ifs at h with hl
    simp only [Option.some.injEq] at h
    constructor
    · rw [← h]
      unfold Mem.ensure
      rw [hb]
      unfold Mem.fill
      simp only [Mem.set_self]
      rw [Mem.set_set]
      rcases ht.2 with h' | ⟨b', hb', _, h2⟩
      · rw [hb] at h'
        cases h'
      · rw [hb] at hb'
        cases hb'
        rw [← h2, List.drop_length, List.append_nil]
    · intro h'
      cases h'

section
variable {addr : Nat → Nat} {nin : Nat} {live : List Nat} {r : Rec} {m : Mem} {st : RState}
  {sl : Nat → Option Nat} {ρ : Nat → Nat} {x : Nat} {b : Buf} {s : Nat}

/-- The memory of the replay after the contents of a block were changed. -/
def RState.setHeap (st : RState) (a : Nat) (cs : List (Cell Nat)) : RState :=
  { st with heap := fun b => if b = a then some cs else st.heap b }

theorem Sim.fill (hs : Sim addr nin live r m st sl ρ) (hb : m.buf x = some b)
    {cs : List (Cell Nat)} (hl : cs.length = b.cells.length)
    (hr : ∀ t ∈ refsOf cs, (sl t).isSome) :
    Sim addr nin live r (m.fill x cs) (st.setHeap (ρ x) (cs.map (ren ρ))) sl ρ := by
  have hm : m.fill x cs = m.set x { b with cells := cs } := by
    unfold Mem.fill
    rw [hb]
  rw [hm]
  have hsome : ∀ y, ((m.set x { b with cells := cs }).buf y).isSome = (m.buf y).isSome := by
    intro y
    by_cases e : y = x
    · subst e
      rw [Mem.set_self, hb]
      rfl
    · rw [Mem.set_other _ _ e]
  refine { hs with
    live := fun y hy => hs.live y (by rw [hsome] at hy; exact hy)
    look := ?_
    slDead := ?_
    mapLive := ?_ }
  · intro y c hc
    by_cases e : y = x
    · subst e
      rw [Mem.set_self] at hc
      simp only [Option.some.injEq] at hc
      subst hc
      obtain ⟨s, h⟩ := hs.look y b hb
      refine ⟨s, { h with slot := ?_, heap := ?_, refs := hr }⟩
      · simp only [RState.setHeap]
        rw [h.slot, hl]
      · simp [RState.setHeap]
    · rw [Mem.set_other _ _ e] at hc
      obtain ⟨s, h⟩ := hs.look y c hc
      obtain ⟨s', h'⟩ := hs.look x b hb
      refine ⟨s, { h with heap := ?_ }⟩
      have : ρ y ≠ ρ x := by
        intro e'
        refine e (hs.rhoInj y x ?_ ?_ e')
        · rw [h.asg]; rfl
        · rw [h'.asg]; rfl
      simp only [RState.setHeap, if_neg this]
      exact h.heap
  · intro y hy
    rw [hsome]
    exact hs.slDead y hy
  · intro p s hp
    obtain ⟨y, hy, h⟩ := hs.mapLive p s hp
    exact ⟨y, by rw [hsome]; exact hy, h⟩

theorem At.store (h : At addr r st sl ρ x b s) {cs : List (Cell Nat)}
    (hl : cs.length = b.cells.length) :
    storeSlot st s cs = some (st.setHeap (ρ x) cs) := by
  unfold storeSlot Verif.Freeze.store
  rw [h.slot]
  simp only [Option.bind_some]
  rw [h.heap]
  simp only [Option.bind_some, List.length_map]
  rw [if_pos (by omega)]
  simp only [Option.some.injEq]
  unfold RState.setHeap
  congr
  funext c
  have : cs ++ List.drop cs.length (List.map (ren ρ) b.cells) = cs := by
    rw [List.drop_eq_nil_of_le (by simp [hl]), List.append_nil]
  rw [this]

/-- Allocation of the target of a call. -/
theorem Sim.alloc (hs : Sim addr nin live r m st sl ρ) {bytes : Nat} {vt : Option Nat}
    (hx : x ∈ live) (ht : Target m x bytes) (hd : m.buf x = none → m.dead x = false)
    (hv : vt ≠ some 0) :
    ∃ s sl1 ρ1, (addOutParam r (addr x) (vt.getD 0)).2 =
        { slot := s, ptype := .output, vtype := vt.getD 0 } ∧
      Ext sl sl1 ρ ρ1 ∧ sl1 x = some s ∧
      Sim addr nin live (addOutParam r (addr x) (vt.getD 0)).1 (m.ensure x bytes vt)
        (alloc false st s bytes) sl1 ρ1 := by
  cases hb : m.buf x with
  | some b =>
    obtain ⟨s, h⟩ := hs.look x b hb
    refine ⟨s, sl, ρ, ?_, Ext.refl _ _, h.asg, ?_⟩
    · unfold addOutParam addVariable addOutput
      rw [h.map]
    · have hbl : b.len = bytes ∧ b.cells.length = bytes := by
        rcases ht.2 with h' | ⟨b', hb', h2⟩
        · rw [hb] at h'
          cases h'
        · rw [hb] at hb'
          cases hb'
          exact h2
      have ha : Verif.Freeze.alloc false st s bytes = st.setSlot s (st.slot s) := by
        unfold Verif.Freeze.alloc
        simp only [h.slot]
        rw [if_neg (by omega), hbl.1]
      have hself : st.setSlot s (st.slot s) = st := by
        unfold RState.setSlot
        congr
        funext t
        split_ifs with e
        · rw [e]
        · rfl
      rw [ha, hself]
      have hm : m.ensure x bytes vt = m.set x { b with vt := vt.or b.vt } := by
        unfold Mem.ensure
        rw [hb]
      rw [hm]
      have hr1 : (addOutParam r (addr x) (vt.getD 0)).1 =
          r.setVar s { r.var s with type := if vt.getD 0 ≠ 0 then vt.getD 0 else (r.var s).type,
                                    state := .opOutput } := by
        unfold addOutParam addVariable addOutput
        rw [h.map]
      rw [hr1]
      have hsome : ∀ y, ((m.set x { b with vt := vt.or b.vt }).buf y).isSome =
          (m.buf y).isSome := by
        intro y
        by_cases e : y = x
        · subst e
          rw [Mem.set_self, hb]
          rfl
        · rw [Mem.set_other _ _ e]
      refine { hs with
        live := fun y hy => hs.live y (by rw [hsome] at hy; exact hy)
        look := ?_
        slDead := ?_
        mapLive := ?_
        init := ?_
        isIn := ?_
        index := ?_ }
      · intro y c hc
        by_cases e : y = x
        · subst e
          rw [Mem.set_self] at hc
          simp only [Option.some.injEq] at hc
          subst hc
          refine ⟨s, { h with type := ?_, vt := ?_ }⟩
          · simp only [Rec.setVar, if_true]
            cases vt with
            | none => simp [h.type]
            | some v =>
              have : v ≠ 0 := fun e => hv (e ▸ rfl)
              simp [this]
          · cases vt with
            | none => simpa using h.vt
            | some v => simpa using hv
        · rw [Mem.set_other _ _ e] at hc
          obtain ⟨s', h'⟩ := hs.look y c hc
          refine ⟨s', { h' with type := ?_ }⟩
          have : s' ≠ s := fun e' => e (hs.slInj y x s (e' ▸ h'.asg) h.asg)
          simp only [Rec.setVar, if_neg this]
          exact h'.type
      · intro y hy
        rw [hsome]
        exact hs.slDead y hy
      · intro p t hp
        obtain ⟨y, hy, h'⟩ := hs.mapLive p t hp
        exact ⟨y, by rw [hsome]; exact hy, h'⟩
      · intro t ht'
        by_cases e : t = s
        · simp [Rec.setVar, e]
        · simp only [Rec.setVar, if_neg e]
          exact hs.init t ht'
      · intro t ht'
        by_cases e : t = s
        · subst e
          simp only [Rec.setVar, if_true]
          exact hs.isIn t ht'
        · simp only [Rec.setVar, if_neg e]
          exact hs.isIn t ht'
      · intro t ht'
        by_cases e : t = s
        · subst e
          simp only [Rec.setVar, if_true]
          exact hs.index t ht'
        · simp only [Rec.setVar, if_neg e]
          exact hs.index t ht'
  | none =>
    have hmap : r.map (addr x) = none := by
      cases hm : r.map (addr x) with
      | none => rfl
      | some t =>
        obtain ⟨y, hy, e, _⟩ := hs.mapLive _ _ hm
        have := hs.apart y (hs.live y hy) x hx e
        subst this
        rw [hb] at hy
        simp at hy
    have hsl : sl x = none := by
      cases h : sl x with
      | none => rfl
      | some t =>
        rcases hs.slDead x (by rw [h]; rfl) with h' | h'
        · rw [hb] at h'
          simp at h'
        · rw [hd hb] at h'
          cases h'
    refine ⟨r.n, (fun y => if y = x then some r.n else sl y),
      (fun y => if y = x then st.next else ρ y), ?_, ?_, ?_, ?_⟩
    · unfold addOutParam addVariable addOutput
      rw [hmap]
    · intro y hy
      have : y ≠ x := by
        intro e
        rw [e, hsl] at hy
        simp at hy
      simp [this]
    · simp
    · have hext : Ext sl (fun y => if y = x then some r.n else sl y) ρ
          (fun y => if y = x then st.next else ρ y) := by
        intro y hy
        have : y ≠ x := by
          intro e
          rw [e, hsl] at hy
          simp at hy
        simp [this]
      have hn : bytes ≠ 0 := by
        have := ht.1
        omega
      have ha : Verif.Freeze.alloc false st r.n bytes =
          ({ st with heap := fun a => if a = st.next then some (List.replicate bytes .undef)
                                      else st.heap a,
                     next := st.next + 1 } : RState).setSlot r.n
            { data := some st.next, allocSize := bytes, dataSize := bytes } := by
        unfold Verif.Freeze.alloc malloc
        rw [hs.fresh r.n (Nat.le_refl _)]
        simp [hn]
      rw [ha]
      have hm : m.ensure x bytes vt =
          m.set x { cells := List.replicate bytes .undef, len := bytes, vt := vt } := by
        unfold Mem.ensure
        rw [hb]
      rw [hm]
      have hr1 : (addOutParam r (addr x) (vt.getD 0)).1 =
          { r with map := fun q => if q = addr x then some r.n else r.map q, n := r.n + 1,
                   var := fun t => if t = r.n then
                     { index := 0, init := false, type := vt.getD 0, state := .opOutput }
                     else r.var t } := by
        unfold addOutParam addVariable addOutput
        rw [hmap]
        simp only [Rec.setVar, if_true]
        congr
        funext t
        by_cases e : t = r.n
        · simp only [if_pos e]
          by_cases e' : vt.getD 0 = 0
          · simp [e']
          · simp [e']
        · simp only [if_neg e]
      rw [hr1]
      have hsome : ∀ y, ((m.set x ⟨List.replicate bytes .undef, bytes, vt⟩).buf y).isSome =
          ((m.buf y).isSome || decide (y = x)) := by
        intro y
        by_cases e : y = x
        · subst e
          rw [Mem.set_self]
          simp
        · rw [Mem.set_other _ _ e]
          simp [e]
      exact {
        exn := hs.exn
        apart := hs.apart
        live := by
          intro y hy
          rw [hsome] at hy
          rw [Bool.or_eq_true] at hy
          rcases hy with h | h
          · exact hs.live y h
          · exact (of_decide_eq_true h) ▸ hx
        look := by
          intro y c hc
          by_cases e : y = x
          · subst e
            rw [Mem.set_self] at hc
            simp only [Option.some.injEq] at hc
            subst hc
            refine ⟨r.n, ?_, ?_, ?_, ?_, ?_, ?_, ?_⟩
            · simp
            · simp
            · simp [RState.setSlot]
            · simp [RState.setSlot, ren]
            · simp
            · exact hv
            · intro t ht'
              obtain ⟨k, hk⟩ := mem_refsOf.1 ht'
              have := List.eq_of_mem_replicate hk
              simp at this
          · rw [Mem.set_other _ _ e] at hc
            obtain ⟨s, h⟩ := hs.look y c hc
            have hlt := hs.slotLt y s h.asg
            have hne : s ≠ r.n := by omega
            have hxy : addr y ≠ addr x := by
              intro e'
              exact e (hs.apart y (hs.live y (by rw [hc]; rfl)) x hx e')
            have hnx : ρ y ≠ st.next := by
              have := hs.rhoLt y (by rw [h.asg]; rfl)
              omega
            refine ⟨s, ?_, ?_, ?_, ?_, ?_, ?_, ?_⟩
            · simp only [if_neg e]
              exact h.asg
            · simp only [if_neg hxy]
              exact h.map
            · simp only [RState.setSlot, if_neg hne, if_neg e]
              exact h.slot
            · simp only [RState.setSlot, if_neg e, if_neg hnx]
              rw [h.heap]
              rw [hext.ren h.refs]
            · simp only [if_neg hne]
              exact h.type
            · exact h.vt
            · intro t ht'
              exact (congrArg Option.isSome (hext t (h.refs t ht')).1).trans (h.refs t ht')
        slotLt := by
          intro y t h
          split_ifs at h with e
          · simp only [Option.some.injEq] at h
            simp only
            omega
          · have := hs.slotLt y t h
            simp only
            omega
        slInj := by
          intro y z t h h'
          split_ifs at h h' with e e' e'
          · exact e.trans e'.symm
          · have := hs.slotLt z t h'
            simp only [Option.some.injEq] at h
            omega
          · have := hs.slotLt y t h
            simp only [Option.some.injEq] at h'
            omega
          · exact hs.slInj y z t h h'
        slData := by
          intro y t h
          split_ifs at h with e
          · simp only [Option.some.injEq] at h
            subst h
            simp [RState.setSlot, e]
          · have hlt := hs.slotLt y t h
            have hne : t ≠ r.n := by omega
            simp only [RState.setSlot, if_neg hne, if_neg e]
            exact hs.slData y t h
        rhoInj := by
          intro y z hy hz he
          split_ifs at hy hz he with e e' e'
          · exact e.trans e'.symm
          · have := hs.rhoLt z hz
            omega
          · have := hs.rhoLt y hy
            omega
          · exact hs.rhoInj y z hy hz he
        rhoLt := by
          intro y hy
          simp only [RState.setSlot] at hy ⊢
          split_ifs at hy ⊢ with e
          · omega
          · have := hs.rhoLt y hy
            omega
        slDead := by
          intro y hy
          rw [hsome]
          split_ifs at hy with e
          · left
            simp [e]
          · rcases hs.slDead y hy with h | h
            · left
              simp [h]
            · right
              exact h
        mapLive := by
          intro p t hp
          simp only at hp
          split_ifs at hp with e
          · simp only [Option.some.injEq] at hp
            exact ⟨x, by rw [hsome]; simp, e.symm, by simp [hp]⟩
          · obtain ⟨y, hy, h1, h2⟩ := hs.mapLive p t hp
            refine ⟨y, by rw [hsome]; simp [hy], h1, ?_⟩
            have : y ≠ x := fun e' => e (e' ▸ h1.symm)
            simp only [if_neg this]
            exact h2
        surj := by
          intro t ht'
          by_cases e : t = r.n
          · exact ⟨x, by simp [e]⟩
          · simp only at ht'
            obtain ⟨y, hy⟩ := hs.surj t (by omega)
            refine ⟨y, ?_⟩
            have : y ≠ x := by
              intro e'
              rw [e', hsl] at hy
              cases hy
            simp only [if_neg this]
            exact hy
        fresh := by
          intro t ht'
          simp only at ht'
          have hne : t ≠ r.n := by omega
          simp only [RState.setSlot, if_neg hne]
          exact hs.fresh t (by omega)
        init := by
          intro t ht'
          simp only at ht' ⊢
          split_ifs with e
          · simp
          · exact hs.init t (by omega)
        inputs := hs.inputs
        ninLe := by
          have := hs.ninLe
          simp only
          omega
        isIn := by
          intro t ht'
          simp only at ht' ⊢
          have := hs.ninLe
          split_ifs with e
          · simp only
            symm
            rw [decide_eq_false_iff_not]
            omega
          · exact hs.isIn t (by omega)
        index := by
          intro t ht'
          have := hs.ninLe
          have hne : t ≠ r.n := by omega
          simp only [if_neg hne]
          exact hs.index t ht' }

theorem ensure_buf {bytes : Nat} {vt : Option Nat} (ht : Target m x bytes) :
    ∃ c, (m.ensure x bytes vt).buf x = some c ∧ c.len = bytes ∧ c.cells.length = bytes ∧
      (m.buf x = none → c.cells = List.replicate bytes .undef) := by
  unfold Mem.ensure
  cases hb : m.buf x with
  | none => exact ⟨_, Mem.set_self _ _ _, rfl, by simp, fun _ => rfl⟩
  | some b =>
    refine ⟨_, Mem.set_self _ _ _, ?_, ?_, fun h => by cases h⟩
    · rcases ht.2 with h' | ⟨b', hb', h2⟩
      · rw [hb] at h'
        cases h'
      · rw [hb] at hb'
        cases hb'
        exact h2.1
    · rcases ht.2 with h' | ⟨b', hb', h2⟩
      · rw [hb] at h'
        cases h'
      · rw [hb] at hb'
        cases hb'
        exact h2.2

/-- Existing arrays remain unchanged (except for the type). -/
theorem ensure_old {bytes : Nat} {vt : Option Nat} {y : Nat} {c : Buf} (hc : m.buf y = some c) :
    ∃ c', (m.ensure x bytes vt).buf y = some c' ∧ c'.cells = c.cells ∧ c'.len = c.len ∧
      (y ≠ x → c' = c) := by
  unfold Mem.ensure
  by_cases e : y = x
  · subst e
    rw [hc]
    exact ⟨_, Mem.set_self _ _ _, rfl, rfl, fun h => absurd rfl h⟩
  · cases hb : m.buf x with
    | none => exact ⟨c, by rw [Mem.set_other _ _ e, hc], rfl, rfl, fun _ => rfl⟩
    | some b => exact ⟨c, by rw [Mem.set_other _ _ e, hc], rfl, rfl, fun _ => rfl⟩

theorem ensure_read {bytes : Nat} {vt : Option Nat} {y n : Nat} {cs : List (Cell Nat)}
    (h : m.read y n = some cs) : (m.ensure x bytes vt).read y n = some cs := by
  obtain ⟨b, hb⟩ := read_buf h
  obtain ⟨c, hc, e, _⟩ := ensure_old (x := x) (bytes := bytes) (vt := vt) hb
  unfold Mem.read Mem.get at h ⊢
  rw [hb] at h
  rw [hc, Option.map_some, e]
  exact h

theorem ensure_has {bytes : Nat} {vt : Option Nat} {y t n : Nat} (h : Has m y t n) :
    Has (m.ensure x bytes vt) y t n := by
  obtain ⟨b, hb, h⟩ := h
  obtain ⟨c, hc, e, e', _⟩ := ensure_old (x := x) (bytes := bytes) (vt := vt) hb
  exact ⟨c, hc, by rw [e', e]; exact h⟩

/-- Calls that store `cs` in the array `x`. -/
theorem Sim.put (hs : Sim addr nin live r m st sl ρ) {vt : Option Nat} {cs : List (Cell Nat)}
    {m2 : Mem} (hx : x ∈ live) (ht : Target m x cs.length) (hv : vt ≠ some 0)
    (hr : ∀ t ∈ refsOf cs, (sl t).isSome) (h : m.put x cs vt = some m2) :
    ∃ s sl1 ρ1, (addOutParam r (addr x) (vt.getD 0)).2 =
        { slot := s, ptype := .output, vtype := vt.getD 0 } ∧
      Ext sl sl1 ρ ρ1 ∧ sl1 x = some s ∧
      Sim addr nin live (addOutParam r (addr x) (vt.getD 0)).1 (m.ensure x cs.length vt)
        (Verif.Freeze.alloc false st s cs.length) sl1 ρ1 ∧
      ∃ st2, storeSlot (Verif.Freeze.alloc false st s cs.length) s (cs.map (ren ρ)) = some st2 ∧
        Sim addr nin live (addOutParam r (addr x) (vt.getD 0)).1 m2 st2 sl1 ρ1 := by
  obtain ⟨e, hd⟩ := put_eq ht h
  obtain ⟨s, sl1, ρ1, h1, h2, h3, h4⟩ := hs.alloc hx ht hd hv
  refine ⟨s, sl1, ρ1, h1, h2, h3, h4, ?_⟩
  obtain ⟨c, hc, hl1, hl2, _⟩ := ensure_buf (vt := vt) ht
  have hat := h4.at_eq hc h3
  rw [← h2.ren hr]
  refine ⟨_, hat.store (by rw [List.length_map]; exact hl2.symm), ?_⟩
  rw [e]
  apply h4.fill hc hl2.symm
  intro t ht'
  rw [(h2 t (hr t ht')).1]
  exact hr t ht'

end

end Verif.Freeze
