import Verif.Freeze.Sim

/-!
# Simulation: calls other than kernel launches
-/

namespace Verif.Freeze

/-- The call `c` is recorded, and its replay leads to the state `m2`. -/
def StepOk (sem : Sem) (addr : Nat → Nat) (nin : Nat) (live : List Nat) (r : Rec) (m2 : Mem)
    (st : RState) (sl : Nat → Option Nat) (ρ : Nat → Nat) (c : Cmd) : Prop :=
  ∃ r2 ops st2 sl2 ρ2, recordCmd addr live r c = some r2 ∧ r2.ops = r.ops ++ ops ∧
    replayOps sem false st ops = .ok st2 ∧ Ext sl sl2 ρ ρ2 ∧
    Sim addr nin (c.live live) r2 m2 st2 sl2 ρ2

theorem addOutParam_ops (r : Rec) (p vt : Nat) : (addOutParam r p vt).1.ops = r.ops := by
  unfold addOutParam addVariable addOutput
  cases r.map p <;> rfl

theorem typeSize_zero : typeSize 0 = 0 := rfl

theorem vt_ne {vt : Nat} (h : 0 < typeSize vt) : vt ≠ 0 := by
  rintro rfl
  rw [typeSize_zero] at h
  omega

theorem some_vt_ne {vt : Nat} (h : 0 < typeSize vt) : (some vt : Option Nat) ≠ some 0 := by
  intro e
  simp only [Option.some.injEq] at e
  exact vt_ne h e

section
variable {sem : Sem} {addr : Nat → Nat} {nin : Nat} {live : List Nat} {r : Rec} {m m2 : Mem}
  {st : RState} {sl : Nat → Option Nat} {ρ : Nat → Nat} {x y s n vt : Nat}

theorem Sim.load (hs : Sim addr nin live r m st sl ρ) {ds : List (Cell Nat)}
    (h : m.read y n = some ds) (hy : sl y = some s) :
    loadSlot st s n = some (ds.map (ren ρ)) := by
  obtain ⟨b, hb⟩ := read_buf h
  exact (hs.at_eq hb hy).load hb h

theorem Sim.size (hs : Sim addr nin live r m st sl ρ) (h : Has m y vt n) (hy : sl y = some s) :
    (st.slot s).size (typeSize vt) = some n := by
  have h' := h
  obtain ⟨b, hb, _⟩ := h
  exact (hs.at_eq hb hy).size hb h'

theorem Sim.slotOf (hs : Sim addr nin live r m st sl ρ) (h : Has m y vt n) :
    ∃ s, sl y = some s := by
  obtain ⟨b, hb, _⟩ := h
  obtain ⟨s, h⟩ := hs.look y b hb
  exact ⟨s, h.asg⟩

theorem Has.pos (h : Has m y vt n) : 0 < typeSize vt := by
  obtain ⟨b, _, _, _, _, _, h⟩ := h
  exact h

theorem Has.lt (h : Has m y vt n) : n < 2 ^ 32 := by
  obtain ⟨b, _, _, _, _, h, _⟩ := h
  exact h

theorem Has.n_pos (h : Has m y vt n) : 0 < n := by
  obtain ⟨b, _, _, _, h, _⟩ := h
  exact h

theorem Sim.inParam (hs : Sim addr nin live r m st sl ρ) (h : Has m y vt n)
    (hy : sl y = some s) :
    addInParam r (addr y) vt = some { slot := s, ptype := .input, vtype := vt } := by
  have hv := vt_ne h.pos
  obtain ⟨b, hb, _⟩ := h
  rw [(hs.at_eq hb hy).inParam hs vt, if_neg hv]

theorem Ext.some {sl1 : Nat → Option Nat} {ρ1 : Nat → Nat} (h : Ext sl sl1 ρ ρ1)
    (hy : sl y = some s) : sl1 y = some s := by
  rw [(h y (by rw [hy]; rfl)).1, hy]

theorem refs_none {cs : List (Cell Nat)} (h : refsOf cs = []) :
    ∀ t ∈ refsOf cs, (sl t).isSome := by
  rw [h]
  intro t ht
  cases ht

theorem replayOps_one {op : Op} {st2 : RState} (h : replayOp sem false st op = .ok st2) :
    replayOps sem false st [op] = .ok st2 := by
  unfold replayOps
  rw [h]
  rfl

theorem StepOk.one {c : Cmd} {op : Op} {r1 : Rec} {st2 : RState} {sl1 : Nat → Option Nat}
    {ρ1 : Nat → Nat} (hx : Ext sl sl1 ρ ρ1)
    (hs : Sim addr nin (c.live live) r1 m2 st2 sl1 ρ1) (ho : r1.ops = r.ops)
    (hr : recordCmd addr live r c = some (r1.push op)) (hp : replayOp sem false st op = .ok st2) :
    StepOk sem addr nin live r m2 st sl ρ c :=
  ⟨_, [op], st2, sl1, ρ1, hr, by simp [Rec.push, ho], replayOps_one hp, hx, hs.push op⟩

theorem StepOk.oneDry {c : Cmd} {op : Op} {r1 : Rec} {st2 : RState} {sl1 : Nat → Option Nat}
    {ρ1 : Nat → Nat} (hx : Ext sl sl1 ρ ρ1)
    (hs : Sim addr nin (c.live live) r1 m2 st2 sl1 ρ1) (ho : r1.ops = r.ops)
    (hr : recordCmd addr live r c = some { r1.push op with dry := true })
    (hp : replayOp sem false st op = .ok st2) :
    StepOk sem addr nin live r m2 st sl ρ c :=
  ⟨_, [op], st2, sl1, ρ1, hr, by simp [Rec.push, ho], replayOps_one hp, hx,
    (hs.push op).setDry true⟩

theorem refsOf_bytes_map (l : List Nat) : refsOf (l.map (Cell.byte (α := Nat))) = [] := by
  induction l with
  | nil => rfl
  | cons a l ih => simpa [refsOf] using ih

theorem refsOf_replicate (k : Nat) (l : List Nat) :
    refsOf (List.replicate k (l.map (Cell.byte (α := Nat)))).flatten = [] := by
  rw [List.eq_nil_iff_forall_not_mem]
  intro t ht
  obtain ⟨j, hj⟩ := mem_refsOf.1 ht
  rw [List.mem_flatten] at hj
  obtain ⟨c, hc, hj⟩ := hj
  rw [List.eq_of_mem_replicate hc] at hj
  obtain ⟨b, _, hb⟩ := List.mem_map.1 hj
  cases hb

theorem map_ren_none {cs : List (Cell Nat)} (h : refsOf cs = []) : cs.map (ren ρ) = cs := by
  conv => rhs; rw [← List.map_id cs]
  apply List.map_congr_left
  intro c hc
  cases c with
  | byte b => rfl
  | undef => rfl
  | ref t k =>
    have := mem_refsOf.2 ⟨k, hc⟩
    rw [h] at this
    cases this

theorem le_length (k v : Nat) : (le k v).length = k := by
  induction k generalizing v with
  | zero => rfl
  | succ k ih => simp [le, ih]

theorem step_memset {size isize v : Nat} (hs : Sim addr nin live r m st sl ρ)
    (hap : Apart addr ([x] ++ live)) (hw : Whole m (.memset x size isize v))
    (he : exec sem m (.memset x size isize v) = some m2) :
    StepOk sem addr nin live r m2 st sl ρ (.memset x size isize v) := by
  obtain ⟨ht, hlt⟩ := hw
  have hs' := hs.weaken hap fun y hy => List.mem_append.2 (Or.inr hy)
  have hlen : ((List.replicate size ((le isize v).map (Cell.byte (α := Nat)))).flatten).length =
      size * isize := by
    simp [le_length]
  have hsz : 0 < size ∧ 0 < isize := by
    have := ht.1
    constructor
    · exact Nat.pos_of_ne_zero fun e => by simp [e] at this
    · exact Nat.pos_of_ne_zero fun e => by simp [e] at this
  have hrefs : refsOf (List.replicate size ((le isize v).map (Cell.byte (α := Nat)))).flatten = [] :=
    refsOf_replicate _ _
  obtain ⟨s, sl1, ρ1, h1, h2, h3, h4, st2, h5, h6⟩ :=
    hs'.put (x := x) (vt := none) (by simp) (by rw [hlen]; exact ht) (by simp)
      (refs_none hrefs) he
  rw [map_ren_none hrefs] at h5
  rw [hlen] at h4 h5
  simp only [Option.getD_none] at h1 h6
  refine StepOk.one (op := {
      kind := .memset v, deps := [{ slot := s, ptype := .output, vtype := 0 }], size := size,
      inputSize := isize }) h2 h6 (addOutParam_ops _ _ _) ?_ ?_
  rotate_left
  · have hc : ∃ c, (m.ensure x (size * isize) none).buf x = some c ∧ c.len = size * isize := by
      obtain ⟨c, hc, hl, _⟩ := ensure_buf (vt := none) ht
      exact ⟨c, hc, hl⟩
    obtain ⟨c, hc, hl⟩ := hc
    have hsize : ((alloc false st s (size * isize)).slot s).size isize = some size := by
      rw [(h4.at_eq hc h3).slot]
      unfold Slot.size
      simp only [hl]
      rw [Nat.mul_div_cancel _ hsz.2, if_neg (by omega), if_neg (by omega), if_neg (by simp),
        Nat.mod_eq_of_lt hlt]
    simp only [replayOp, replayMemset, Op.dep, List.getD_cons_zero]
    simp only [hsize, orRaise, h5, orUb]
    rfl
  · simp only [recordCmd, recordMemset, h1]

theorem step_memcpy {dst src b b' : Nat} (hs : Sim addr nin live r m st sl ρ)
    (hap : Apart addr ([dst] ++ live)) (hw : Whole m (.memcpy dst src b'))
    (he : exec sem m (.memcpy dst src b') = some m2) :
    StepOk sem addr nin live r m2 st sl ρ (.memcpy dst src b) := by
  obtain ⟨⟨c, hc, hlen⟩, ht⟩ := hw
  have hs' := hs.weaken hap fun y hy => List.mem_append.2 (Or.inr hy)
  simp only [exec, Option.bind_eq_some_iff] at he
  obtain ⟨cs, hcs, he⟩ := he
  rw [hc, Option.bind_some] at he
  have hl := read_length hcs
  obtain ⟨s, hat⟩ := hs'.look src c hc
  have hrefs : ∀ t ∈ refsOf cs, (sl t).isSome := fun t h => hat.refs t (read_refs hc hcs h)
  obtain ⟨d, sl1, ρ1, h1, h2, h3, h4, st2, h5, h6⟩ :=
    hs'.put (x := dst) (by simp) (by rw [hl]; exact ht) hat.vt hrefs he
  rw [hl] at h4 h5
  have hsrc1 := h2.some hat.asg
  have hrec : recordMemcpy addr r dst src b =
      some ((addOutParam r (addr dst) (c.vt.getD 0)).1.push
        { kind := .memcpy, deps := [{ slot := s, ptype := .input, vtype := c.vt.getD 0 },
          { slot := d, ptype := .output, vtype := c.vt.getD 0 }], size := b }) := by
    unfold recordMemcpy getVariable
    rw [hat.map, Option.bind_some]
    have hlt := hs'.slotLt src s hat.asg
    have hv : (addVariable r (addr dst)).1.var s = r.var s := by
      unfold addVariable
      cases r.map (addr dst) with
      | some _ => rfl
      | none =>
        simp only [Rec.setVar]
        rw [if_neg (by omega)]
    unfold addOutParam at h1 ⊢
    unfold addInput
    simp only [hv, hat.type]
    have hne := hs'.init s hlt
    rw [if_neg (by simp [hne])]
    have h1' := congrArg Access.slot h1
    simp only [addOutput] at h1'
    simp only [Option.map_some, addOutput]
    simp only [if_true]
    rw [h1']
  have hstep : replayOp sem false st { kind := .memcpy, deps := [{ slot := s, ptype := .input, vtype := c.vt.getD 0 },
          { slot := d, ptype := .output, vtype := c.vt.getD 0 }], size := b } = .ok st2 := by
    have e1 : (st.slot s).dataSize = b' := by rw [hat.slot, hlen]
    obtain ⟨c', hc', _, hl', _⟩ := ensure_old (x := dst) (bytes := b') (vt := c.vt) hc
    have hat1 := h4.at_eq hc' hsrc1
    have e2 : ((alloc false st d b').slot s).dataSize = b' := by rw [hat1.slot, hl', hlen]
    have hld := h4.load (ensure_read (x := dst) (bytes := b') (vt := c.vt) hcs) hsrc1
    rw [h2.ren hrefs] at hld
    have := ht.1
    simp only [replayOp, replayMemcpy, Op.dep, List.getD_cons_zero, List.getD_cons_succ]
    simp only [e1, e2, hld, orUb, h5]
    simp only [Bool.false_eq_true, if_false]
    rw [if_neg (by omega)]
  exact StepOk.one h2 h6 (addOutParam_ops _ _ _) hrec hstep

theorem step_blockReduce {rop sz bs sz' bs' src out : Nat} (hs : Sim addr nin live r m st sl ρ)
    (hap : Apart addr ([out] ++ live)) (hb : SameBlocks sz bs sz' bs')
    (hw : Whole m (.blockReduce vt rop sz' bs' src out))
    (he : exec sem m (.blockReduce vt rop sz' bs' src out) = some m2) :
    StepOk sem addr nin live r m2 st sl ρ (.blockReduce vt rop sz bs src out) := by
  obtain ⟨hh, hbs, hdvd, ht⟩ := hw
  have hs' := hs.weaken hap fun y hy => List.mem_append.2 (Or.inr hy)
  simp only [exec, Option.bind_eq_some_iff] at he
  obtain ⟨cs, hcs, he⟩ := he
  obtain ⟨s, hsl⟩ := hs'.slotOf hh
  have hdiv : (sz' + bs' - 1) / bs' = sz' / bs' := by
    obtain ⟨k, rfl⟩ := hdvd
    rw [Nat.mul_div_cancel_left _ hbs, show bs' * k + bs' - 1 = bs' - 1 + bs' * k by omega,
      Nat.add_mul_div_left _ _ hbs, Nat.div_eq_of_lt (by omega), Nat.zero_add]
  rw [hdiv] at he
  obtain ⟨d, sl1, ρ1, h1, h2, h3, h4, st2, h5, h6⟩ :=
    hs'.put (x := out) (vt := some vt) (by simp) (by rw [bytes_length]; exact ht)
      (some_vt_ne hh.pos) (refs_none (refsOf_bytes _ _ _ _)) he
  rw [map_ren_none (refsOf_bytes _ _ _ _)] at h5
  rw [bytes_length] at h4 h5
  have hsrc1 := h2.some hsl
  have hld := h4.load (ensure_read hcs) hsrc1
  have hbs2 : (if bs = sz then sz' else bs) = bs' := by
    rcases hb with ⟨e, e'⟩ | ⟨e, e'⟩
    · rw [if_pos e, e']
    · rw [if_neg e, e']
  simp only [Option.getD_some] at h1 h6
  refine StepOk.oneDry (op := {
      kind := .blockReduce rop, deps := [{ slot := s, ptype := .input, vtype := vt },
        { slot := d, ptype := .output, vtype := vt }], size := sz, inputSize := bs }) h2 h6 (addOutParam_ops _ _ _) ?_ ?_
  rotate_left
  · simp only [replayOp, replayBlockReduce, Op.dep, List.getD_cons_zero, List.getD_cons_succ]
    simp only [hs'.size hh hsl, orRaise, hbs2]
    rw [if_neg (by simp [Nat.mod_eq_zero_of_dvd hdvd])]
    simp only [hld, orUb, dataOf_ren, hdiv, h5]
    rfl
  · simp only [recordCmd, recordBlockReduce, hs'.inParam hh hsl, Option.map_some, h1]

theorem step_prefixReduce {rop sz bs sz' bs' src out : Nat} {ex rev : Bool}
    (hs : Sim addr nin live r m st sl ρ)
    (hap : Apart addr ([out] ++ live)) (hb : SameBlocks sz bs sz' bs')
    (hw : Whole m (.prefixReduce vt rop sz' bs' ex rev src out))
    (he : exec sem m (.prefixReduce vt rop sz' bs' ex rev src out) = some m2) :
    StepOk sem addr nin live r m2 st sl ρ (.prefixReduce vt rop sz bs ex rev src out) := by
  obtain ⟨hh, hbs, hdvd, ht⟩ := hw
  have hs' := hs.weaken hap fun y hy => List.mem_append.2 (Or.inr hy)
  simp only [exec, Option.bind_eq_some_iff] at he
  obtain ⟨cs, hcs, he⟩ := he
  obtain ⟨s, hsl⟩ := hs'.slotOf hh
  obtain ⟨d, sl1, ρ1, h1, h2, h3, h4, st2, h5, h6⟩ :=
    hs'.put (x := out) (vt := some vt) (by simp) (by rw [bytes_length]; exact ht)
      (some_vt_ne hh.pos) (refs_none (refsOf_bytes _ _ _ _)) he
  rw [map_ren_none (refsOf_bytes _ _ _ _)] at h5
  rw [bytes_length] at h4 h5
  have hsrc1 := h2.some hsl
  have hld := h4.load (ensure_read hcs) hsrc1
  have hbs2 : (if bs = sz then sz' else bs) = bs' := by
    rcases hb with ⟨e, e'⟩ | ⟨e, e'⟩
    · rw [if_pos e, e']
    · rw [if_neg e, e']
  simp only [Option.getD_some] at h1 h6
  refine StepOk.oneDry (op := {
      kind := .prefixReduce rop ex rev, deps := [{ slot := s, ptype := .input, vtype := vt },
        { slot := d, ptype := .output, vtype := vt }], size := sz, inputSize := bs }) h2 h6 (addOutParam_ops _ _ _) ?_ ?_
  rotate_left
  · simp only [replayOp, replayPrefixReduce, Op.dep, List.getD_cons_zero, List.getD_cons_succ]
    simp only [hs'.size hh hsl, orRaise, hbs2]
    rw [if_neg (by simp [Nat.mod_eq_zero_of_dvd hdvd])]
    simp only [hld, orUb, dataOf_ren, h5]
    rfl
  · simp only [recordCmd, recordPrefixReduce, hs'.inParam hh hsl, Option.map_some, h1]

theorem step_reduceBool {rop sz sz' src out : Nat} (hs : Sim addr nin live r m st sl ρ)
    (hap : Apart addr ([out] ++ live))
    (hw : Whole m (.reduceBool rop sz' src out))
    (he : exec sem m (.reduceBool rop sz' src out) = some m2) :
    StepOk sem addr nin live r m2 st sl ρ (.reduceBool rop sz src out) := by
  obtain ⟨hh, ht⟩ := hw
  have hs' := hs.weaken hap fun y hy => List.mem_append.2 (Or.inr hy)
  simp only [exec, Option.bind_eq_some_iff] at he
  obtain ⟨cs, hcs, he⟩ := he
  obtain ⟨s, hsl⟩ := hs'.slotOf hh
  obtain ⟨d, sl1, ρ1, h1, h2, h3, h4, st2, h5, h6⟩ :=
    hs'.put (x := out) (vt := some 1) (by simp) (by rw [bytes_length]; exact ht)
      (by simp) (refs_none (refsOf_bytes _ _ _ _)) he
  rw [map_ren_none (refsOf_bytes _ _ _ _)] at h5
  rw [bytes_length] at h4 h5
  have hsrc1 := h2.some hsl
  have hld := h4.load (ensure_read hcs) hsrc1
  simp only [Option.getD_some] at h1 h6
  refine StepOk.one (op := {
      kind := .reduceBool rop, deps := [{ slot := s, ptype := .input, vtype := 1 },
        { slot := d, ptype := .output, vtype := 1 }], size := sz }) h2 h6 (addOutParam_ops _ _ _) ?_ ?_
  rotate_left
  · simp only [replayOp, replayReduceBool, Op.dep, List.getD_cons_zero, List.getD_cons_succ]
    simp only [h4.size (ensure_has hh) hsrc1, orRaise]
    simp only [hld, orUb, dataOf_ren, h5]
    rfl
  · simp only [recordCmd, recordReduceBool, hs'.inParam hh hsl, Option.map_some, h1]

theorem step_opaqueWidth {sz sz' src out : Nat} (hs : Sim addr nin live r m st sl ρ)
    (hap : Apart addr ([out] ++ live))
    (hw : Whole m (.opaqueWidth src vt sz' out))
    (he : exec sem m (.opaqueWidth src vt sz' out) = some m2) :
    StepOk sem addr nin live r m2 st sl ρ (.opaqueWidth src vt sz out) := by
  obtain ⟨hh, ht⟩ := hw
  have hs' := hs.weaken hap fun y hy => List.mem_append.2 (Or.inr hy)
  simp only [exec, Option.bind_eq_some_iff] at he
  obtain ⟨b, hb, he⟩ := he
  obtain ⟨s, hsl⟩ := hs'.slotOf hh
  have hlen : ((le 4 sz').map (Cell.byte (α := Nat))).length = 4 := by simp [le_length]
  obtain ⟨d, sl1, ρ1, h1, h2, h3, h4, st2, h5, h6⟩ :=
    hs'.put (x := out) (vt := some 8) (by simp) (by rw [hlen]; exact ht)
      (by simp) (refs_none (refsOf_bytes_map _)) he
  rw [map_ren_none (refsOf_bytes_map _)] at h5
  rw [hlen] at h4 h5
  have hsrc1 := h2.some hsl
  simp only [Option.getD_some] at h1 h6
  refine StepOk.one (op := {
      kind := .opaqueWidth, deps := [{ slot := s, ptype := .input, vtype := vt },
        { slot := d, ptype := .output, vtype := 8 }] }) h2 h6 (addOutParam_ops _ _ _) ?_ ?_
  rotate_left
  · simp only [replayOp, replayOpaqueWidth, Op.dep, List.getD_cons_zero, List.getD_cons_succ,
      show typeSize 8 = 4 from rfl]
    simp only [h4.size (ensure_has hh) hsrc1, orRaise]
    simp only [orUb, h5]
    rfl
  · simp only [recordCmd, recordOpaqueWidth, hs'.inParam hh hsl, Option.map_some, h1]

theorem step_dot {x' y' sz sz' out : Nat} (hs : Sim addr nin live r m st sl ρ)
    (hap : Apart addr ([out] ++ live))
    (hw : Whole m (.dot vt x' y' sz' out))
    (he : exec sem m (.dot vt x' y' sz' out) = some m2) :
    StepOk sem addr nin live r m2 st sl ρ (.dot vt x' y' sz out) := by
  obtain ⟨hx, hy, ht⟩ := hw
  have hs' := hs.weaken hap fun y hy => List.mem_append.2 (Or.inr hy)
  simp only [exec, Option.bind_eq_some_iff] at he
  obtain ⟨cs, hcs, ds, hds, he⟩ := he
  obtain ⟨s, hsl⟩ := hs'.slotOf hx
  obtain ⟨u, hul⟩ := hs'.slotOf hy
  obtain ⟨d, sl1, ρ1, h1, h2, h3, h4, st2, h5, h6⟩ :=
    hs'.put (x := out) (vt := some vt) (by simp) (by rw [bytes_length]; exact ht)
      (some_vt_ne hx.pos) (refs_none (refsOf_bytes _ _ _ _)) he
  rw [map_ren_none (refsOf_bytes _ _ _ _)] at h5
  rw [bytes_length] at h4 h5
  have hs1 := h2.some hsl
  have hu1 := h2.some hul
  have hld := h4.load (ensure_read hcs) hs1
  have hld' := h4.load (ensure_read hds) hu1
  simp only [Option.getD_some] at h1 h4 h6
  refine StepOk.one (op := {
      kind := .dot, deps := [{ slot := d, ptype := .output, vtype := vt },
        { slot := s, ptype := .input, vtype := vt },
        { slot := u, ptype := .input, vtype := vt }], size := sz }) h2 h6 (addOutParam_ops _ _ _) ?_ ?_
  rotate_left
  · simp only [replayOp, replayDot, Op.dep, List.getD_cons_zero, List.getD_cons_succ]
    simp only [hs'.size hx hsl, hs'.size hy hul, orRaise]
    rw [if_neg (by simp)]
    simp only [hld, hld', orUb, dataOf_ren, h5]
    rfl
  · simp only [recordCmd, recordDot, h4.inParam (ensure_has hx) hs1,
      h4.inParam (ensure_has hy) hu1, Option.map_some, Option.bind_some, h1]

theorem expectedSize_eq (base : Nat) (sel : Bool × Bool → Bool) (batch : List (Nat × Bool × Bool)) :
    expectedSize base sel batch = operandSize base batch sel % 2 ^ 32 := by
  induction batch generalizing base with
  | nil => simp [expectedSize, operandSize]
  | cons d ds ih =>
    unfold expectedSize
    rw [ih]
    unfold operandSize
    by_cases h : sel d.2
    · simp only [h, if_true, List.filter_cons, List.map_cons, List.foldr_cons]
      rw [← Nat.mul_assoc, Nat.mod_mul_mod]
    · simp [h, List.filter_cons]

theorem step_gemm {flags M N K grid : Nat} {batch : List (Nat × Bool × Bool)} {A B C : Nat}
    (hs : Sim addr nin live r m st sl ρ) (hap : Apart addr ([C] ++ live))
    (hw : Whole m (.gemm vt flags M N K grid batch A B C))
    (he : exec sem m (.gemm vt flags M N K grid batch A B C) = some m2) :
    StepOk sem addr nin live r m2 st sl ρ (.gemm vt flags M N K grid batch A B C) := by
  obtain ⟨hx, hy, ht⟩ := hw
  have hs' := hs.weaken hap fun y hy => List.mem_append.2 (Or.inr hy)
  simp only [exec, Option.bind_eq_some_iff] at he
  obtain ⟨cs, hcs, ds, hds, he⟩ := he
  obtain ⟨s, hsl⟩ := hs'.slotOf hx
  obtain ⟨u, hul⟩ := hs'.slotOf hy
  obtain ⟨d, sl1, ρ1, h1, h2, h3, h4, st2, h5, h6⟩ :=
    hs'.put (x := C) (vt := some vt) (by simp) (by rw [bytes_length]; exact ht)
      (some_vt_ne hx.pos) (refs_none (refsOf_bytes _ _ _ _)) he
  rw [map_ren_none (refsOf_bytes _ _ _ _)] at h5
  rw [bytes_length] at h4 h5
  have hs1 := h2.some hsl
  have hu1 := h2.some hul
  have hld := h4.load (ensure_read hcs) hs1
  have hld' := h4.load (ensure_read hds) hu1
  simp only [Option.getD_some] at h1 h4 h6
  refine StepOk.oneDry (op := {
      kind := .gemm flags M N K grid batch, deps := [{ slot := d, ptype := .output, vtype := vt },
        { slot := s, ptype := .input, vtype := vt },
        { slot := u, ptype := .input, vtype := vt }], size := grid * M * N }) h2 h6 (addOutParam_ops _ _ _) ?_ ?_
  rotate_left
  · simp only [replayOp, replayGemm, Op.dep, List.getD_cons_zero, List.getD_cons_succ]
    simp only [hs'.size hx hsl, hs'.size hy hul, orRaise]
    rw [expectedSize_eq, expectedSize_eq, Nat.mod_eq_of_lt hx.lt, Nat.mod_eq_of_lt hy.lt,
      if_neg (by simp), if_neg (by simp)]
    simp only [hld, hld', orUb, dataOf_ren, h5]
    rfl
  · simp only [recordCmd, recordGemm, h4.inParam (ensure_has hx) hs1,
      h4.inParam (ensure_has hy) hu1, Option.map_some, Option.bind_some, h1]

theorem step_barrier (hs : Sim addr nin live r m st sl ρ) :
    StepOk sem addr nin live r m st sl ρ .barrier :=
  ⟨_, _, st, sl, ρ, rfl, rfl, replayOps_one rfl, Ext.refl _ _, hs.push _⟩

theorem step_free (hs : Sim addr nin live r m st sl ρ)
    (he : exec sem m (.free x) = some m2) :
    StepOk sem addr nin live r m2 st sl ρ (.free x) := by
  simp only [exec] at he
  split at he
  · rename_i b hb
    simp only [Option.some.injEq] at he
    subst he
    refine ⟨_, [], st, sl, ρ, rfl, by simp [recordFree], rfl, Ext.refl _ _, ?_⟩
    obtain ⟨s, hat⟩ := hs.look x b hb
    have hxl := hs.live x (by rw [hb]; rfl)
    exact { hs with
      apart := fun y hy z hz => hs.apart y (List.mem_of_mem_filter hy) z (List.mem_of_mem_filter hz)
      live := by
        intro y hy
        by_cases e : y = x
        · simp [e] at hy
        · simp only [if_neg e] at hy
          exact List.mem_filter.2 ⟨hs.live y hy, by simp [e]⟩
      look := by
        intro y c hc
        simp only at hc
        split_ifs at hc with e
        obtain ⟨s', h'⟩ := hs.look y c hc
        refine ⟨s', { h' with map := ?_ }⟩
        have : addr y ≠ addr x := fun e' => e (hs.apart y (hs.live y (by rw [hc]; rfl)) x hxl e')
        simp only [recordFree, if_neg this]
        exact h'.map
      slDead := by
        intro y hy
        by_cases e : y = x
        · right
          simp [e]
        · simp only [if_neg e]
          exact hs.slDead y hy
      mapLive := by
        intro p t hp
        simp only [recordFree] at hp
        split_ifs at hp with e
        obtain ⟨y, hy, h1, h2⟩ := hs.mapLive p t hp
        have : y ≠ x := fun e' => e (e' ▸ h1.symm)
        exact ⟨y, by simp only [if_neg this]; exact hy, h1, h2⟩ }
  · cases he

end

end Verif.Freeze
