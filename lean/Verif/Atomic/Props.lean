import Verif.Atomic.Seq
import Verif.Ieee.Spec
import Mathlib.Data.List.Nodup

/-!
# Atomic operations on arrays (C66, C67, C68)

A kernel consists of threads.  Every thread processes packets of `w` lanes, one packet after another.
The instructions of different threads are interleaved in any way, and the plain atomic loads may return
outdated values (`Lang.lean`).
-/
namespace Verif.Atomic

variable {V : Type}

/-- Active lanes use entries of the array. -/
def InBounds (w : Nat) (t : Target) (threads : List (List (Packet V))) : Prop :=
  ∀ ps ∈ threads, ∀ p ∈ ps, ∀ i, i < w → p.mask i = true → p.index i < t.size

/-- The values that the active lanes of a kernel supply for entry `j`, in the order of the lanes -/
def contributions (w : Nat) (threads : List (List (Packet V))) (j : Nat) : List V :=
  threads.flatMap fun ps => ps.flatMap fun p =>
    ((List.range w).filter fun i => p.mask i && decide (p.index i = j)).map p.val

section
variable {P R : Type} {w : Nat} {index : P → Nat → Nat} {mask : P → Nat → Bool} {act : P → Nat → V → V × R}

theorem packetOps_nodup (t k : Nat) (p : P) : ((packetOps w index mask act t k p).map LaneOp.lane).Nodup := by
  unfold packetOps
  rw [List.map_map]
  refine List.Nodup.map ?_ (List.nodup_range.filter _)
  intro i j h
  simp only [Function.comp_apply, Prod.mk.injEq, true_and] at h
  exact h

theorem threadOps_nodup (t k : Nat) (ps : List P) : ((threadOps w index mask act t k ps).map LaneOp.lane).Nodup := by
  induction ps generalizing k with
  | nil => exact List.nodup_nil
  | cons p ps ih =>
    rw [threadOps, List.map_append]
    refine List.nodup_append.2 ⟨packetOps_nodup t k p, ih (k + 1), ?_⟩
    intro a ha b hb e
    subst e
    obtain ⟨o, ho, rfl⟩ := List.mem_map.1 ha
    obtain ⟨o', ho', e⟩ := List.mem_map.1 hb
    obtain ⟨n, q, _, h2⟩ := mem_threadOps ho'
    obtain ⟨i, _, _, rfl⟩ := mem_packetOps h2
    obtain ⟨i', _, _, rfl⟩ := mem_packetOps ho
    simp only [Prod.mk.injEq] at e
    omega

theorem kernelOps_nodup (t : Nat) (pss : List (List P)) : ((kernelOps w index mask act t pss).map LaneOp.lane).Nodup := by
  induction pss generalizing t with
  | nil => exact List.nodup_nil
  | cons ps pss ih =>
    rw [kernelOps, List.map_append]
    refine List.nodup_append.2 ⟨threadOps_nodup t 0 ps, ih (t + 1), ?_⟩
    intro a ha b hb e
    subst e
    obtain ⟨o, ho, rfl⟩ := List.mem_map.1 ha
    obtain ⟨o', ho', e⟩ := List.mem_map.1 hb
    obtain ⟨n, q, _, h2⟩ := mem_kernelOps ho'
    obtain ⟨_, _, _, h3⟩ := mem_threadOps h2
    obtain ⟨i, _, _, rfl⟩ := mem_packetOps h3
    obtain ⟨_, _, _, h4⟩ := mem_threadOps ho
    obtain ⟨i', _, _, rfl⟩ := mem_packetOps h4
    simp only [Prod.mk.injEq] at e
    omega

/-- Kernels whose packets return the results of their lanes (`view`) have the effect of their lanes in
some order. -/
theorem kernel_serial' {A : Type} {addr : Nat → Nat} {code : P → Act V A} {zero : R} (view : A → Nat → R)
    (hinj : Function.Injective addr) {threads : List (List P)}
    (h : ∀ ps ∈ threads, ∀ p ∈ ps, ∀ t k,
      Lin anyLe addr (fun o => OutOK zero w (mask p) t k (view o)) (code p) (packetOps w index mask act t k p) [])
    {mem mem' : Nat → V} {outs : List (List A)} (he : Ends mem (kernel code threads) mem' outs) :
    Serial (kernelOps w index mask act 0 threads) (fun j => mem (addr j)) (fun j => mem' (addr j))
      (laneResult (outs.map (List.map view))) ∧
    (∀ t k i ps p, threads[t]? = some ps → ps[k]? = some p → i < w → mask p i = false →
      laneResult (outs.map (List.map view)) (t, k, i) = some zero) ∧
    ∀ l, (∀ j, addr j ≠ l) → mem' l = mem l := by
  obtain ⟨⟨order, rs, h1, h2, h3⟩, h4⟩ := kernel_serial (OK := fun p t k o => OutOK zero w (mask p) t k (view o))
    (fun _ => trivial) (fun _ _ _ _ _ => trivial) hinj
    (fun p t k a l l' hl ho => OutOK.mono hl ho) h (fun _ _ _ _ _ _ => trivial) he
  have hres : ∀ t k i as a, outs[t]? = some as → as[k]? = some a →
      laneResult (outs.map (List.map view)) (t, k, i) = some (view a i) := by
    intro t k i as a ha hb
    simp [laneResult, List.getElem?_map, ha, hb]
  refine ⟨⟨order, rs, h1, h2, fun o ho => ?_⟩, fun t k i ps p hps hp hi hm => ?_, h4⟩
  · obtain ⟨t, ps, hps, h5⟩ := mem_kernelOps ho
    obtain ⟨k, p, hp, h6⟩ := mem_threadOps h5
    obtain ⟨i, hi, hm, rfl⟩ := mem_packetOps h6
    obtain ⟨as, a, g1, g2, g3⟩ := h3 t ps k p hps hp
    rw [Nat.zero_add, Nat.zero_add]
    exact ⟨view a i, hres t k i as a g1 g2, (g3 i hi).1 hm⟩
  · obtain ⟨as, a, g1, g2, g3⟩ := h3 t ps k p hps hp
    rw [hres t k i as a g1 g2, (g3 i hi).2 hm]

theorem kernel_safe' {A : Type} {addr : Nat → Nat} {code : P → Act V A} {zero : R} (view : A → Nat → R)
    (hinj : Function.Injective addr) {threads : List (List P)}
    (h : ∀ ps ∈ threads, ∀ p ∈ ps, ∀ t k,
      Lin anyLe addr (fun o => OutOK zero w (mask p) t k (view o)) (code p) (packetOps w index mask act t k p) [])
    (mem : Nat → V) : Safe mem (kernel code threads) :=
  kernel_safe (OK := fun p t k o => OutOK zero w (mask p) t k (view o))
    (fun _ => trivial) (fun _ _ _ _ _ => trivial) hinj
    (fun p t k a l l' hl ho => OutOK.mono hl ho) h (fun _ _ _ _ _ _ => trivial) mem

end

/-! ### Reductions -/

theorem uses_red (op : V → V → V) (w : Nat) (threads : List (List (Packet V))) (t j : Nat) (v : V) :
    (uses (kernelOps w Packet.index Packet.mask (fun p i => opReduce op (p.val i)) t threads) j).foldl (fun v o => (o.act v).1) v =
      (contributions w threads j).foldl op v := by
  have hp : ∀ (t k : Nat) (p : Packet V) (v : V),
      (uses (packetOps w Packet.index Packet.mask (fun p i => opReduce op (p.val i)) t k p) j).foldl (fun v o => (o.act v).1) v =
        (((List.range w).filter fun i => p.mask i && decide (p.index i = j)).map p.val).foldl op v := by
    intro t k p v
    unfold uses packetOps
    rw [List.filter_map, List.filter_filter, List.foldl_map, List.foldl_map]
    have e : (List.range w).filter (fun i => ((fun o : LaneOp LaneId V Unit => decide (o.entry = j)) ∘
        fun i => ({ lane := (t, k, i), entry := p.index i, act := opReduce op (p.val i) } : LaneOp LaneId V Unit)) i && p.mask i) =
        (List.range w).filter fun i => p.mask i && decide (p.index i = j) := by
      refine List.filter_congr fun i _ => ?_
      rw [Bool.and_comm]; rfl
    rw [e]
    rfl
  have ht : ∀ (t k : Nat) (ps : List (Packet V)) (v : V),
      (uses (threadOps w Packet.index Packet.mask (fun p i => opReduce op (p.val i)) t k ps) j).foldl (fun v o => (o.act v).1) v =
        (ps.flatMap fun p => ((List.range w).filter fun i => p.mask i && decide (p.index i = j)).map p.val).foldl op v := by
    intro t k ps v
    induction ps generalizing k v with
    | nil => rfl
    | cons p ps ih =>
      simp only [uses, threadOps, List.filter_append, List.foldl_append, List.flatMap_cons] at ih ⊢
      rw [ih, hp t k p v]
  unfold contributions
  induction threads generalizing t v with
  | nil => rfl
  | cons ps pss ih =>
    simp only [uses, kernelOps, List.filter_append, List.foldl_append, List.flatMap_cons] at ih ⊢
    rw [ih, ht t 0 ps v]

theorem reduce_spec {r : Red V} (h : r.OK) {t : Target} {w : Nat} {threads : List (List (Packet V))}
    {code : Packet V → Act V Unit}
    (hc : ∀ ps ∈ threads, ∀ p ∈ ps, ∀ a k, Lin r.Le t.addr anyQ (code p) (redOps r w a k p) [])
    {mem mem' : Nat → V} {outs : List (List Unit)} (he : Ends mem (kernel code threads) mem' outs) :
    (∀ j, mem' (t.addr j) = (contributions w threads j).foldl r.op (mem (t.addr j))) ∧
    ∀ l, (∀ j, t.addr j ≠ l) → mem' l = mem l := by
  obtain ⟨⟨order, rs, h1, h2, _⟩, h4⟩ := kernel_serial (OK := fun _ _ _ => anyQ) h.refl h.trans t.addr_inj
    (fun _ _ _ _ _ _ _ _ => trivial) hc (fun _ _ p _ i v => ⟨p.val i, rfl⟩) he
  refine ⟨fun j => ?_, h4⟩
  have h5 := congrFun (congrArg Prod.fst h2) j
  rw [seqRun_uses] at h5
  have hperm : (uses order j).Perm (uses (kernelOps w Packet.index Packet.mask (fun p i => opReduce r.op (p.val i)) 0 threads) j) :=
    h1.filter _
  rw [List.Perm.foldl_eq' hperm ?_, uses_red] at h5
  · exact h5.symm
  · have hm : ∀ x ∈ uses order j, ∃ y, x.act = opReduce r.op y := by
      intro x hx
      have hx' := h1.subset (List.mem_filter.1 hx).1
      obtain ⟨_, _, _, g⟩ := mem_kernelOps hx'
      obtain ⟨_, _, _, g⟩ := mem_threadOps g
      obtain ⟨i, _, _, rfl⟩ := mem_packetOps g
      exact ⟨_, rfl⟩
    intro x hx y hy z
    obtain ⟨a, ha⟩ := hm x hx
    obtain ⟨b, hb⟩ := hm y hy
    simp only [ha, hb, opReduce]
    rw [h.assoc, h.comm a, ← h.assoc]

/-- **C66** (mode `Direct`): after a scatter-reduction to an array of integers, every entry is the initial
value combined with the values of all active lanes that refer to it; everything else is unchanged. -/
theorem C66_reduce_direct {n : Nat} {signed : Bool} {op : IntOp} {t : Target} (ht : t.OK) {w : Nat}
    {threads : List (List (Packet (BitVec n)))} (hb : InBounds w t threads) {mem mem' : Nat → BitVec n} {outs : List (List Unit)}
    (he : Ends mem (kernel (direct (intRed n signed op) t w) threads) mem' outs) :
    (∀ j, mem' (t.addr j) = (contributions w threads j).foldl (op.eval signed) (mem (t.addr j))) ∧
    ∀ l, (∀ j, t.addr j ≠ l) → mem' l = mem l := by
  have := reduce_spec (intRed_ok n signed op) (fun ps hps p hp a k => direct_lin (intRed_ok n signed op) ht (hb ps hps p hp) a k) he
  rwa [show (intRed n signed op).op = op.eval signed from intOp_eval signed op] at this

/-- **C66** (mode `Local`): the same if no entry lies at a multiple of `2^(32+shift)` bytes, see
`C66_local_counterexample`. -/
theorem C66_reduce_local_partial {n : Nat} {signed : Bool} {op : IntOp} {t : Target} (ht : t.OK) (hz : t.NoZero) {w : Nat}
    {threads : List (List (Packet (BitVec n)))} (hb : InBounds w t threads) {mem mem' : Nat → BitVec n} {outs : List (List Unit)}
    (he : Ends mem (kernel (local_ (intRed n signed op) t w) threads) mem' outs) :
    (∀ j, mem' (t.addr j) = (contributions w threads j).foldl (op.eval signed) (mem (t.addr j))) ∧
    ∀ l, (∀ j, t.addr j ≠ l) → mem' l = mem l := by
  have := reduce_spec (intRed_ok n signed op) (fun ps hps p hp a k => local_lin (intRed_ok n signed op) ht hz (hb ps hps p hp) a k) he
  rwa [show (intRed n signed op).op = op.eval signed from intOp_eval signed op] at this

/-- **C66**: reductions end, whatever the order of the instructions. -/
theorem C66_reduce_safe {n : Nat} {signed : Bool} {op : IntOp} {t : Target} (ht : t.OK) {w : Nat}
    {threads : List (List (Packet (BitVec n)))} (hb : InBounds w t threads) (mem : Nat → BitVec n) :
    Safe mem (kernel (direct (intRed n signed op) t w) threads) ∧
    (t.NoZero → Safe mem (kernel (local_ (intRed n signed op) t w) threads)) := by
  have h := intRed_ok n signed op
  constructor
  · exact kernel_safe (OK := fun _ _ _ => anyQ) h.refl h.trans t.addr_inj (fun _ _ _ _ _ _ _ _ => trivial)
      (fun ps hps p hp a k => direct_lin h ht (hb ps hps p hp) a k) (fun _ _ p _ i v => ⟨p.val i, rfl⟩) mem
  · intro hz
    exact kernel_safe (OK := fun _ _ _ => anyQ) h.refl h.trans t.addr_inj (fun _ _ _ _ _ _ _ _ => trivial)
      (fun ps hps p hp a k => local_lin h ht hz (hb ps hps p hp) a k) (fun _ _ p _ i v => ⟨p.val i, rfl⟩) mem

theorem directLoop_any {r : Red V} (h : r.skip = none) {t : Target} (ht : t.OK) {p : Packet V} {w : Nat}
    (hi : ∀ i, i < w → p.mask i = true → p.index i < t.size) (a k n : Nat) (hn : n ≤ w) (past : List (LaneId × Unit)) :
    Lin anyLe t.addr anyQ (directLoop r (t.ptr p) p.val p.mask w n)
      (((List.range' (w - n) n).filter p.mask).map (redLane r p a k)) past := by
  induction n generalizing past with
  | zero => exact ⟨fun o ho => by simp at ho, trivial⟩
  | succ n ih =>
    unfold directLoop atomic
    have e : List.range' (w - (n + 1)) (n + 1) = (w - (n + 1)) :: List.range' (w - n) n := by
      rw [List.range'_succ, show w - (n + 1) + 1 = w - n by omega]
    rw [e, List.filter_cons]
    by_cases hm : p.mask (w - (n + 1)) = true
    · simp only [if_pos hm, h]
      rw [List.map_cons]
      exact ⟨[redLane r p a k (w - (n + 1))], _, p.index (w - (n + 1)), List.Perm.refl _,
        (ptr_addr ht (hi _ (by omega) hm)).symm, fun y hy => by rw [List.mem_singleton.1 hy]; rfl,
        fun v => ⟨rfl, ih (by omega) _⟩⟩
    · simp only [if_neg hm]
      exact ih (by omega) past

/-- **C66** (mode `Direct`, any operation that is not a minimum or maximum, for example the sum of floats,
which is neither associative nor exact): every active lane updates its entry exactly once, one lane after
another in some order; no update is lost or repeated. -/
theorem C66_reduce_direct_any {r : Red V} (h : r.skip = none) {t : Target} (ht : t.OK) {w : Nat}
    {threads : List (List (Packet V))} (hb : InBounds w t threads) {mem mem' : Nat → V} {outs : List (List Unit)}
    (he : Ends mem (kernel (direct r t w) threads) mem' outs) :
    (∃ order, order.Perm (kernelOps w Packet.index Packet.mask (fun p i => opReduce r.op (p.val i)) 0 threads) ∧
      (seqRun order fun j => mem (t.addr j)).1 = fun j => mem' (t.addr j)) ∧
    ∀ l, (∀ j, t.addr j ≠ l) → mem' l = mem l := by
  obtain ⟨⟨order, rs, h1, h2, _⟩, h4⟩ := kernel_serial (OK := fun _ _ _ => anyQ) (Le := anyLe) (fun _ => trivial) (fun _ _ _ _ _ => trivial)
    t.addr_inj (fun _ _ _ _ _ _ _ _ => trivial)
    (fun ps hps p hp a k => by
      have := directLoop_any h ht (hb ps hps p hp) a k w (Nat.le_refl _) []
      rw [Nat.sub_self, ← List.range_eq_range'] at this
      exact this) (fun _ _ p _ i v => trivial) he
  exact ⟨⟨order, h1, by rw [h2]⟩, h4⟩

/-- Two threads; entry 3 is used twice by a packet of the first thread and by the second thread. -/
example : ∃ (t : Target) (threads : List (List (Packet (BitVec 32)))) (mem' : Nat → BitVec 32) (outs : List (List Unit)),
    t.OK ∧ t.NoZero ∧ InBounds 2 t threads ∧ contributions 2 threads 3 = [10, 11, 20] ∧
      Ends (fun _ => 100) (kernel (local_ (intRed 32 false .max) t 2) threads) mem' outs := by
  let p : Packet (BitVec 32) := ⟨fun _ => 3, fun i => 10 + BitVec.ofNat 32 i, fun _ => true⟩
  let q : Packet (BitVec 32) := ⟨fun i => 3 + i, fun _ => 20, fun i => decide (i = 0)⟩
  have ht : (⟨4096, 2, 8⟩ : Target).OK := ⟨by decide, by decide, by decide, by decide⟩
  have hz : (⟨4096, 2, 8⟩ : Target).NoZero := by
    intro j hj hd
    have hj' : j < 8 := hj
    obtain ⟨c, hc⟩ := hd
    simp only [Target.addr] at hc
    omega
  have hb : InBounds 2 ⟨4096, 2, 8⟩ [[p], [q]] := by
    intro ps hps pk hpk i hi hm
    simp only [List.mem_cons, List.not_mem_nil, or_false] at hps
    rcases hps with rfl | rfl
    · rw [List.mem_singleton.1 hpk]; exact (by decide : 3 < 8)
    · rw [List.mem_singleton.1 hpk] at hm ⊢
      rw [show i = 0 from of_decide_eq_true hm]; decide
  obtain ⟨mem', outs, he⟩ := ends_exists ((C66_reduce_safe (n := 32) (signed := false) (op := .max) ht hb fun _ => 100).2 hz)
  exact ⟨_, [[p], [q]], mem', outs, ht, hz, hb, rfl, he⟩

/-- **C66**: in the mode `Local`, lanes that are switched off take part if an entry lies at a multiple of
`2^(32+shift)` bytes: 5 is added, but the entry grows by 12. -/
theorem C66_local_counterexample : ∃ (t : Target) (p : Packet (BitVec 32)) (mem mem' : Nat → BitVec 32) (outs : List (List Unit)),
    t.OK ∧ InBounds 2 t [[p]] ∧ contributions 2 [[p]] 0 = [5] ∧
    Ends mem (kernel (local_ (intRed 32 false .add) t 2) [[p]]) mem' outs ∧ mem' (t.addr 0) = mem (t.addr 0) + 12 := by
  let p : Packet (BitVec 32) := ⟨fun _ => 0, fun i => if i = 0 then 5 else 7, fun i => decide (i = 0)⟩
  let t : Target := ⟨2 ^ 34, 2, 1⟩
  refine ⟨t, p, fun _ => 0, fun x => if x = 2 ^ 34 then 12 else 0, [[()]], ⟨by decide, by decide, by decide, by decide⟩, ?_, rfl, ?_, rfl⟩
  · intro ps hps q hq i hi hm
    rw [List.mem_singleton.1 hps] at hq
    rw [List.mem_singleton.1 hq]; exact Nat.one_pos
  · refine ⟨fun x => if x = 2 ^ 34 then [0] else [], ?_⟩
    have e : local_ (intRed 32 false .add) t 2 p = .rmw (2 ^ 34) (fun v => v + 12) fun _ => .pure () := by
      have h0 : t.ptr p 0 = 2 ^ 34 := by decide
      have hx : redOut (intRed 32 false .add) (fun i => if p.mask i then ptrlo t.shift (t.ptr p i) else 0) p.val 2
          (ptrlo t.shift (2 ^ 34)) = 12 := by decide
      have ha : anyLane 2 (fun i => (intRed 32 false .add).ne (intRed 32 false .add).id (p.val i) && p.mask i) = true := by decide
      have hb : ∀ f : Nat → Bool, anyLane 2 (fun j => f j &&
          decide (ptrlo t.shift (2 ^ 34) ≠ if p.mask j then ptrlo t.shift (t.ptr p j) else 0)) = false := by
        intro f
        have h1 : decide (ptrlo t.shift (2 ^ 34) ≠ if p.mask 0 then ptrlo t.shift (t.ptr p 0) else 0) = false := by decide
        have h2 : decide (ptrlo t.shift (2 ^ 34) ≠ if p.mask 1 then ptrlo t.shift (t.ptr p 1) else 0) = false := by decide
        simp only [anyLane, List.range_succ, List.range_zero, List.nil_append, List.any_append, List.any_cons, List.any_nil,
          h1, h2, Bool.and_false, Bool.or_false]
      unfold local_
      simp only [localLoop, ha, if_true]
      rw [if_pos (by decide)]
      simp only [Nat.sub_self, Nat.reduceAdd, h0, hx, hb, Bool.false_eq_true, if_false]
      rfl
    have hk : kernel (local_ (intRed 32 false .add) t 2) [[p]] = [.rmw (2 ^ 34) (fun v => v + 12) fun _ => .pure [()]] := by
      simp only [kernel, List.map_cons, List.map_nil, Act.seq, e, Act.bind]
    rw [hk]
    refine .tail (.refl _) ?_
    have := Step.rmw (start (fun _ => (0 : BitVec 32)) [.rmw (2 ^ 34) (fun v => v + 12) fun _ => .pure [()]]) 0 (2 ^ 34)
      (fun v => v + 12) (fun _ => .pure [()]) rfl
    exact this

open Classical in
/-- `fcmp one` on floats with 8 bits for the exponent and 23 bits for the fraction: both are numbers, and
they differ (llvm_scatter.cpp:238). -/
noncomputable def fcmpOne (a b : BitVec 32) : Bool :=
  decide ((Ieee.decode 8 23 a.toNat).lt (Ieee.decode 8 23 b.toNat) ∨ (Ieee.decode 8 23 b.toNat).lt (Ieee.decode 8 23 a.toNat))

/-- **C66**: in the mode `Local`, a sum of floats silently ignores a lane whose value is not a number
(bit pattern `0x7fc00000`), whatever the addition does; in the mode `Direct` it is added. -/
theorem C66_local_nan_counterexample (add : BitVec 32 → BitVec 32 → BitVec 32) (t : Target) (mem : Nat → BitVec 32) :
    let nan : Packet (BitVec 32) := ⟨fun _ => 0, fun _ => 0x7fc00000#32, fun _ => true⟩
    let r : Red (BitVec 32) := { op := add, id := 0, skip := none, ne := fcmpOne }
    Ieee.decode 8 23 (nan.val 0).toNat = .nan ∧
    (∀ mem' outs, Ends mem (kernel (local_ r t 1) [[nan]]) mem' outs → mem' = mem) ∧
    direct r t 1 nan = .rmw (t.ptr nan 0) (fun v => add v 0x7fc00000#32) fun _ => .pure () := by
  intro nan r
  have hd : Ieee.decode 8 23 (nan.val 0).toNat = .nan := by
    unfold Ieee.decode
    rw [if_pos (by decide), if_neg (by decide)]
  have hne : r.ne r.id (nan.val 0) = false := by
    have : ¬ ((Ieee.decode 8 23 r.id.toNat).lt (Ieee.decode 8 23 (nan.val 0).toNat) ∨
        (Ieee.decode 8 23 (nan.val 0).toNat).lt (Ieee.decode 8 23 r.id.toNat)) := by
      rw [hd]
      cases Ieee.decode 8 23 r.id.toNat <;> simp [Ieee.FP.lt]
    change fcmpOne r.id (nan.val 0) = false
    unfold fcmpOne
    rw [decide_eq_false_iff_not]
    exact this
  refine ⟨hd, fun mem' outs he => ?_, rfl⟩
  have e : local_ r t 1 nan = .pure () := by
    unfold local_ localLoop
    have : anyLane 1 (fun i => r.ne r.id (nan.val i) && nan.mask i) = false := by
      simp [anyLane, hne]
    rw [this]
    rfl
  have hk : kernel (local_ r t 1) [[nan]] = [.pure [()]] := by
    simp only [kernel, List.map_cons, List.map_nil, Act.seq, e, Act.bind]
  rw [hk] at he
  obtain ⟨old, hs⟩ := he
  have key : ∀ s, Steps (start mem [.pure [()]]) s → s.mem = mem ∧ s.thr = [.pure [()]] := by
    intro s hs
    induction hs with
    | refl => exact ⟨rfl, rfl⟩
    | tail _ hst ih =>
      exfalso
      cases hst with
      | load i l k v hi _ =>
        rw [ih.2] at hi
        cases i <;> simp at hi
      | rmw i l f k hi =>
        rw [ih.2] at hi
        cases i <;> simp at hi
  exact (key _ hs).1

/-! ### Increments -/

/-- The active lanes that use entry `j` -/
def lanesOf {P : Type} (index : P → Nat → Nat) (mask : P → Nat → Bool) (w : Nat) (threads : List (List P)) (j : Nat) : List LaneId :=
  (uses (kernelOps w index mask (fun _ _ v => (v, ())) 0 threads : List (LaneOp LaneId Unit Unit)) j).map LaneOp.lane

theorem uses_lanes {P V R : Type} {index : P → Nat → Nat} {mask : P → Nat → Bool} {act : P → Nat → V → V × R} (w t : Nat)
    (threads : List (List P)) (j : Nat) :
    (uses (kernelOps w index mask act t threads) j).map LaneOp.lane =
      (uses (kernelOps w index mask (fun _ _ v => (v, ())) t threads : List (LaneOp LaneId Unit Unit)) j).map LaneOp.lane := by
  have hp : ∀ (t k : Nat) (p : P), (uses (packetOps w index mask act t k p) j).map LaneOp.lane =
      (uses (packetOps w index mask (fun _ _ v => (v, ())) t k p : List (LaneOp LaneId Unit Unit)) j).map LaneOp.lane := by
    intro t k p
    unfold uses packetOps
    rw [List.filter_map, List.filter_map, List.map_map, List.map_map]
    rfl
  have ht : ∀ (t k : Nat) (ps : List P), (uses (threadOps w index mask act t k ps) j).map LaneOp.lane =
      (uses (threadOps w index mask (fun _ _ v => (v, ())) t k ps : List (LaneOp LaneId Unit Unit)) j).map LaneOp.lane := by
    intro t k ps
    induction ps generalizing k with
    | nil => rfl
    | cons p ps ih =>
      simp only [uses, threadOps, List.filter_append, List.map_append] at ih ⊢
      rw [ih, hp t k p]
  induction threads generalizing t with
  | nil => rfl
  | cons ps pss ih =>
    simp only [uses, kernelOps, List.filter_append, List.map_append] at ih ⊢
    rw [ih, ht t 0 ps]

/-- **C67**: the active lanes of a scatter-increment that use an entry with value `m` receive the numbers
`m`, `m+1`, ... (each once, in some order); the counter grows by their number; lanes that are switched
off receive zero; everything else is unchanged. -/
theorem C67_inc {t : Target} (ht : t.OK) {w : Nat} (hw : w ≤ 32) {threads : List (List (Packet (BitVec 32)))}
    (hb : InBounds w t threads) {mem mem' : Nat → BitVec 32} {outs : List (List (Nat → BitVec 32))}
    (he : Ends mem (kernel (inc t w) threads) mem' outs) :
    (∀ j, let lanes := lanesOf Packet.index Packet.mask w threads j
      mem' (t.addr j) = mem (t.addr j) + BitVec.ofNat 32 lanes.length ∧
      (lanes.map (laneResult outs)).Perm ((List.range lanes.length).map fun m => some (mem (t.addr j) + BitVec.ofNat 32 m))) ∧
    (∀ a k i ps p, threads[a]? = some ps → ps[k]? = some p → i < w → p.mask i = false → laneResult outs (a, k, i) = some 0) ∧
    ∀ l, (∀ j, t.addr j ≠ l) → mem' l = mem l := by
  obtain ⟨⟨order, rs, h1, h2, h3⟩, h4, h5⟩ := kernel_serial' (zero := (0 : BitVec 32)) (fun o => o) t.addr_inj
    (fun ps hps p hp a k => inc_lin ht hw (hb ps hps p hp) a k) he
  have hid : outs.map (List.map fun o : Nat → BitVec 32 => o) = outs := by
    rw [show (fun o : Nat → BitVec 32 => o) = id from rfl, show List.map (id : (Nat → BitVec 32) → _) = id from funext List.map_id]
    exact List.map_id _
  rw [hid] at h3 h4
  refine ⟨fun j => ?_, h4, h5⟩
  intro lanes
  have hn : (order.map LaneOp.lane).Nodup := (h1.map LaneOp.lane).nodup_iff.2 (kernelOps_nodup 0 threads)
  have hact : ∀ o ∈ order, o.act = opInc := by
    intro o ho
    obtain ⟨_, _, _, g⟩ := mem_kernelOps (h1.subset ho)
    obtain ⟨_, _, _, g⟩ := mem_threadOps g
    obtain ⟨i, _, _, rfl⟩ := mem_packetOps g
    rfl
  have h6 := seqRun_inc order hact (fun j => mem (t.addr j)) (laneResult outs) hn
    (fun y hy => by rw [h2]; exact h3 y (h1.subset hy)) j
  rw [h2] at h6
  have hperm : (uses order j).Perm (uses (kernelOps w Packet.index Packet.mask (fun _ _ => opInc) 0 threads) j) := h1.filter _
  have hl : ((uses order j).map LaneOp.lane).Perm lanes := by
    have := hperm.map LaneOp.lane
    rwa [uses_lanes] at this
  have hlen : (uses order j).length = lanes.length := by
    rw [← hl.length_eq, List.length_map]
  rw [hlen] at h6
  refine ⟨h6.1, ?_⟩
  have := hl.map (laneResult outs)
  rw [List.map_map] at this
  rw [← h6.2]
  exact this.symm

/-- **C67**: no two lanes receive the same number, unless there are more than `2^32` of them. -/
theorem C67_inc_distinct {t : Target} (ht : t.OK) {w : Nat} (hw : w ≤ 32) {threads : List (List (Packet (BitVec 32)))}
    (hb : InBounds w t threads) {mem mem' : Nat → BitVec 32} {outs : List (List (Nat → BitVec 32))}
    (he : Ends mem (kernel (inc t w) threads) mem' outs) (j : Nat)
    (hl : (lanesOf Packet.index Packet.mask w threads j).length ≤ 2 ^ 32) :
    ((lanesOf Packet.index Packet.mask w threads j).map (laneResult outs)).Nodup := by
  refine ((C67_inc ht hw hb he).1 j).2.nodup_iff.2 ?_
  refine List.Nodup.map_on ?_ List.nodup_range
  intro x hx y hy e
  have hx := List.mem_range.1 hx
  have hy := List.mem_range.1 hy
  have e := congrArg BitVec.toNat (Option.some.inj e)
  simp only [BitVec.toNat_add, BitVec.toNat_ofNat, Nat.add_mod_mod] at e
  have := (mem (t.addr j)).isLt
  omega

/-- **C67**: increments end, whatever the order of the instructions. -/
theorem C67_inc_safe {t : Target} (ht : t.OK) {w : Nat} (hw : w ≤ 32) {threads : List (List (Packet (BitVec 32)))}
    (hb : InBounds w t threads) (mem : Nat → BitVec 32) : Safe mem (kernel (inc t w) threads) :=
  kernel_safe' (zero := (0 : BitVec 32)) (fun o => o) t.addr_inj (fun ps hps p hp a k => inc_lin ht hw (hb ps hps p hp) a k) mem

/-- Two threads; lane 1 of the first thread is switched off. -/
example : ∃ (t : Target) (threads : List (List (Packet (BitVec 32)))) (mem' : Nat → BitVec 32) (outs : List (List (Nat → BitVec 32))),
    t.OK ∧ InBounds 3 t threads ∧ lanesOf Packet.index Packet.mask 3 threads 0 = [(0, 0, 0), (0, 0, 2), (1, 0, 0)] ∧
      Ends (fun _ => 100) (kernel (inc t 3) threads) mem' outs := by
  let p : Packet (BitVec 32) := ⟨fun _ => 0, fun _ => 0, fun i => decide (i ≠ 1)⟩
  let q : Packet (BitVec 32) := ⟨fun i => i, fun _ => 0, fun _ => true⟩
  have ht : (⟨4096, 2, 8⟩ : Target).OK := ⟨by decide, by decide, by decide, by decide⟩
  have hb : InBounds 3 ⟨4096, 2, 8⟩ [[p], [q]] := by
    intro ps hps pk hpk i hi hm
    simp only [List.mem_cons, List.not_mem_nil, or_false] at hps
    rcases hps with rfl | rfl
    · rw [List.mem_singleton.1 hpk]; exact (by decide : 0 < 8)
    · rw [List.mem_singleton.1 hpk]
      change i < 8
      omega
  obtain ⟨mem', outs, he⟩ := ends_exists (C67_inc_safe ht (by decide) hb fun _ => 100)
  exact ⟨_, [[p], [q]], mem', outs, ht, hb, by decide, he⟩

/-! ### Exchange, compare and exchange -/

/-- The value that a lane writes -/
def laneVal (threads : List (List (Packet V))) (l : LaneId) : Option V :=
  (threads[l.1]?.bind fun ps => ps[l.2.1]?).map fun p => p.val l.2.2

/-- **C68**: exchanges on an entry happen in some order: the first lane receives the initial value, every
further lane receives what the previous one wrote, and the value of the last one remains.  Lanes
that are switched off receive zero; everything else is unchanged. -/
theorem C68_exch_partial {zero : V} {t : Target} (ht : t.OK) {w : Nat} {threads : List (List (Packet V))} (hb : InBounds w t threads)
    {mem mem' : Nat → V} {outs : List (List (Nat → V))} (he : Ends mem (kernel (exch zero false t w) threads) mem' outs) :
    (∀ j, ∃ order : List LaneId, order.Perm (lanesOf Packet.index Packet.mask w threads j) ∧
      some (mem (t.addr j)) :: order.map (laneVal threads) = order.map (laneResult outs) ++ [some (mem' (t.addr j))]) ∧
    (∀ a k i ps p, threads[a]? = some ps → ps[k]? = some p → i < w → p.mask i = false → laneResult outs (a, k, i) = some zero) ∧
    ∀ l, (∀ j, t.addr j ≠ l) → mem' l = mem l := by
  obtain ⟨⟨order, rs, h1, h2, h3⟩, h4, h5⟩ := kernel_serial' (zero := zero) (fun o => o) t.addr_inj
    (fun ps hps p hp a k => exch_lin (zero := zero) ht (hb ps hps p hp) a k) he
  have hid : outs.map (List.map fun o : Nat → V => o) = outs := by
    rw [show (fun o : Nat → V => o) = id from rfl, show List.map (id : (Nat → V) → _) = id from funext List.map_id]
    exact List.map_id _
  rw [hid] at h3 h4
  refine ⟨fun j => ⟨(uses order j).map LaneOp.lane, ?_, ?_⟩, h4, h5⟩
  · have hperm : (uses order j).Perm (uses (kernelOps w Packet.index Packet.mask (fun p i => opExch (p.val i)) 0 threads) j) := h1.filter _
    have := hperm.map LaneOp.lane
    rwa [uses_lanes] at this
  · have hn : (order.map LaneOp.lane).Nodup := (h1.map LaneOp.lane).nodup_iff.2 (kernelOps_nodup 0 threads)
    have hact : ∀ o ∈ order, ∃ v, laneVal threads o.lane = some v ∧ o.act = opExch v := by
      intro o ho
      obtain ⟨a, ps, hps, g⟩ := mem_kernelOps (h1.subset ho)
      obtain ⟨k, p, hp, g⟩ := mem_threadOps g
      obtain ⟨i, _, _, rfl⟩ := mem_packetOps g
      refine ⟨p.val i, ?_, rfl⟩
      simp [laneVal, hps, hp]
    have h6 := seqRun_exch order (laneVal threads) hact (fun j => mem (t.addr j)) (laneResult outs) hn
      (fun y hy => by rw [h2]; exact h3 y (h1.subset hy)) j
    rw [h2] at h6
    rw [List.map_map, List.map_map]
    exact h6

/-- Arguments of a compare and exchange operation: the values that are compared, and the rest -/
abbrev CasPacket (V : Type) := (Nat → V) × Packet V

/-- Results of the lanes: previous value and success -/
def casView (o : (Nat → V) × (Nat → Bool)) (i : Nat) : V × Bool := (o.1 i, o.2 i)

/-- **C68**: compare and exchange operations happen one after another in some order: an active lane
compares the value of its entry, replaces it if it is equal, and returns the previous value and whether
it was equal.  Lanes that are switched off receive zero and `false`; everything else is unchanged. -/
theorem C68_cas_partial [DecidableEq V] {zero : V} {t : Target} (ht : t.OK) {w : Nat} {threads : List (List (CasPacket V))}
    (hb : InBounds w t (threads.map (List.map Prod.snd)))
    {mem mem' : Nat → V} {outs : List (List ((Nat → V) × (Nat → Bool)))}
    (he : Ends mem (kernel (fun q => cas zero false t w q.1 q.2) threads) mem' outs) :
    Serial (kernelOps w (fun q => q.2.index) (fun q => q.2.mask) (fun q i => opCas (q.1 i) (q.2.val i)) 0 threads)
      (fun j => mem (t.addr j)) (fun j => mem' (t.addr j)) (laneResult (outs.map (List.map casView))) ∧
    (∀ a k i ps p, threads[a]? = some ps → ps[k]? = some p → i < w → p.2.mask i = false →
      laneResult (outs.map (List.map casView)) (a, k, i) = some (zero, false)) ∧
    ∀ l, (∀ j, t.addr j ≠ l) → mem' l = mem l :=
  kernel_serial' (zero := (zero, false)) casView t.addr_inj (fun ps hps q hq a k =>
    cas_lin (zero := zero) ht (hb _ (List.mem_map.2 ⟨ps, hps, rfl⟩) q.2 (List.mem_map.2 ⟨q, hq, rfl⟩)) a k) he

/-- **C68**: exactly one of the lanes that try to replace the same value of an entry succeeds; the others
fail and receive what the winner wrote. -/
theorem C68_cas_winner_partial [DecidableEq V] {zero c : V} {t : Target} (ht : t.OK) {w : Nat} {threads : List (List (CasPacket V))}
    (hb : InBounds w t (threads.map (List.map Prod.snd)))
    (hc : ∀ ps ∈ threads, ∀ q ∈ ps, ∀ i, i < w → q.2.mask i = true → q.1 i = c ∧ q.2.val i ≠ c)
    {mem mem' : Nat → V} {outs : List (List ((Nat → V) × (Nat → Bool)))}
    (he : Ends mem (kernel (fun q => cas zero false t w q.1 q.2) threads) mem' outs) (j : Nat) (hj : mem (t.addr j) = c)
    (hne : lanesOf (fun q : CasPacket V => q.2.index) (fun q => q.2.mask) w threads j ≠ []) :
    ∃ win ∈ lanesOf (fun q : CasPacket V => q.2.index) (fun q => q.2.mask) w threads j, ∃ x,
      laneVal (threads.map (List.map Prod.snd)) win = some x ∧ mem' (t.addr j) = x ∧
      laneResult (outs.map (List.map casView)) win = some (c, true) ∧
      ∀ l ∈ lanesOf (fun q : CasPacket V => q.2.index) (fun q => q.2.mask) w threads j, l ≠ win →
        laneResult (outs.map (List.map casView)) l = some (x, false) := by
  obtain ⟨⟨order, rs, h1, h2, h3⟩, _, _⟩ := C68_cas_partial ht hb he
  have hn : (order.map LaneOp.lane).Nodup := (h1.map LaneOp.lane).nodup_iff.2 (kernelOps_nodup 0 threads)
  have hvv : ∀ o ∈ order, ∃ x, laneVal (threads.map (List.map Prod.snd)) o.lane = some x ∧ x ≠ c ∧ o.act = opCas c x := by
    intro o ho
    obtain ⟨a, ps, hps, g⟩ := mem_kernelOps (h1.subset ho)
    obtain ⟨k, p, hp, g⟩ := mem_threadOps g
    obtain ⟨i, hi, hm, rfl⟩ := mem_packetOps g
    obtain ⟨g1, g2⟩ := hc ps (List.mem_of_getElem? hps) p (List.mem_of_getElem? hp) i hi hm
    refine ⟨p.2.val i, ?_, g2, by simp only [g1]⟩
    simp [laneVal, hps, hp]
  have h6 := seqRun_cas order c (fun l => (laneVal (threads.map (List.map Prod.snd)) l).getD c)
    (fun o ho => by
      obtain ⟨x, g1, g2, g3⟩ := hvv o ho
      rw [g1]; exact ⟨g2, g3⟩)
    (fun j => mem (t.addr j)) (laneResult (outs.map (List.map casView))) hn
    (fun y hy => by rw [h2]; exact h3 y (h1.subset hy)) j
  rw [h2] at h6
  have hperm : (uses order j).Perm (uses (kernelOps w (fun q : CasPacket V => q.2.index) (fun q => q.2.mask)
    (fun q i => opCas (q.1 i) (q.2.val i)) 0 threads) j) := h1.filter _
  have hl : ((uses order j).map LaneOp.lane).Perm (lanesOf (fun q : CasPacket V => q.2.index) (fun q => q.2.mask) w threads j) := by
    have := hperm.map LaneOp.lane
    rwa [uses_lanes] at this
  rcases h6.2 hj with ⟨g, _⟩ | ⟨win, g1, g2, g3, g4⟩
  · rw [g] at hl
    exact absurd hl.symm.eq_nil hne
  · obtain ⟨x, hx, _, _⟩ := hvv win (List.mem_filter.1 g1).1
    simp only [hx, Option.getD_some] at g2 g4
    refine ⟨win.lane, hl.subset (List.mem_map.2 ⟨win, g1, rfl⟩), x, hx, g2, g3, fun l hl' hlne => ?_⟩
    obtain ⟨o, ho, rfl⟩ := List.mem_map.1 (hl.symm.subset hl')
    exact g4 o ho hlne

/-- **C68**: both operations end, whatever the order of the instructions. -/
theorem C68_safe_partial [DecidableEq V] {zero : V} {t : Target} (ht : t.OK) {w : Nat} (mem : Nat → V) :
    (∀ threads : List (List (Packet V)), InBounds w t threads → Safe mem (kernel (exch zero false t w) threads)) ∧
    (∀ threads : List (List (CasPacket V)), InBounds w t (threads.map (List.map Prod.snd)) →
      Safe mem (kernel (fun q => cas zero false t w q.1 q.2) threads)) :=
  ⟨fun threads hb => kernel_safe' (zero := zero) (fun o => o) t.addr_inj
      (fun ps hps p hp a k => exch_lin (zero := zero) ht (hb ps hps p hp) a k) mem,
   fun threads hb => kernel_safe' (zero := (zero, false)) casView t.addr_inj (fun ps hps q hq a k =>
      cas_lin (zero := zero) ht (hb _ (List.mem_map.2 ⟨ps, hps, rfl⟩) q.2 (List.mem_map.2 ⟨q, hq, rfl⟩)) a k) mem⟩

/-- Two threads that try to replace zero -/
example : ∃ (t : Target) (threads : List (List (CasPacket (BitVec 32)))) (mem' : Nat → BitVec 32)
    (outs : List (List ((Nat → BitVec 32) × (Nat → Bool)))),
    t.OK ∧ InBounds 2 t (threads.map (List.map Prod.snd)) ∧
      (∀ ps ∈ threads, ∀ q ∈ ps, ∀ i, i < 2 → q.2.mask i = true → q.1 i = 0 ∧ q.2.val i ≠ 0) ∧
      lanesOf (fun q : CasPacket (BitVec 32) => q.2.index) (fun q => q.2.mask) 2 threads 0 = [(0, 0, 0), (0, 0, 1), (1, 0, 0)] ∧
      Ends (fun _ => 0) (kernel (fun q => cas 0 false t 2 q.1 q.2) threads) mem' outs := by
  let p : CasPacket (BitVec 32) := ⟨fun _ => 0, fun _ => 0, fun i => if i = 0 then 10 else 20, fun _ => true⟩
  let q : CasPacket (BitVec 32) := ⟨fun _ => 0, fun i => i, fun _ => 30, fun _ => true⟩
  have ht : (⟨4096, 2, 8⟩ : Target).OK := ⟨by decide, by decide, by decide, by decide⟩
  have hb : InBounds 2 ⟨4096, 2, 8⟩ ([[p], [q]].map (List.map Prod.snd)) := by
    intro ps hps pk hpk i hi hm
    simp only [List.map_cons, List.map_nil, List.mem_cons, List.not_mem_nil, or_false] at hps
    rcases hps with rfl | rfl
    · rw [List.mem_singleton.1 hpk]; exact (by decide : 0 < 8)
    · rw [List.mem_singleton.1 hpk]
      change i < 8
      omega
  obtain ⟨mem', outs, he⟩ := ends_exists ((C68_safe_partial (zero := (0 : BitVec 32)) ht fun _ => 0).2 _ hb)
  refine ⟨_, [[p], [q]], mem', outs, ht, hb, ?_, by decide, he⟩
  intro ps hps pk hpk i hi _
  simp only [List.mem_cons, List.not_mem_nil, or_false] at hps
  rcases hps with rfl | rfl
  · rw [List.mem_singleton.1 hpk]
    refine ⟨rfl, ?_⟩
    change (if i = 0 then (10 : BitVec 32) else 20) ≠ 0
    split <;> decide
  · rw [List.mem_singleton.1 hpk]
    refine ⟨rfl, ?_⟩
    change (30 : BitVec 32) ≠ 0
    decide

/-- **C68**: with a mask that is literally `true`, the generated loops do not end after the last lane. -/
theorem C68_unmasked_counterexample (t : Target) (mem : Nat → BitVec 32) :
    ∃ p : Packet (BitVec 32), (∀ i, p.mask i = true) ∧ ¬ Safe mem (kernel (exch 0 true t 1) [[p]]) := by
  refine ⟨⟨fun _ => 0, fun _ => 1, fun _ => true⟩, fun _ => rfl, fun h => ?_⟩
  refine h _ (.tail (.refl _) (.rmw (start mem _) 0 _ _ _ rfl)) ?_
  simp [start, kernel, exchLoop, Act.bind, Act.seq]

end Verif.Atomic
