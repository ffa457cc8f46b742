import Verif.Reduce.Props
/-!
# Where reductions of literals differ from those of arrays
-/
namespace Verif.Reduce
open Verif.Var Verif.Ops Verif.Gather
open Verif.Llvm (ROp IsReduction slice scanList num ceilDiv32)

variable {s s' : Store} {U : List Nat} {u : Nat → Nat} {ev : M Unit} {st : List Nat}
variable {evalVar : Nat → M Unit} {alloc : M (BitVec 64)} {cb : Nat → Bool} {src r k : Nat} {op : ROp}
variable {pow : Pow} {other : M Nat}

/-- **C45 fails** for reversed prefix sums if the last block is not complete: the last entry of an array
of ones is never 1. -/
theorem C45_reverse_incomplete_block (hev : EvOK ev) (hE : EvalOK evalVar) (hA : AllocOK alloc)
    (h : GReachable ev evalVar alloc cb s u st) (hw : WritesOK s) (ho : Operand s u src)
    (hl : (s.vars src).kind = .literal) (ht : (s.vars src).type = .u32) (hx : (s.vars src).literal = 1#64)
    (hk : 0 < k) (hk' : k < 2 ^ 32) (hz : (s.vars src).size < 2 ^ 32) (hd : (s.vars src).size % k ≠ 0)
    (he : varBlockPrefixReduce ev other .add src k false true s = .ok r s') :
    (∃ x, Val s' r ((s.vars src).size - 1) x) ∧
      ∀ x, PrefixValue s src k false true .add ((s.vars src).size - 1) x → ¬ Val s' r ((s.vars src).size - 1) x := by
  obtain ⟨U, hi⟩ := greachable_inv hev hE hA h
  have h0 : St s U (plus u st) := ⟨hi.2, (writesOK_iff hi.2).1 hw⟩
  have ho' : Operand s (plus u st) src := ⟨plus_pos_left ho.held, ho.sized, ho.clean, ho.lit⟩
  have hs := ho.sized
  have c := prefixSum_computes h0 ho' hl (by rw [ht]; rfl) hk hk' hz r s' he
  have cv := c.value ((s.vars src).size - 1) _ ⟨by omega, rfl⟩
  refine ⟨⟨_, (cv _).2 rfl⟩, ?_⟩
  rintro x ⟨hj, f, y, hf, rfl, hr⟩ hv
  rw [cv] at hv
  generalize hn : (s.vars src).size = n at *
  have hval := entries_lit hl hf
  -- one entry contributes
  have e1 : (n - 1) / k * k + k ≥ n := by
    have := Nat.lt_div_mul_add (a := n - 1) hk
    omega
  have e2 : scanList true false f n k (n - 1) = List.replicate 1 ((s.vars src).literal.setWidth (s.vars src).type.bits) := by
    unfold scanList
    rw [if_pos rfl, slice_rep (Nat.min_le_right _ _) hval]
    congr 1
    simp only [Bool.false_eq_true, if_false]
    omega
  rw [e2, rep_iff (.inl (by omega)), rep_one] at hr
  rw [hr] at hv
  have hv' := setWidth_inj (bits_le _) hv
  have hv'' := congrArg BitVec.toNat hv'
  unfold rep at hv''
  rw [BitVec.toNat_ofNat, hx] at hv''
  have e3 : (BitVec.setWidth (s.vars src).type.bits 1#64).toNat = 1 := by rw [ht]; rfl
  have e4 : (s.vars src).type.bits = 32 := by rw [ht]; rfl
  rw [e3, e4] at hv''
  have hlt := Nat.mod_lt (n - 1) hk
  have hc : count k false true (n - 1) = k - 1 - (n - 1) % k + 1 := rfl
  rw [hc, Nat.mul_one, Nat.mod_eq_of_lt (by omega)] at hv''
  apply hd
  have e5 : (n - 1) % k = k - 1 := by omega
  have : n = (n - 1) / k * k + k := by
    have := Nat.div_add_mod (n - 1) k
    rw [Nat.mul_comm] at this
    omega
  rw [this, Nat.add_mod_right]
  exact Nat.mul_mod_left _ _

/-- **C45 fails** for exclusive prefix minima: entry 0 should be the largest number. -/
theorem C45_exclusive_minimum (hev : EvOK ev) (hE : EvalOK evalVar) (hA : AllocOK alloc)
    (h : GReachable ev evalVar alloc cb s u st) (hw : WritesOK s) (ho : Operand s u src)
    (hl : (s.vars src).kind = .literal) (ht : (s.vars src).type = .u32) (hx : (s.vars src).literal ≠ 0xFFFFFFFF#64)
    (he : varBlockPrefixReduce ev other .min src k true false s = .ok r s') :
    Val s' r 0 (s.vars src).literal ∧
      ∀ x, PrefixValue s src k true false .min 0 x → ¬ Val s' r 0 x := by
  obtain ⟨U, hi⟩ := greachable_inv hev hE hA h
  have h0 : St s U (plus u st) := ⟨hi.2, (writesOK_iff hi.2).1 hw⟩
  have ho' : Operand s (plus u st) src := ⟨plus_pos_left ho.held, ho.sized, ho.clean, ho.lit⟩
  have key : Val s' r 0 (norm (s.vars src).type (s.vars src).literal) := by
    refine (?_ : wlp _ s (fun r s' => Val s' r 0 _)) r s' he
    clear he
    unfold varBlockPrefixReduce
    refine wlp_ite (fun e => absurd e (h0.alive ho'.held).1) (fun _ => ?_)
    refine wlp_bind (wlp_getVar ?_)
    refine wlp_ite (fun _ => ?_) (fun e => absurd ⟨by simp [Var.isLiteral, hl], .inr rfl⟩ e)
    refine wlp_mono (inc_post' h0 ho') ?_
    intro r s' p
    obtain ⟨U', a1, a2⟩ := Post.done h0 p ho.sized
    exact a2.val 0 _ (Val.literal hl)
  rw [ho.lit hl] at key
  refine ⟨key, ?_⟩
  rintro x ⟨hj, f, y, hf, rfl, hr⟩ hv
  have e := hv.unique key
  have hy : y = Llvm.maxS (s.vars src).type.isSint (s.vars src).type.bits := by
    have hr' : IsReduction (s.vars src).type.isSint .min ([] : List (BitVec (s.vars src).type.bits)) y := by
      have : scanList false true f (s.vars src).size k 0 = [] := by
        simp [scanList, slice]
      rwa [this] at hr
    exact hr'.2
  apply hx
  rw [← e, hy, ht]
  rfl

/-- **C45 fails** for products of 8-bit numbers: the number of entries is converted to the type of the
array, hence the product of 256 twos is computed as 2 to the power 0. -/
theorem C45_product_wraps (hev : EvOK ev) (hE : EvalOK evalVar) (hA : AllocOK alloc)
    (h : GReachable ev evalVar alloc cb s u st) (hw : WritesOK s) (hp : PowOK pow) (ho : Operand s u src)
    (hl : (s.vars src).kind = .literal) (ht : (s.vars src).type = .u8) (hx : (s.vars src).literal = 2#64)
    (hz : (s.vars src).size = 256) (he : varReduce pow other 0 .void .mul src s = .ok r s') :
    Val s' r 0 1#64 ∧ ∀ x, BlockValue s src 256 .mul 0 x → x = 0#64 := by
  obtain ⟨U, hi⟩ := greachable_inv hev hE hA h
  have h0 : St s U (plus u st) := ⟨hi.2, (writesOK_iff hi.2).1 hw⟩
  constructor
  · refine (?_ : wlp _ s (fun r s' => Val s' r 0 _)) r s' he
    clear he
    unfold varReduce
    refine wlp_ite (fun _ => wlp_raise) (fun _ => ?_)
    refine wlp_ite (fun e => absurd e (h0.alive (plus_pos_left ho.held)).1) (fun _ => ?_)
    refine wlp_bind (wlp_getVar ?_)
    refine wlp_ite (fun _ => wlp_raise) (fun _ => ?_)
    refine wlp_ite (fun _ => ?_) (fun e => absurd (by simp [Var.isLiteral, hl]) e)
    rw [if_pos (by omega)]
    have e : scalarReduce pow .mul (s.vars src).type (s.vars src).size (s.vars src).literal = pure 1#64 := by
      unfold scalarReduce scalarMul
      rw [ht, hx, hz]
      dsimp only
      rw [if_pos (by decide)]
      have : pow (cInt .u8 2#64) (cInt .u8 (BitVec.ofNat 64 256)) = some 1 := hp 2 0 (by decide)
      rw [this]
      rfl
    rw [e]
    refine wlp_bind (wlp_pure ?_)
    refine wlp_mono (literal_post h0 (by omega) (fun e => by rw [ht] at e; cases e)) ?_
    rintro r s' ⟨p, _⟩
    obtain ⟨U', a1, a2⟩ := Post.done h0 p (by omega)
    refine a2.val 0 _ ?_
    rw [ht]
    rfl
  · intro x hb
    obtain ⟨_, hz'⟩ := block_det hl (by omega) hb
    rw [hz', hx, hz, ht]
    decide +kernel

theorem bind_stop {α β : Type} {m : M α} {f : α → M β} {x : Stop} (h : m s = .stop x) : (m >>= f) s = .stop x := by
  simp only [bind, h]

/-- **C45 fails** for sums of signed numbers: overflow is undefined at compile time, whereas the
reduction kernel wraps around (C22). -/
theorem C45_sum_overflow (hg : Live s src) (hl : (s.vars src).kind = .literal) (ht : (s.vars src).type = .i32)
    (hx : (s.vars src).literal = 0x40000000#64) (hz : (s.vars src).size = 4) :
    varReduce pow other 0 .void .add src s = .stop .ub ∧ ∀ x, BlockValue s src 4 .add 0 x → x = 0#64 := by
  constructor
  · have hs : src ≠ 0 := by
      rintro rfl; exact absurd hg (by simp [Live, getVar])
    unfold varReduce
    rw [if_neg (by decide), if_neg hs, bind_ok hg, if_neg (by simp),
      if_pos (by simp [Var.isLiteral, hl]), if_pos (by omega), ht, hx, hz]
    exact bind_stop rfl
  · intro x hb
    obtain ⟨_, hz'⟩ := block_det hl (by omega) hb
    rw [hz', hx, hz, ht]
    decide +kernel

end Verif.Reduce
