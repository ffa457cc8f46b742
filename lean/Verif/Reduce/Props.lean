import Verif.Reduce.Block
import Verif.Reduce.Prefix
/-!
# Properties of reductions of literals
-/
namespace Verif.Reduce
open Verif.Var Verif.Ops Verif.Gather
open Verif.Llvm (ROp IsReduction slice scanList num ceilDiv32 cdiv ceilDiv32_eq)

variable {s s' : Store} {U : List Nat} {u : Nat → Nat} {ev : M Unit} {st : List Nat}
variable {evalVar : Nat → M Unit} {alloc : M (BitVec 64)} {cb : Nat → Bool} {src r k : Nat} {op : ROp}
variable {pow : Pow} {other : M Nat}

theorem blockReduce_post (h0 : St s U u) (hp : PowOK pow) (ho : Operand s u src)
    (hl : (s.vars src).kind = .literal) (ht : (s.vars src).type.isInt = true) (hk : 0 < k)
    (hz : (s.vars src).size + k ≤ 2 ^ 32)
    (hm : op = .mul → ∀ n ≤ k, ProductFits (s.vars src).type (s.vars src).literal n) :
    wlp (varBlockReduce ev pow other op src k) s (fun r s' =>
      Computes s u s' r (s.vars src).type (((s.vars src).size + k - 1) / k) (BlockValue s src k op)) := by
  have hs := ho.sized
  unfold varBlockReduce
  refine wlp_ite (fun e => absurd e (h0.alive ho.held).1) (fun _ => ?_)
  refine wlp_ite (fun e => absurd e (by omega)) (fun _ => ?_)
  refine wlp_ite (fun e => ?_) (fun e => ?_)
  · subst e
    refine wlp_mono (inc_post' h0 ho) ?_
    intro r s' p
    have p' : Post s U u _ (s.vars src).size _ (BlockValue s src 1 op) r s' := p.mono (fun e => e) (by
      intro b z hb
      obtain ⟨hb1, hb2⟩ := block_det hl hk hb
      have e1 : min 1 ((s.vars src).size - b * 1) = 1 := by omega
      rw [hb2, e1, rep_one]
      exact Val.literal hl)
    obtain ⟨U', a1, a2⟩ := Post.done h0 p' hs
    have e2 : ((s.vars src).size + 1 - 1) / 1 = (s.vars src).size := by simp
    rw [e2]
    exact a1.computes h0 a2
  refine wlp_bind (wlp_getVar ?_)
  rw [if_pos (by simp [Var.isLiteral, hl])]
  unfold blockReduceLit
  generalize hv : s.vars src = v at *
  have hN : ceilDiv32 v.size k = (v.size + k - 1) / k := ceilDiv32_eq hk hz
  rw [hN]
  -- the number of blocks
  obtain ⟨M, hM⟩ : ∃ M, (v.size + k - 1) / k = M + 1 := by
    have : 0 < (v.size + k - 1) / k := Nat.div_pos (by omega) hk
    exact ⟨(v.size + k - 1) / k - 1, by omega⟩
  have hM1 : M * k < v.size := by
    have := Nat.div_mul_le_self (v.size + k - 1) k
    rw [hM, Nat.succ_mul] at this
    omega
  have hM2 : v.size ≤ M * k + k := by
    have := Nat.lt_div_mul_add (a := v.size + k - 1) hk
    rw [hM, Nat.succ_mul] at this
    omega
  have hM3 : M ≤ M * k := Nat.le_mul_of_pos_right M hk
  rw [hM]
  have e1 : (v.size + 2 ^ 32 - (M + 1 + 2 ^ 32 - 1) * k % 2 ^ 32) % 2 ^ 32 = v.size - M * k := by
    have : M + 1 + 2 ^ 32 - 1 = M + 2 ^ 32 := by omega
    rw [this, Nat.add_mul, Nat.add_mul_mod_self_left]
    omega
  dsimp only
  rw [e1]
  have hb : v.type ≠ .bool := by intro e; rw [e] at ht; revert ht; decide
  refine wlp_bind (wlp_mono (scalarReduce_post hp ht (fun e => hm e k (le_refl k))) ?_)
  rintro x s1 ⟨rfl, hx⟩
  refine wlp_bind (wlp_mono (scalarReduce_post hp ht (fun e => hm e (v.size - M * k) (by omega))) ?_)
  rintro y s1 ⟨rfl, hy⟩
  refine wlp_bind (wlp_mono (literal_post h0 (by omega) (fun e => absurd e hb)) ?_)
  rintro res s2 ⟨p2, _⟩
  -- what is to be shown about the values
  have det : ∀ b z, BlockValue s1 src k op b z → b < M + 1 ∧ z = if b + 1 < M + 1 then norm v.type x else norm v.type y := by
    intro b z hbz
    obtain ⟨hb1, hb2⟩ := block_det (by rw [hv]; exact hl) hk hbz
    rw [hv] at hb1 hb2
    have hbM : b < M + 1 := by
      by_contra hc
      have := Nat.mul_le_mul_right k (show M + 1 ≤ b by omega)
      rw [Nat.succ_mul] at this
      omega
    refine ⟨hbM, ?_⟩
    rw [hb2, hx, hy]
    split
    · have := Nat.mul_le_mul_right k (show b + 1 ≤ M by omega)
      rw [Nat.succ_mul] at this
      have e : min k (v.size - b * k) = k := by omega
      rw [e]
    · have e : b = M := by omega
      subst e
      have e : min k (v.size - b * k) = v.size - b * k := by omega
      rw [e]
  refine wlp_ite (fun hne => ?_) (fun heq => ?_)
  · obtain ⟨U2, h2⟩ := (Tmp.start h0).step p2
    have f2 := (Fact.new p2 (by omega) (le_refl _)).mono (full' := True) (fun _ => rfl) (fun _ _ => id)
    refine wlp_mono (joinTrailer_post h0 ht (by omega) (by omega) h2 f2) ?_
    rintro r s' ⟨U', a1, a2⟩
    exact a1.computes h0 (a2.mono (fun e => e) det)
  · refine wlp_pure ?_
    have hsz : (M + 1) * k = v.size := by
      have : (M + 1) * k % 2 ^ 32 = v.size := by omega
      rw [Nat.succ_mul] at this ⊢
      omega
    rw [Nat.succ_mul] at hsz
    have exy : norm v.type y = norm v.type x := by
      have : v.size - M * k = k := by omega
      rw [hx, hy, this]
    obtain ⟨U2, a1, a2⟩ := Post.done h0 p2 (by omega)
    refine a1.computes h0 (a2.mono (fun e => e) ?_)
    intro b z hbz
    obtain ⟨_, hz'⟩ := det b z hbz
    rw [exy, ite_self] at hz'
    exact hz'

/-- **C45 (block reductions).** The block reduction of an integer literal has one entry per block, which
is the reduction of the entries of that block.  Products are limited to those that are exact in double
precision. -/
theorem C45_block_reduce_partial (hev : EvOK ev) (hE : EvalOK evalVar) (hA : AllocOK alloc)
    (h : GReachable ev evalVar alloc cb s u st) (hw : WritesOK s) (hp : PowOK pow) (ho : Operand s u src)
    (hl : (s.vars src).kind = .literal) (ht : (s.vars src).type.isInt = true) (hk : 0 < k)
    (hz : (s.vars src).size + k ≤ 2 ^ 32)
    (hm : op = .mul → ∀ n ≤ k, ProductFits (s.vars src).type (s.vars src).literal n)
    (he : varBlockReduce ev pow other op src k s = .ok r s') :
    Computes s (holders u st) s' r (s.vars src).type (((s.vars src).size + k - 1) / k) (BlockValue s src k op) := by
  obtain ⟨U, hi⟩ := greachable_inv hev hE hA h
  have st' : St s U (plus u st) := ⟨hi.2, (writesOK_iff hi.2).1 hw⟩
  rw [holders_eq hi.1]
  have ho' : Operand s (plus u st) src := ⟨plus_pos_left ho.held, ho.sized, ho.clean, ho.lit⟩
  exact blockReduce_post st' hp ho' hl ht hk hz hm r s' he

/-- **C45 (reductions).** The reduction of an integer literal is the reduction of its entries. -/
theorem C45_reduce_partial (hev : EvOK ev) (hE : EvalOK evalVar) (hA : AllocOK alloc)
    (h : GReachable ev evalVar alloc cb s u st) (hw : WritesOK s) (hp : PowOK pow) (ho : Operand s u src)
    (hl : (s.vars src).kind = .literal) (ht : (s.vars src).type.isInt = true) (hz : (s.vars src).size < 2 ^ 32)
    (hm : op = .mul → ProductFits (s.vars src).type (s.vars src).literal (s.vars src).size) {backend : Nat} {vt : VType}
    (he : varReduce pow other backend vt op src s = .ok r s') :
    Computes s (holders u st) s' r (s.vars src).type 1
      (fun _ z => BlockValue s src (s.vars src).size op 0 z) := by
  obtain ⟨U, hi⟩ := greachable_inv hev hE hA h
  have h0 : St s U (plus u st) := ⟨hi.2, (writesOK_iff hi.2).1 hw⟩
  rw [holders_eq hi.1]
  have hs := ho.sized
  refine (?_ : wlp _ s (fun r s' => Computes s (plus u st) s' r _ 1 _)) r s' he
  clear he
  unfold varReduce
  refine wlp_ite (fun _ => wlp_raise) (fun _ => ?_)
  refine wlp_ite (fun e => absurd e (h0.alive (plus_pos_left ho.held)).1) (fun _ => ?_)
  refine wlp_bind (wlp_getVar ?_)
  refine wlp_ite (fun _ => wlp_raise) (fun _ => ?_)
  refine wlp_ite (fun _ => ?_) (fun e => absurd (by simp [Var.isLiteral, hl]) e)
  have hb : (s.vars src).type ≠ .bool := by intro e; rw [e] at ht; revert ht; decide
  have fin : ∀ x, norm (s.vars src).type x =
      (rep op (s.vars src).size ((s.vars src).literal.setWidth (s.vars src).type.bits)).setWidth 64 →
      wlp (varLiteral (s.vars src).backend (s.vars src).type x 1) s (fun r s' =>
        Computes s (plus u st) s' r (s.vars src).type 1 (fun _ z => BlockValue s src (s.vars src).size op 0 z)) := by
    intro x hx
    refine wlp_mono (literal_post h0 (by omega) (fun e => absurd e hb)) ?_
    rintro r s' ⟨p, _⟩
    obtain ⟨U', a1, a2⟩ := Post.done h0 p (by omega)
    refine a1.computes h0 (a2.mono (fun e => e) ?_)
    intro l z hbz
    obtain ⟨_, hz'⟩ := block_det hl hs hbz
    rw [hz', hx]
    congr 2
    omega
  refine wlp_ite (fun h1 => ?_) (fun h1 => ?_)
  · refine wlp_bind (wlp_mono (scalarReduce_post hp ht hm) ?_)
    rintro x s1 ⟨rfl, hx⟩
    exact fin x hx
  · refine fin _ ?_
    have : (s.vars src).size = 1 := by omega
    rw [this, rep_one]
    rfl

/-- **C45 (reductions).** The reduction of an empty array is the neutral element. -/
theorem C45_reduce_empty (hev : EvOK ev) (hE : EvalOK evalVar) (hA : AllocOK alloc)
    (h : GReachable ev evalVar alloc cb s u st) (hw : WritesOK s) {backend : Nat} {vt : VType} (ht : vt.isInt = true)
    (he : varReduce pow other backend vt op 0 s = .ok r s') :
    Computes s (holders u st) s' r vt 1
      (fun _ z => ∃ y : BitVec vt.bits, z = y.setWidth 64 ∧ IsReduction vt.isSint op [] y) := by
  obtain ⟨U, hi⟩ := greachable_inv hev hE hA h
  have h0 : St s U (plus u st) := ⟨hi.2, (writesOK_iff hi.2).1 hw⟩
  rw [holders_eq hi.1]
  refine (?_ : wlp _ s (fun r s' => Computes s (plus u st) s' r _ 1 _)) r s' he
  clear he
  unfold varReduce
  refine wlp_ite (fun _ => wlp_raise) (fun hop => ?_)
  rw [if_pos rfl]
  refine wlp_ite (fun _ => wlp_raise) (fun _ => ?_)
  rw [if_pos ht]
  have hb : vt ≠ .bool := by rintro rfl; revert ht; decide
  refine wlp_mono (literal_post h0 (by omega) (fun e => absurd e hb)) ?_
  rintro r s' ⟨p, _⟩
  obtain ⟨U', a1, a2⟩ := Post.done h0 p (by omega)
  refine a1.computes h0 (a2.mono (fun e => e) ?_)
  rintro l z ⟨y, rfl, hy⟩
  have hy' : y.setWidth 64 = identity vt op := by
    cases op
    case add =>
      have e : y = 0#vt.bits := BitVec.eq_of_toNat_eq (by simpa [IsReduction] using hy)
      rw [e]; simp [identity]
    case mul =>
      have h1 : 1 < 2 ^ vt.bits := Nat.one_lt_two_pow (by rintro e; revert ht e; cases vt <;> decide)
      have e : y = 1#vt.bits := BitVec.eq_of_toNat_eq (by simpa [IsReduction] using hy)
      rw [e]
      apply BitVec.eq_of_toNat_eq
      simp only [identity, BitVec.toNat_setWidth, BitVec.toNat_ofNat]
      rw [Nat.mod_eq_of_lt h1]
    case min =>
      have e : y = _ := hy.2
      rw [e]; rfl
    case max =>
      have e : y = _ := hy.2
      rw [e]; rfl
    case or => exact absurd (.inr rfl) hop
    case and => exact absurd (.inl rfl) hop
  rw [← hy', norm_setWidth]

/-! ## Prefix reductions -/

theorem scan_len {k n j : Nat} {exclusive reverse : Bool} {w : Nat} {f : Nat → BitVec w} {v : BitVec w} (hk : 0 < k) (hj : j < n)
    (hd : reverse = true → k ∣ n) (hf : ∀ j < n, f j = v) :
    scanList reverse exclusive f n k j = List.replicate (count k exclusive reverse j) v := by
  have e := Nat.div_add_mod j k
  rw [Nat.mul_comm] at e
  have hlt := Nat.mod_lt j hk
  unfold scanList
  by_cases hr : reverse = true
  · rw [if_pos hr, slice_rep (Nat.min_le_right _ _) hf]
    congr 1
    obtain ⟨q, rfl⟩ := hd hr
    have hq : (j / k + 1) * k ≤ k * q := by
      have : j / k < q := Nat.div_lt_of_lt_mul hj
      rw [Nat.mul_comm k q]
      exact Nat.mul_le_mul_right k this
    rw [Nat.succ_mul] at hq
    unfold count
    rw [if_pos hr]
    split_ifs <;> omega
  · rw [if_neg hr, slice_rep (N := n) (by split_ifs <;> omega) hf]
    congr 1
    unfold count
    rw [if_neg hr]
    split_ifs <;> omega

/-- Sums of copies of a literal, with the number of terms that the program computes. -/
theorem prefixSum_computes (h0 : St s U u) (ho : Operand s u src) (hl : (s.vars src).kind = .literal)
    (ht : (s.vars src).type.isInt = true) (hk : 0 < k) (hk' : k < 2 ^ 32) (hz : (s.vars src).size < 2 ^ 32)
    {exclusive reverse : Bool} :
    wlp (varBlockPrefixReduce ev other .add src k exclusive reverse) s (fun r s' =>
      Computes s u s' r (s.vars src).type (s.vars src).size (fun j z => j < (s.vars src).size ∧
        z = (rep .add (count k exclusive reverse j)
          ((s.vars src).literal.setWidth (s.vars src).type.bits)).setWidth 64)) := by
  unfold varBlockPrefixReduce
  refine wlp_ite (fun e => absurd e (h0.alive ho.held).1) (fun _ => ?_)
  refine wlp_bind (wlp_getVar ?_)
  refine wlp_ite (fun e => by rcases e.2 with e | e <;> cases e) (fun _ => ?_)
  refine wlp_ite (fun _ => ?_) (fun e => absurd ⟨by simp [Var.isLiteral, hl], rfl⟩ e)
  refine wlp_mono (prefixSum_post h0 ho hl ht hk hk' hz) ?_
  intro r s' hc
  obtain ⟨U', h'⟩ := hc.tmp
  exact h'.computes h0 hc.fact

/-- **C45 (prefix sums).** Entry `j` of the prefix sum of an integer literal is the sum of the entries of
its block up to `j` (or from `j` on).  If the direction is reversed, the size must be a multiple of the
block size. -/
theorem C45_prefix_sum_partial (hev : EvOK ev) (hE : EvalOK evalVar) (hA : AllocOK alloc)
    (h : GReachable ev evalVar alloc cb s u st) (hw : WritesOK s) (ho : Operand s u src)
    (hl : (s.vars src).kind = .literal) (ht : (s.vars src).type.isInt = true) (hk : 0 < k) (hk' : k < 2 ^ 32)
    (hz : (s.vars src).size < 2 ^ 32) {exclusive reverse : Bool} (hd : reverse = true → k ∣ (s.vars src).size)
    (he : varBlockPrefixReduce ev other .add src k exclusive reverse s = .ok r s') :
    Computes s (holders u st) s' r (s.vars src).type (s.vars src).size
      (PrefixValue s src k exclusive reverse .add) := by
  obtain ⟨U, hi⟩ := greachable_inv hev hE hA h
  have h0 : St s U (plus u st) := ⟨hi.2, (writesOK_iff hi.2).1 hw⟩
  rw [holders_eq hi.1]
  have ho' : Operand s (plus u st) src := ⟨plus_pos_left ho.held, ho.sized, ho.clean, ho.lit⟩
  have c := prefixSum_computes h0 ho' hl ht hk hk' hz r s' he
  refine ⟨c.live, c.type, c.size, ?_, c.operand, c.held⟩
  rintro j z ⟨hj, f, y, hf, rfl, hr⟩
  refine c.value j _ ⟨hj, ?_⟩
  rw [scan_len hk hj hd (entries_lit hl hf), rep_iff (.inr (.inl rfl))] at hr
  rw [hr]

/-- **C45 (prefix minima and maxima).** Inclusive prefix minima and maxima of an integer literal. -/
theorem C45_prefix_minmax_partial (hev : EvOK ev) (hE : EvalOK evalVar) (hA : AllocOK alloc)
    (h : GReachable ev evalVar alloc cb s u st) (hw : WritesOK s) (ho : Operand s u src)
    (hl : (s.vars src).kind = .literal) (hop : op = .min ∨ op = .max) (hk : 0 < k) {reverse : Bool}
    (he : varBlockPrefixReduce ev other op src k false reverse s = .ok r s') :
    Computes s (holders u st) s' r (s.vars src).type (s.vars src).size
      (PrefixValue s src k false reverse op) := by
  obtain ⟨U, hi⟩ := greachable_inv hev hE hA h
  have h0 : St s U (plus u st) := ⟨hi.2, (writesOK_iff hi.2).1 hw⟩
  rw [holders_eq hi.1]
  have ho' : Operand s (plus u st) src := ⟨plus_pos_left ho.held, ho.sized, ho.clean, ho.lit⟩
  refine (?_ : wlp _ s (fun r s' => Computes s (plus u st) s' r _ _ _)) r s' he
  clear he
  unfold varBlockPrefixReduce
  refine wlp_ite (fun e => absurd e (h0.alive ho'.held).1) (fun _ => ?_)
  refine wlp_bind (wlp_getVar ?_)
  refine wlp_ite (fun _ => ?_) (fun e => absurd ⟨by simp [Var.isLiteral, hl], hop.symm⟩ e)
  refine wlp_mono (inc_post' h0 ho') ?_
  intro r s' p
  obtain ⟨U', a1, a2⟩ := Post.done h0 p ho.sized
  refine a1.computes h0 (a2.mono (fun e => e) ?_)
  rintro j z ⟨hj, f, y, hf, rfl, hr⟩
  have e := Nat.div_add_mod j k
  rw [Nat.mul_comm] at e
  have hlt := Nat.mod_lt j hk
  have hr' : ∃ n, 0 < n ∧ scanList reverse false f (s.vars src).size k j =
      List.replicate n ((s.vars src).literal.setWidth (s.vars src).type.bits) := by
    unfold scanList
    split
    · exact ⟨_, by simp; omega, slice_rep (Nat.min_le_right _ _) (entries_lit hl hf)⟩
    · exact ⟨_, by simp; omega, slice_rep (N := (s.vars src).size) (by simp; omega) (entries_lit hl hf)⟩
  obtain ⟨n, hn, hr'⟩ := hr'
  rw [hr', rep_iff (.inl hn)] at hr
  have : y = (s.vars src).literal.setWidth (s.vars src).type.bits := by
    rcases hop with rfl | rfl <;> exact hr
  rw [this]
  exact Val.literal hl

end Verif.Reduce
