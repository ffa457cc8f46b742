import Verif.Call.Upload

/-! # Lemmas about the upload of call data -/
namespace Verif.Call

open Verif.Par
open Verif.Llvm.Mem (Byte Entry aggregate C50_aggregate)

theorem packEntry_eq {off idx : Nat} (h1 : off < 2 ^ 32) (h2 : idx < 2 ^ 32) : packEntry off idx = off * 2 ^ 32 + idx := by
  unfold packEntry
  rw [Nat.shiftLeft_eq, Nat.mod_eq_of_lt (by omega), ← Nat.shiftLeft_eq, ← Nat.shiftLeft_add_eq_or_of_lt h2]

theorem foldl_set {ids : List Nat} (hn : ids.Nodup) {g : Nat → Nat} {es : List Nat} (hl : ∀ x ∈ ids, x < es.length) :
    ∀ n, n ≤ ids.length →
      ((List.range n).foldl (fun es i => es.set (ids[i]?.getD 0) (g i)) es).length = es.length ∧
      (∀ i x, i < n → ids[i]? = some x → ((List.range n).foldl (fun es i => es.set (ids[i]?.getD 0) (g i)) es)[x]? = some (g i)) ∧
      (∀ x, (∀ i, i < n → ids[i]? ≠ some x) → ((List.range n).foldl (fun es i => es.set (ids[i]?.getD 0) (g i)) es)[x]? = es[x]?) := by
  intro n
  induction n with
  | zero => intro _; exact ⟨rfl, fun i _ h => absurd h (Nat.not_lt_zero _), fun _ _ => rfl⟩
  | succ n ih =>
    intro hle
    obtain ⟨h0, h1, h2⟩ := ih (by omega)
    rw [List.range_succ, List.foldl_append, List.foldl_cons, List.foldl_nil]
    have hn1 : ids[n]? = some ids[n] := List.getElem?_eq_getElem (by omega)
    rw [hn1, Option.getD_some]
    refine ⟨by rw [List.length_set, h0], fun i x hi hx => ?_, fun x hx => ?_⟩
    · by_cases e : i = n
      · subst e
        rw [hn1] at hx
        cases hx
        rw [List.getElem?_set_self (by rw [h0]; exact hl _ (List.getElem_mem _))]
      · have hne : ids[n] ≠ x := by
          intro e'
          rw [← e', ← hn1] at hx
          have := (List.getElem?_inj (by omega) hn).1 hx
          omega
        rw [List.getElem?_set_ne hne]
        exact h1 i x (by omega) hx
    · have hne : ids[n] ≠ x := fun e' => hx n (by omega) (by rw [hn1, e'])
      rw [List.getElem?_set_ne hne]
      exact h2 x fun i hi => hx i (by omega)

theorem readLE_ofNat {m : Nat → Byte} : ∀ (n a v : Nat), (∀ k, k < n → m (a + k) = BitVec.ofNat 8 (v / 2 ^ (8 * k))) → readLE m a n = v % 256 ^ n
  | 0, a, v, _ => by simp [readLE, Nat.mod_one]
  | n + 1, a, v, h => by
    have h0 := h 0 (by omega)
    rw [Nat.mul_zero, Nat.pow_zero, Nat.div_one, Nat.add_zero] at h0
    rw [readLE, h0, readLE_ofNat n (a + 1) (v / 256) fun k hk => by
      rw [Nat.add_assoc, Nat.add_comm 1 k, h (k + 1) (by omega), Nat.div_div_eq_div_mul]
      congr 2
      rw [show 8 * (k + 1) = 8 + 8 * k by omega, Nat.pow_add]]
    rw [BitVec.toNat_ofNat, show 256 ^ (n + 1) = 256 * 256 ^ n by rw [Nat.pow_succ, Nat.mul_comm], Nat.mod_mul]

theorem readLE_congr {m m' : Nat → Byte} : ∀ (n a b : Nat), (∀ k, k < n → m' (a + k) = m (b + k)) → readLE m' a n = readLE m b n
  | 0, _, _, _ => rfl
  | n + 1, a, b, h => by
    have h0 := h 0 (by omega)
    rw [Nat.add_zero, Nat.add_zero] at h0
    rw [readLE, readLE, h0, readLE_congr n (a + 1) (b + 1) fun k hk => by
      have := h (k + 1) (by omega)
      rw [show a + 1 + k = a + (k + 1) by omega, show b + 1 + k = b + (k + 1) by omega, this]]

theorem readLE_8 (m : Nat → Byte) (a : Nat) : readLE m a 8 = readLE m a 4 + 2 ^ 32 * readLE m (a + 4) 4 := by
  simp only [readLE, Nat.add_assoc, Nat.reduceAdd]
  omega

/-! ### The reserved slices -/

inductive Item
  | call (id : Nat)
  | getter (id : Nat)
deriving DecidableEq

def itemOf : Ev → Option Item
  | .start id => some (.call id)
  | .finish _ => none
  | .getter id => some (.getter id)

def items (evs : List Ev) : List Item := evs.filterMap itemOf

def Item.off (s : Buf) : Item → Nat
  | .call id => s.offB id
  | .getter id => s.hdr id

def Item.len (e : Env) : Item → Nat
  | .call id => (e.calls id).count * 8
  | .getter id => alignUp (((e.getters id).values.length + 1) * (e.getters id).tsize) 8

theorem items_call {evs : List Ev} {id : Nat} : Item.call id ∈ items evs ↔ id ∈ starts evs := by
  unfold items starts
  rw [List.mem_filterMap, List.mem_filterMap]
  constructor
  · rintro ⟨ev, h1, h2⟩
    cases ev <;> simp [itemOf] at h2
    subst h2
    exact ⟨_, h1, rfl⟩
  · rintro ⟨ev, h1, h2⟩
    cases ev <;> simp at h2
    subst h2
    exact ⟨_, h1, rfl⟩

theorem items_getter {evs : List Ev} {id : Nat} : Item.getter id ∈ items evs ↔ id ∈ getterIds evs := by
  unfold items getterIds
  rw [List.mem_filterMap, List.mem_filterMap]
  constructor
  · rintro ⟨ev, h1, h2⟩
    cases ev <;> simp [itemOf] at h2
    subst h2
    exact ⟨_, h1, rfl⟩
  · rintro ⟨ev, h1, h2⟩
    cases ev <;> simp at h2
    subst h2
    exact ⟨_, h1, rfl⟩

theorem mem_starts {evs : List Ev} {id : Nat} : id ∈ starts evs ↔ Ev.start id ∈ evs := by
  unfold starts
  rw [List.mem_filterMap]
  constructor
  · rintro ⟨ev, h1, h2⟩
    cases ev <;> simp at h2
    subst h2
    exact h1
  · intro h; exact ⟨_, h, rfl⟩

/-- Every call ends after it started -/
def Ordered (evs : List Ev) : Prop := ∀ pre id post, evs = pre ++ Ev.finish id :: post → Ev.start id ∈ pre

structure BufInv (e : Env) (evs : List Ev) (s : Buf) : Prop where
  order : (items evs).Pairwise fun a b => a.off s + a.len e ≤ b.off s
  bound : ∀ a ∈ items evs, a.off s + a.len e ≤ s.offSize ∧ 8 ∣ a.off s
  size8 : 8 ∣ s.offSize
  dorder : (starts evs).Pairwise fun a b => s.dataB a + (e.lay a).2.2 ≤ s.dataB b
  dbound : ∀ a ∈ starts evs, s.dataB a + (e.lay a).2.2 ≤ s.dataSize ∧ e.p.alignment ∣ s.dataB a
  dsize : e.p.alignment ∣ s.dataSize
  data : s.data = (starts evs).flatMap fun id => liveSlots e (e.lay id).2.1 (s.dataB id)
  calls : s.calls = finishes evs
  getters : s.getters = getterIds evs
  ccall : ∀ id b, Code.call id b ∈ s.code → b = s.offB id ∧ id ∈ finishes evs ∧ id ∈ starts evs
  cget : ∀ id b, Code.getter id b ∈ s.code → b = s.hdr id ∧ id ∈ getterIds evs

theorem starts_snoc (evs : List Ev) (ev : Ev) : starts (evs ++ [ev]) = starts evs ++ (match ev with | .start id => [id] | _ => []) := by
  unfold starts; rw [List.filterMap_append]; cases ev <;> rfl

theorem finishes_snoc (evs : List Ev) (ev : Ev) : finishes (evs ++ [ev]) = finishes evs ++ (match ev with | .finish id => [id] | _ => []) := by
  unfold finishes; rw [List.filterMap_append]; cases ev <;> rfl

theorem getterIds_snoc (evs : List Ev) (ev : Ev) : getterIds (evs ++ [ev]) = getterIds evs ++ (match ev with | .getter id => [id] | _ => []) := by
  unfold getterIds; rw [List.filterMap_append]; cases ev <;> rfl

theorem items_snoc (evs : List Ev) (ev : Ev) : items (evs ++ [ev]) = items evs ++ (itemOf ev).toList := by
  unfold items; rw [List.filterMap_append]; cases ev <;> rfl

theorem runBuf_snoc (e : Env) (evs : List Ev) (ev : Ev) : runBuf e (evs ++ [ev]) = stepBuf e (runBuf e evs) ev := by
  unfold runBuf; rw [List.foldl_append]; rfl

theorem runBuf_inv {e : Env} (hal : 0 < e.p.alignment) (hb : ∀ id, ∀ caps ∈ (e.calls id).insts, ∀ c ∈ caps, c.bucket < 8) (evs : List Ev) :
    (starts evs).Nodup → (getterIds evs).Nodup → Ordered evs → BufInv e evs (runBuf e evs) := by
  induction evs using List.reverseRecOn with
  | nil =>
    intro _ _ _
    exact ⟨List.Pairwise.nil, fun _ h => (nomatch h), ⟨0, rfl⟩, List.Pairwise.nil, fun _ h => (nomatch h), ⟨0, rfl⟩, rfl, rfl, rfl, fun _ _ h => (nomatch h),
      fun _ _ h => (nomatch h)⟩
  | append_singleton evs ev ih =>
    intro h1 h2 h3
    have h3' : Ordered evs := fun pre id post h => h3 pre id (post ++ [ev]) (by rw [h]; simp)
    have I := ih (by rw [starts_snoc] at h1; exact (List.nodup_append.1 h1).1) (by rw [getterIds_snoc] at h2; exact (List.nodup_append.1 h2).1) h3'
    rw [runBuf_snoc]
    generalize runBuf e evs = s at *
    cases ev with
    | start id =>
      rw [starts_snoc] at h1
      have hnew : id ∉ starts evs := fun h => (List.nodup_append.1 h1).2.2 id h id (List.mem_singleton.2 rfl) rfl
      have hoff : ∀ a ∈ items evs, a.off (stepBuf e s (.start id)) = a.off s := by
        intro a ha
        cases a with
        | call k =>
          have : k ≠ id := fun h => hnew (h ▸ items_call.1 ha)
          exact if_neg this
        | getter k => rfl
      have hdat : ∀ a ∈ starts evs, (stepBuf e s (.start id)).dataB a = s.dataB a := fun a ha => if_neg fun (h : a = id) => hnew (h ▸ ha)
      have hself : (stepBuf e s (.start id)).offB id = s.offSize := if_pos rfl
      have hself' : (stepBuf e s (.start id)).dataB id = s.dataSize := if_pos rfl
      have hd := C34_layout e.p hal (e.calls id).old (e.calls id).insts (hb id)
      refine ⟨?_, ?_, ?_, ?_, ?_, ?_, ?_, ?_, ?_, ?_, ?_⟩
      · rw [items_snoc]
        refine List.pairwise_append.2 ⟨I.order.imp_of_mem fun ha hb' h => ?_, List.pairwise_singleton _ _, fun a ha b hb' => ?_⟩
        · rw [hoff _ ha, hoff _ hb']; exact h
        · rw [show (itemOf (.start id)).toList = [.call id] from rfl, List.mem_singleton] at hb'
          subst hb'
          rw [hoff a ha]
          exact Nat.le_trans (I.bound a ha).1 (Nat.le_of_eq hself.symm)
      · intro a ha
        rw [items_snoc, List.mem_append] at ha
        rcases ha with ha | ha
        · rw [hoff a ha]
          exact ⟨Nat.le_trans (I.bound a ha).1 (Nat.le_add_right _ _), (I.bound a ha).2⟩
        · rw [show (itemOf (.start id)).toList = [.call id] from rfl, List.mem_singleton] at ha
          subst ha
          show (stepBuf e s (.start id)).offB id + _ ≤ _ ∧ 8 ∣ (stepBuf e s (.start id)).offB id
          rw [hself]
          exact ⟨Nat.le_refl _, I.size8⟩
      · exact Nat.dvd_add I.size8 (Nat.dvd_mul_left _ _)
      · rw [starts_snoc]
        refine List.pairwise_append.2 ⟨I.dorder.imp_of_mem fun ha hb' h => ?_, List.pairwise_singleton _ _, fun a ha b hb' => ?_⟩
        · rw [hdat _ ha, hdat _ hb']; exact h
        · rw [List.mem_singleton] at hb'
          subst hb'
          rw [hdat a ha, hself']
          exact (I.dbound a ha).1
      · intro a ha
        rw [starts_snoc, List.mem_append] at ha
        rcases ha with ha | ha
        · rw [hdat a ha]
          exact ⟨Nat.le_trans (I.dbound a ha).1 (Nat.le_add_right _ _), (I.dbound a ha).2⟩
        · rw [List.mem_singleton] at ha
          subst ha
          rw [hself']
          exact ⟨Nat.le_refl _, I.dsize⟩
      · exact Nat.dvd_add I.dsize hd.2.2.2.2.2
      · rw [starts_snoc, List.flatMap_append]
        show s.data ++ _ = _
        rw [I.data]
        congr 1
        · exact List.flatMap_congr fun a ha => by rw [hdat a ha]
        · rw [List.flatMap_cons, List.flatMap_nil, List.append_nil, hself']
      · rw [finishes_snoc]; show s.calls = _; rw [I.calls, List.append_nil]
      · rw [getterIds_snoc]; show s.getters = _; rw [I.getters, List.append_nil]
      · intro k b hk
        obtain ⟨g1, g2, g3⟩ := I.ccall k b hk
        rw [finishes_snoc, starts_snoc]
        refine ⟨?_, List.mem_append_left _ g2, List.mem_append_left _ g3⟩
        have := hoff (.call k) (items_call.2 g3)
        exact g1.trans this.symm
      · intro k b hk
        rw [getterIds_snoc]
        exact ⟨(I.cget k b hk).1, List.mem_append_left _ (I.cget k b hk).2⟩
    | finish id =>
      have hst : id ∈ starts evs := mem_starts.2 (h3 evs id [] rfl)
      have e1 : starts (evs ++ [.finish id]) = starts evs := by rw [starts_snoc, List.append_nil]
      have e2 : items (evs ++ [.finish id]) = items evs := by rw [items_snoc]; exact List.append_nil _
      have hoff : ∀ a : Item, a.off (stepBuf e s (.finish id)) = a.off s := fun a => by cases a <;> rfl
      refine ⟨?_, ?_, I.size8, ?_, ?_, I.dsize, ?_, ?_, ?_, ?_, ?_⟩
      · rw [e2]; simp only [hoff]; exact I.order
      · rw [e2]; simp only [hoff]; exact I.bound
      · rw [e1]; exact I.dorder
      · rw [e1]; exact I.dbound
      · rw [e1]; exact I.data
      · rw [finishes_snoc]; show s.calls ++ _ = _; rw [I.calls]
      · rw [getterIds_snoc, List.append_nil]; exact I.getters
      · intro k b hk
        rw [finishes_snoc, e1]
        rcases List.mem_append.1 hk with hk | hk
        · obtain ⟨g1, g2, g3⟩ := I.ccall k b hk
          exact ⟨g1, List.mem_append_left _ g2, g3⟩
        · rw [List.mem_singleton] at hk
          cases hk
          exact ⟨rfl, List.mem_append_right _ (List.mem_singleton.2 rfl), hst⟩
      · intro k b hk
        rcases List.mem_append.1 hk with hk | hk
        · rw [getterIds_snoc, List.append_nil]
          exact I.cget k b hk
        · rw [List.mem_singleton] at hk; cases hk
    | getter id =>
      rw [getterIds_snoc] at h2
      have hnew : id ∉ getterIds evs := fun h => (List.nodup_append.1 h2).2.2 id h id (List.mem_singleton.2 rfl) rfl
      have hoff : ∀ a ∈ items evs, a.off (stepBuf e s (.getter id)) = a.off s := by
        intro a ha
        cases a with
        | call k => rfl
        | getter k =>
          have : k ≠ id := fun h => hnew (h ▸ items_getter.1 ha)
          exact if_neg this
      have hself : (stepBuf e s (.getter id)).hdr id = s.offSize := if_pos rfl
      have e1 : starts (evs ++ [.getter id]) = starts evs := by rw [starts_snoc, List.append_nil]
      refine ⟨?_, ?_, ?_, ?_, ?_, I.dsize, ?_, ?_, ?_, ?_, ?_⟩
      · rw [items_snoc]
        refine List.pairwise_append.2 ⟨I.order.imp_of_mem fun ha hb' h => ?_, List.pairwise_singleton _ _, fun a ha b hb' => ?_⟩
        · rw [hoff _ ha, hoff _ hb']; exact h
        · rw [show (itemOf (.getter id)).toList = [.getter id] from rfl, List.mem_singleton] at hb'
          subst hb'
          rw [hoff a ha]
          exact Nat.le_trans (I.bound a ha).1 (Nat.le_of_eq hself.symm)
      · intro a ha
        rw [items_snoc, List.mem_append] at ha
        rcases ha with ha | ha
        · rw [hoff a ha]
          exact ⟨Nat.le_trans (I.bound a ha).1 (Nat.le_add_right _ _), (I.bound a ha).2⟩
        · rw [show (itemOf (.getter id)).toList = [.getter id] from rfl, List.mem_singleton] at ha
          subst ha
          show (stepBuf e s (.getter id)).hdr id + _ ≤ _ ∧ 8 ∣ (stepBuf e s (.getter id)).hdr id
          rw [hself]
          exact ⟨Nat.le_refl _, I.size8⟩
      · exact Nat.dvd_add I.size8 (dvd_alignUp _ _)
      · rw [e1]; exact I.dorder
      · rw [e1]; exact I.dbound
      · rw [e1]; exact I.data
      · rw [finishes_snoc, List.append_nil]; exact I.calls
      · rw [getterIds_snoc]; show s.getters ++ _ = _; rw [I.getters]
      · intro k b hk
        rcases List.mem_append.1 hk with hk | hk
        · rw [finishes_snoc, e1, List.append_nil]
          exact I.ccall k b hk
        · rw [List.mem_singleton] at hk; cases hk
      · intro k b hk
        rw [getterIds_snoc]
        rcases List.mem_append.1 hk with hk | hk
        · obtain ⟨g1, g2⟩ := I.cget k b hk
          have := hoff (.getter k) (items_getter.2 g2)
          exact ⟨g1.trans this.symm, List.mem_append_left _ g2⟩
        · rw [List.mem_singleton] at hk
          cases hk
          exact ⟨hself.symm, List.mem_append_right _ (List.mem_singleton.2 rfl)⟩

/-- Two entries write different bytes -/
def Apart (a b : Entry) : Prop := a.offset + a.bytes ≤ b.offset ∨ b.offset + b.bytes ≤ a.offset

theorem Apart.symm {a b : Entry} (h : Apart a b) : Apart b a := Or.symm h

theorem mem_offEntries {e : Env} {al : Nat} {s : Buf} {id : Nat} {x : Entry} (h : x ∈ offEntries e al s id) :
    x.bytes = 4 ∧ x.size = 4 ∧ s.offB id ≤ x.offset ∧ x.offset + 4 ≤ s.offB id + (e.calls id).count * 8 := by
  unfold offEntries at h
  rw [List.mem_flatMap] at h
  obtain ⟨i, hi, h⟩ := h
  rw [List.mem_range] at hi
  simp only [List.mem_cons, List.not_mem_nil, or_false] at h
  rcases h with rfl | rfl
  · exact ⟨rfl, rfl, by show _ ≤ s.offB id + i * 8; omega, by show s.offB id + i * 8 + 4 ≤ _; omega⟩
  · exact ⟨rfl, rfl, by show _ ≤ s.offB id + i * 8 + 4; omega, by show s.offB id + i * 8 + 4 + 4 ≤ _; omega⟩

theorem offEntries_apart {e : Env} {al : Nat} {s : Buf} {id : Nat} : (offEntries e al s id).Pairwise Apart := by
  unfold offEntries
  refine List.pairwise_flatMap.2 ⟨fun i _ => ?_, ?_⟩
  · refine List.pairwise_cons.2 ⟨fun b hb => ?_, List.pairwise_singleton _ _⟩
    rw [List.mem_singleton] at hb
    subst hb
    exact Or.inl (Nat.le_refl _)
  · refine List.pairwise_lt_range.imp fun {i j} hij x hx y hy => Or.inl ?_
    simp only [List.mem_cons, List.not_mem_nil, or_false] at hx hy
    rcases hx with rfl | rfl <;> rcases hy with rfl | rfl <;>
      simp only [Entry.bytes, Verif.Llvm.Mem.Entry.bytes] <;> omega

end Verif.Call
