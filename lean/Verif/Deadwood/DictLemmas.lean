import Verif.Deadwood.DictModel
import Verif.Deadwood.HashRefine
import Mathlib.Data.List.Dedup
import Mathlib.Data.List.Perm.Subperm
/-! Helper lemmas about dictionaries. -/

namespace Dw
namespace Hash

variable {hf : List UInt8 → Nat}

/-- Invariant of a dictionary holding the elements `l`. -/
structure DInv (hf : List UInt8 → Nat) (h : Hash) (l : List Elem) : Prop where
  t : TInv hf h l
  fila : h.fila = []
  live : ∀ e ∈ l, e.immutable = false

theorem powerTwo_two_pow (j : Nat) : powerTwo (2 ^ j) = 2 ^ (j + 1) := by
  induction j with
  | zero => rw [powerTwo]; simp; rw [powerTwo]; simp
  | succ j ih =>
    rw [powerTwo, if_neg (by have := Nat.two_pow_pos (j + 1); omega)]
    have : 2 ^ (j + 1) / 2 = 2 ^ j := by rw [Nat.pow_succ]; omega
    rw [this, ih, Nat.pow_succ]; omega

/-- Placing an element whose key is absent, without a recency queue. -/
theorem DInv.place {h : Hash} {l : List Elem} (I : DInv hf h l)
    {e : Elem} (hs : (h.tbl (h.bucket hf e.key)).length ≤ 32000)
    (hk : ∀ x ∈ l, x.key ≠ e.key) (hi : ∀ x ∈ l, x.id ≠ e.id) (hid : e.id < h.next)
    (him : e.immutable = false) :
    placeNew hf h e 0 = .ok { h.push hf e with size := h.size + 1 } ∧
    DInv hf { h.push hf e with size := h.size + 1 } (e :: l) := by
  have hg : h.grep hf e.key = none := by
    rw [I.t.grep_eq _ hs, lfind_eq_none]; exact hk
  have hz : h.zap hf e.key 0 = (0, h) := by simp [Hash.zap, hg]
  constructor
  · simp only [placeNew, hz]
    rfl
  · exact ⟨I.t.pushed hk hi hid, I.fila, fun x hx => by
      rcases List.mem_cons.1 hx with rfl | hx
      · exact him
      · exact I.live x hx⟩

theorem push_bounds (h : Hash) (e : Elem) (i : Nat) :
    ((h.push hf e).tbl i).length ≤ (h.tbl i).length + 1 := by
  simp only [Hash.push]; split_ifs <;> simp

/-- Moving elements with distinct absent keys into a hash, as long as chains
stay searchable. -/
theorem DInv.moveAll : ∀ (es : List Elem) {h : Hash} {l : List Elem}, DInv hf h l →
    ((es ++ l).map Elem.key).Nodup → ((es ++ l).map Elem.id).Nodup →
    (∀ e ∈ es, e.id < h.next) → (∀ e ∈ es, e.immutable = false) →
    (∀ i, ((es ++ l).filter (fun e => h.bucket hf e.key == i)).length ≤ 32000) →
    DInv hf (es.foldl (growStep hf) h) (es.reverse ++ l) ∧
    (es.foldl (growStep hf) h).mask = h.mask ∧ (es.foldl (growStep hf) h).next = h.next
  | [], h, l, I, _, _, _, _, _ => ⟨I, rfl, rfl⟩
  | e :: es, h, l, I, hk, hi, hid, him, hs => by
    simp only [List.cons_append, List.map_cons, List.nodup_cons, List.mem_map, not_exists,
      not_and] at hk hi
    have hchain : (h.tbl (h.bucket hf e.key)).length ≤ 32000 := by
      rw [I.t.chain_length]
      refine Nat.le_trans ?_ (hs (h.bucket hf e.key))
      apply List.Sublist.length_le
      apply List.Sublist.filter
      exact List.sublist_append_right _ _
    obtain ⟨h1, I1⟩ := I.place hchain (fun x hx => hk.1 x (by simp [hx]))
      (fun x hx => hi.1 x (by simp [hx])) (hid e (by simp)) (him e (by simp))
    have hst : growStep hf h e = { h.push hf e with size := h.size + 1 } := by
      simp [growStep, h1]
    have hperm : (es ++ e :: l).Perm (e :: (es ++ l)) := List.perm_middle
    have ih := DInv.moveAll es I1
      ((hperm.map _).nodup_iff.2 (by
        simp only [List.map_cons, List.nodup_cons, List.mem_map, not_exists, not_and]; exact hk))
      ((hperm.map _).nodup_iff.2 (by
        simp only [List.map_cons, List.nodup_cons, List.mem_map, not_exists, not_and]; exact hi))
      (fun x hx => hid x (by simp [hx])) (fun x hx => him x (by simp [hx]))
      (by
        intro i
        refine Nat.le_trans (Nat.le_of_eq ?_) (hs i)
        exact (hperm.filter _).length_eq)
    rw [List.foldl_cons, hst]
    refine ⟨?_, ih.2⟩
    have : (e :: es).reverse ++ l = es.reverse ++ e :: l := by simp
    rw [this]; exact ih.1

/-- With chains of at most 10000 elements, walking sees every element once. -/
theorem DInv.walk_perm {h : Hash} {l : List Elem} (I : DInv hf h l)
    (hs : ∀ i, (h.tbl i).length ≤ 10000) : (h.walk 0).Perm l := by
  have hw : h.walk 0 = (List.range' 0 (h.mask + 1)).flatMap h.tbl := by
    simp only [walk, Nat.sub_zero]
    congr 1
    funext i
    exact List.take_of_length_le (hs i)
  have hn : (h.walk 0).Nodup := by
    rw [hw, List.nodup_flatMap]
    refine ⟨fun i _ => I.t.nodup i, ?_⟩
    have : (List.range' 0 (h.mask + 1)).Pairwise (· ≠ ·) := List.nodup_range'
    refine this.imp ?_
    intro a b hab x hxa hxb
    exact hab (((I.t.mem a x).1 hxa).2.symm.trans ((I.t.mem b x).1 hxb).2)
  rw [List.perm_ext_iff_of_nodup hn I.t.keys.of_map]
  intro e
  rw [hw, List.mem_flatMap]
  constructor
  · rintro ⟨i, -, hi⟩; exact ((I.t.mem i e).1 hi).1
  · intro he
    refine ⟨h.bucket hf e.key, ?_, (I.t.mem _ e).2 ⟨he, rfl⟩⟩
    rw [List.mem_range'_1]
    have : h.bucket hf e.key ≤ h.mask := Nat.and_le_right
    omega


/-- Removing a key without a recency queue. -/
theorem DInv.zap0 {h : Hash} {l : List Elem} (I : DInv hf h l) (k : List UInt8)
    (hs : (h.tbl (h.bucket hf k)).length ≤ 32000) :
    ∃ h0, (h.zap hf k 0).1 ≠ -1 ∧ (h.zap hf k 0).2 = h0 ∧
      DInv hf h0 (l.filter (fun e => e.key != k)) ∧ h0.mask = h.mask ∧ h0.next = h.next ∧
      h0.fila = h.fila := by
  have hg := I.t.grep_eq k hs
  cases hl : lfind l k with
  | none =>
    rw [hl] at hg
    have : l.filter (fun e => e.key != k) = l := by
      rw [List.filter_eq_self]; intro a ha; simpa using lfind_eq_none.1 hl a ha
    refine ⟨h, by simp [Hash.zap, hg], by simp [Hash.zap, hg], by rw [this]; exact I, rfl, rfl, rfl⟩
  | some x =>
    rw [hl] at hg
    obtain ⟨hx, rfl⟩ := (lfind_eq_some I.t.keys).1 hl
    have him := I.live x hx
    refine ⟨h.unlink x, by simp [Hash.zap, hg, him], by simp [Hash.zap, hg, him], ?_, rfl, rfl, rfl⟩
    rw [← noId_eq_without I.t.keys I.t.ids hx]
    exact ⟨I.t.unlink hx, I.fila, fun e he => I.live e (mem_noId.1 he).1⟩

theorem lfind_filter (l : List Elem) (k k' : List UInt8) :
    lfind (l.filter (fun e => e.key != k')) k = if k = k' then none else lfind l k := by
  split_ifs with h
  · subst h; rw [lfind_eq_none]; intro e he; simpa using (List.mem_filter.1 he).2
  · simp only [lfind, List.find?_filter]
    congr 1
    funext e
    by_cases hk : e.key = k
    · have : k ≠ k' := h
      simp [hk, this]
    · simp [hk]

/-- No bucket of a table that is large enough for the keys gets more than 10000
of them (the code looks at no more when it moves or lists them). -/
def DictOk (hf : List UInt8 → Nat) (ks : List (List UInt8)) : Prop :=
  ks.dedup.length < 2 ^ 27 ∧
  ∀ S : List (List UInt8), S.Nodup → (∀ k ∈ S, k ∈ ks) → ∀ j, S.length ≤ 2 ^ j →
    ∀ i, (S.filter (fun k => hf k &&& (2 ^ j - 1) == i)).length ≤ 10000

/-- State of a dictionary after some additions. -/
structure DState (hf : List UInt8 → Nat) (ks : List (List UInt8)) (h : Hash) (l : List Elem)
    (j : Nat) : Prop where
  inv : DInv hf h l
  mask : h.mask = 2 ^ j - 1
  pos : 1 ≤ j
  room : h.size < h.mask
  keys : ∀ e ∈ l, e.key ∈ ks

theorem nodup_length_le {l ks : List (List UInt8)} (hn : l.Nodup) (h : ∀ x ∈ l, x ∈ ks) :
    l.length ≤ ks.dedup.length := by
  apply List.Subperm.length_le
  apply List.subperm_of_subset hn
  intro x hx
  exact List.mem_dedup.2 (h x hx)

theorem filter_keys (l : List Elem) (m i : Nat) :
    (l.filter (fun e => hf e.key &&& m == i)).length =
      ((l.map Elem.key).filter (fun k => hf k &&& m == i)).length := by
  rw [List.filter_map, List.length_map]; rfl

theorem chains_ok {ks : List (List UInt8)} (hok : DictOk hf ks) {l : List Elem}
    (hn : (l.map Elem.key).Nodup) (hk : ∀ e ∈ l, e.key ∈ ks) {j : Nat} (hj : l.length ≤ 2 ^ j)
    (i : Nat) : (l.filter (fun e => hf e.key &&& (2 ^ j - 1) == i)).length ≤ 10000 := by
  rw [filter_keys]
  refine hok.2 _ hn ?_ j (by simpa using hj) i
  intro k hk'
  obtain ⟨e, he, rfl⟩ := List.mem_map.1 hk'
  exact hk e he

theorem DState.chain {ks : List (List UInt8)} (hok : DictOk hf ks) {h : Hash} {l : List Elem}
    {j : Nat} (D : DState hf ks h l j) (i : Nat) : (h.tbl i).length ≤ 10000 := by
  rw [D.inv.t.chain_length]
  have := chains_ok hok D.inv.t.keys D.keys (j := j)
    (by have := D.room; rw [D.inv.t.size, D.mask] at this; omega) i
  simpa only [Hash.bucket, D.mask] using this

/-- Growing keeps exactly the elements. -/
theorem autogrow_state {ks : List (List UInt8)} (hok : DictOk hf ks) {cs : Nat} {h : Hash}
    {l : List Elem} {j : Nat} (I : DInv hf h l) (hm : h.mask = 2 ^ j - 1) (hj : 1 ≤ j)
    (hroom : h.size ≤ h.mask) (hk : ∀ e ∈ l, e.key ∈ ks) :
    ∃ l' j', DState hf ks (autogrow hf cs h) l' j' ∧ l.Perm l' := by
  by_cases hsz : h.size < h.mask
  · refine ⟨l, j, ⟨?_, ?_, hj, ?_, hk⟩, List.Perm.refl _⟩ <;>
    simp only [autogrow, I.fila, ne_eq, not_true_eq_false, if_false, if_pos hsz]
    · exact I
    · exact hm
    · exact hsz
  · have h2 : 2 ^ j ≥ 2 := by
      calc 2 ^ j ≥ 2 ^ 1 := Nat.pow_le_pow_right (by omega) hj
        _ = 2 := rfl
    have hm1 : h.mask + 1 = 2 ^ j := by omega
    have hpow : (h.mask + 1) &&& h.mask = 0 := by
      rw [hm1, hm, Nat.and_two_pow_sub_one_eq_mod, Nat.mod_self]
    have hag : autogrow hf cs h = (h.walk 0).foldl (growStep hf)
        { Hash.init cs (h.mask + 1) with next := h.next } := by
      simp [autogrow, I.fila, hsz, hpow]
    have hlen : l.length = h.size := I.t.size.symm
    have hkl := nodup_length_le I.t.keys (ks := ks) (by
      intro x hx; obtain ⟨e, he, rfl⟩ := List.mem_map.1 hx; exact hk e he)
    rw [List.length_map] at hkl
    have hb := hok.1
    have hinit : initElements cs (h.mask + 1) = 2 ^ j := by
      rw [hm1, initElements, if_neg (by omega), if_neg (by omega), if_neg (by omega)]
    have hmask' : (Hash.init cs (h.mask + 1)).mask = 2 ^ (j + 1) - 1 := by
      show powerTwo (initElements cs (h.mask + 1)) - 1 = _
      rw [hinit, powerTwo_two_pow]
    have hchain : ∀ i, (h.tbl i).length ≤ 10000 := by
      intro i
      rw [I.t.chain_length]
      have := chains_ok hok I.t.keys hk (j := j) (by omega) i
      simpa only [Hash.bucket, hm] using this
    have hp := I.walk_perm hchain
    have I0 : DInv hf { Hash.init cs (h.mask + 1) with next := h.next } [] :=
      ⟨⟨by simp [Hash.init], by simp [Hash.init], by simp, by simp, by simp, by simp [Hash.init]⟩,
        rfl, by simp⟩
    obtain ⟨I1, hmk, hnx⟩ := DInv.moveAll (h.walk 0) I0
      (by rw [List.append_nil]; exact (hp.map _).nodup_iff.2 I.t.keys)
      (by rw [List.append_nil]; exact (hp.map _).nodup_iff.2 I.t.ids)
      (fun e he => I.t.fresh e (hp.mem_iff.1 he))
      (fun e he => I.live e (hp.mem_iff.1 he))
      (by
        intro i
        rw [List.append_nil, (hp.filter _).length_eq]
        have := chains_ok hok I.t.keys hk (j := j + 1) (by rw [Nat.pow_succ]; omega) i
        simp only [Hash.bucket, hmask']
        omega)
    rw [List.append_nil] at I1
    have hp2 : l.Perm (h.walk 0).reverse := hp.symm.trans (List.reverse_perm _).symm
    refine ⟨_, j + 1, ⟨by rw [hag]; exact I1, by rw [hag, hmk, hmask'], by omega, ?_, ?_⟩, hp2⟩
    · rw [hag, hmk, hmask', I1.t.size, ← hp2.length_eq, hlen, Nat.pow_succ]; omega
    · intro e he; exact hk e (hp2.mem_iff.2 he)

/-- One addition. -/
theorem dictAdd_state {ks : List (List UInt8)} (hok : DictOk hf ks) {cs : Nat} {h : Hash}
    {l : List Elem} {j : Nat} (D : DState hf ks h l j) (now : Int) {k v : List UInt8}
    (hk : k ∈ ks) :
    ∃ l' j', DState hf ks (dictAdd hf cs h now k v) l' j' ∧
      (∀ x, (lfind l' x).map Elem.value = if x = k then some v else (lfind l x).map Elem.value) ∧
      (∀ x, (∃ e ∈ l', e.key = x) ↔ x = k ∨ ∃ e ∈ l, e.key = x) := by
  have Ib : DInv hf { h with next := h.next + 1 } l := ⟨D.inv.t.bump, D.inv.fila, D.inv.live⟩
  have hch := D.chain hok
  obtain ⟨h0, hz1, hz2, I0, hm0, hn0, hf0⟩ := Ib.zap0 k
    (by have := hch (h.bucket hf k); show (h.tbl (h.bucket hf k)).length ≤ 32000; omega)
  set l0 := l.filter (fun e => e.key != k) with hl0
  have hl0k : ∀ x ∈ l0, x.key ≠ k := by
    intro x hx; simpa using (List.mem_filter.1 hx).2
  set e : Elem := { id := h.next, key := k, value := v, expire := newExpire hf h now k 1,
                    immutable := false } with he
  have hsub : ∀ x ∈ l0, x ∈ l := fun x hx => (List.mem_filter.1 hx).1
  -- the result of placing
  have hpl : placeNew hf { h with next := h.next + 1 } e 0 =
      .ok { h0.push hf e with size := h0.size + 1 } := by
    simp only [placeNew]
    rw [if_neg (show ¬ (zap hf { h with next := h.next + 1 } e.key 0).1 = -1 from hz1)]
    rw [show (zap hf { h with next := h.next + 1 } e.key 0).2 = h0 from hz2]
    rfl
  have I1 : DInv hf { h0.push hf e with size := h0.size + 1 } (e :: l0) := by
    refine ⟨I0.t.pushed hl0k ?_ ?_, I0.fila, ?_⟩
    · intro x hx hid
      have := D.inv.t.fresh x (hsub x hx)
      simp [he] at hid; omega
    · rw [hn0]; show h.next < h.next + 1; omega
    · intro x hx
      rcases List.mem_cons.1 hx with rfl | hx
      · rfl
      · exact D.inv.live x (hsub x hx)
  have hadd : h.add hf now k v 1 0 = .ok { h0.push hf e with size := h0.size + 1 } := by
    rw [← hpl]; simp [add, he]
  have hlen0 : l0.length ≤ l.length := List.length_filter_le _ _
  obtain ⟨l', j', D', hp⟩ := autogrow_state hok (cs := cs) (j := j) I1
    (by show h0.mask = _; rw [hm0]; exact D.mask) D.pos
    (by
      show h0.size + 1 ≤ h0.mask
      rw [hm0, I0.t.size]
      have := D.room; rw [D.inv.t.size] at this
      show l0.length + 1 ≤ h.mask
      omega)
    (by
      intro x hx
      rcases List.mem_cons.1 hx with rfl | hx
      · exact hk
      · exact D.keys x (hsub x hx))
  refine ⟨l', j', ?_, ?_, ?_⟩
  · simp only [dictAdd, hadd]; exact D'
  · intro x
    rw [← lfind_congr I1.t.keys D'.inv.t.keys (fun y _ => hp.mem_iff)]
    have : lfind (e :: l0) x = if e.key = x then some e else lfind l0 x := by
      by_cases hx : e.key = x <;> simp [lfind, hx]
    rw [this, hl0, lfind_filter]
    by_cases hx : x = k
    · subst hx; simp [he]
    · have : e.key ≠ x := fun h => hx (h.symm)
      simp [hx, this]
  · intro x
    constructor
    · rintro ⟨y, hy, rfl⟩
      rcases List.mem_cons.1 (hp.mem_iff.2 hy) with rfl | hy
      · exact Or.inl rfl
      · exact Or.inr ⟨y, hsub y hy, rfl⟩
    · rintro (rfl | ⟨y, hy, rfl⟩)
      · exact ⟨e, hp.mem_iff.1 (by simp), rfl⟩
      · by_cases hyk : y.key = k
        · exact ⟨e, hp.mem_iff.1 (by simp), hyk.symm⟩
        · exact ⟨y, hp.mem_iff.1 (by simp [hl0, hy, hyk]), rfl⟩

end Hash
end Dw
