import Verif.Mara.HashModel
import Verif.Spec.Dict
/-!
# The associative arrays against dictionaries: lemmas
-/

namespace Mara
namespace Hash

open Dw (Res)

variable {ν : Type}

/-- All entries. -/
def MHash.entries (h : MHash ν) : List (List UInt8 × ν) := h.table.flatten

/-- What holds of every array: each entry is in the chain of its hash, no key is there twice, and
the count is not too small. -/
structure Inv (c : UInt32) (h : MHash ν) : Prop where
  low : 1 ≤ h.bits
  high : h.bits ≤ 24
  size : h.table.length = 2 ^ h.bits
  here : ∀ i chain, h.table[i]? = some chain → ∀ e ∈ chain, hashOf c h.bits e.1 = .ok i
  once : (h.entries.map (·.1)).Nodup
  counted : h.entries.length ≤ h.count

theorem masks_eq {n : Nat} (h1 : 1 ≤ n) (h2 : n ≤ 30) : masks[n]? = some (2 ^ n - 1) := by
  have : ∀ n : Fin 31, 1 ≤ n.1 → masks[n.1]? = some (2 ^ n.1 - 1) := by decide +kernel
  exact this ⟨n, by omega⟩ h1

theorem hashLoop_ok (c : UInt32) {bits : Nat} (hb : bits ≤ 24) : ∀ (l : List UInt8) (shift : Nat) (ret : UInt32),
    shift < bits → ∃ r, hashLoop c bits l shift ret = .ok r
  | [], _, ret, _ => ⟨ret, rfl⟩
  | b :: l, shift, ret, h => by
    have h1 : 2 ^ shift ≤ 2 ^ 23 := Nat.pow_le_pow_right (by decide) (by omega)
    have h2 : b.toNat * 2 ^ shift ≤ 255 * 2 ^ 23 := Nat.mul_le_mul (by have := b.toNat_lt; omega) h1
    unfold hashLoop
    rw [if_neg (by omega)]
    exact hashLoop_ok c hb l _ _ (Nat.mod_lt _ (by omega))

theorem hashOf_ok (c : UInt32) {bits : Nat} (h1 : 1 ≤ bits) (h2 : bits ≤ 24) (key : List UInt8) :
    ∃ i, hashOf c bits key = .ok i ∧ 1 ≤ i ∧ i < 2 ^ bits := by
  obtain ⟨r, hr⟩ := hashLoop_ok c h2 key 0 0 (by omega)
  have hp : 2 ^ 1 ≤ 2 ^ bits := Nat.pow_le_pow_right (by decide) h1
  unfold hashOf
  rw [if_neg (by omega), hr, Res.ok_bind, masks_eq h1 (by omega)]
  refine ⟨_, rfl, ?_, ?_⟩
  · split
    · exact Nat.le_refl 1
    · rename_i hne
      have : ((r ^^^ r >>> 7) &&& UInt32.ofNat (2 ^ bits - 1)).toNat ≠ 0 := fun h0 => hne (UInt32.toNat_inj.1 h0)
      omega
  · split
    · omega
    · rw [UInt32.toNat_and]
      have := @Nat.and_le_right (r ^^^ r >>> 7).toNat (UInt32.ofNat (2 ^ bits - 1)).toNat
      have h3 : (UInt32.ofNat (2 ^ bits - 1)).toNat ≤ 2 ^ bits - 1 := by
        rw [UInt32.toNat_ofNat']
        exact Nat.mod_le _ _
      omega

theorem split_at {α : Type} {l : List α} {i : Nat} {x : α} (h : l[i]? = some x) :
    ∃ A B, l = A ++ x :: B ∧ A.length = i ∧ ∀ y, l.set i y = A ++ y :: B := by
  obtain ⟨hi, hx⟩ := List.getElem?_eq_some_iff.1 h
  refine ⟨l.take i, l.drop (i + 1), ?_, by simp; omega, fun y => ?_⟩
  · rw [← hx, List.getElem_cons_drop, List.take_append_drop]
  · rw [List.set_eq_take_append_cons_drop, if_pos hi]

/-- An entry is in the chain of its hash. -/
theorem mem_entries {c : UInt32} {h : MHash ν} (inv : Inv c h) {i : Nat} {chain : List (List UInt8 × ν)} {k : List UInt8}
    (hi : hashOf c h.bits k = .ok i) (hc : h.table[i]? = some chain) (v : ν) :
    (k, v) ∈ h.entries ↔ (k, v) ∈ chain := by
  constructor
  · intro hm
    obtain ⟨ch, h1, h2⟩ := List.mem_flatten.1 hm
    obtain ⟨j, hj⟩ := List.mem_iff_getElem?.1 h1
    have := inv.here j ch hj _ h2
    rw [hi] at this
    obtain rfl : i = j := by injection this
    rw [hc] at hj
    injection hj with hj
    exact hj ▸ h2
  · intro hm
    exact List.mem_flatten.2 ⟨chain, List.mem_iff_getElem?.2 ⟨i, hc⟩, hm⟩

theorem entries_unique {c : UInt32} {h : MHash ν} (inv : Inv c h) {k : List UInt8} {v w : ν}
    (hv : (k, v) ∈ h.entries) (hw : (k, w) ∈ h.entries) : v = w := by
  have key : ∀ (l : List (List UInt8 × ν)), (l.map (·.1)).Nodup → (k, v) ∈ l → (k, w) ∈ l → v = w := by
    intro l
    induction l with
    | nil => intro _ h; cases h
    | cons e l ih =>
      intro hn h1 h2
      rw [List.map_cons, List.nodup_cons] at hn
      rcases List.mem_cons.1 h1 with a | a
      · rcases List.mem_cons.1 h2 with b | b
        · rw [← a] at b; injection b with _ b; exact b.symm
        · refine absurd (List.mem_map.2 ⟨_, b, ?_⟩) hn.1
          rw [← a]
      · rcases List.mem_cons.1 h2 with b | b
        · refine absurd (List.mem_map.2 ⟨_, a, ?_⟩) hn.1
          rw [← b]
        · exact ih hn.2 a b
  exact key _ inv.once hv hw

/-- The chain of a key. -/
theorem chain_at {c : UInt32} {h : MHash ν} (inv : Inv c h) (k : List UInt8) :
    ∃ i chain, hashOf c h.bits k = .ok i ∧ 1 ≤ i ∧ h.table[i]? = some chain := by
  obtain ⟨i, h1, h2, h3⟩ := hashOf_ok c inv.low inv.high k
  rw [← inv.size] at h3
  exact ⟨i, h.table[i], h1, h2, List.getElem?_eq_getElem h3⟩

theorem find_none {chain : List (List UInt8 × ν)} {k : List UInt8} :
    chain.find? (·.1 == k) = none ↔ ∀ v, (k, v) ∉ chain := by
  rw [List.find?_eq_none]
  constructor
  · intro h v hm
    exact h _ hm (by simp)
  · intro h e he hb
    obtain ⟨a, b⟩ := e
    simp at hb
    exact h b (hb ▸ he)

theorem find_some {chain : List (List UInt8 × ν)} {k : List UInt8} {e : List UInt8 × ν}
    (h : chain.find? (·.1 == k) = some e) : e = (k, e.2) ∧ e ∈ chain := by
  have h1 := List.find?_some h
  simp at h1
  exact ⟨by rw [← h1], List.mem_of_find?_eq_some h⟩

/-- What is found are the entries. -/
theorem get_mem {c : UInt32} {h : MHash ν} (inv : Inv c h) (k : List UInt8) :
    ∃ o, get c h k = .ok o ∧ ∀ v, o = some v ↔ (k, v) ∈ h.entries := by
  obtain ⟨i, chain, h1, _, h3⟩ := chain_at inv k
  unfold get
  rw [h1, Res.ok_bind, h3]
  refine ⟨_, rfl, fun v => ?_⟩
  cases hf : chain.find? (·.1 == k) with
  | none =>
    have hn := find_none.1 hf v
    rw [mem_entries inv h1 h3]
    simp [hn]
  | some e =>
    obtain ⟨he, hm⟩ := find_some hf
    rw [he] at hm
    have hm' := (mem_entries inv h1 h3 e.2).2 hm
    constructor
    · intro hv
      have : e.2 = v := by simpa using hv
      exact this ▸ hm'
    · intro hv
      rw [entries_unique inv hv hm']
      rfl

theorem put_err {c : UInt32} {h : MHash ν} (inv : Inv c h) {k : List UInt8} {w : ν} (hw : (k, w) ∈ h.entries) (v : ν) :
    put c h k v = .err := by
  obtain ⟨i, chain, h1, _, h3⟩ := chain_at inv k
  unfold put
  rw [h1, Res.ok_bind, h3]
  have := (mem_entries inv h1 h3 w).1 hw
  have ha : chain.any (·.1 == k) = true := List.any_eq_true.2 ⟨_, this, by simp⟩
  exact if_pos ha

theorem put_ok {c : UInt32} {h : MHash ν} (inv : Inv c h) {k : List UInt8} (hn : ∀ w, (k, w) ∉ h.entries) (v : ν) :
    ∃ h', put c h k v = .ok h' ∧ Inv c h' ∧ h'.entries.Perm ((k, v) :: h.entries) ∧ h'.bits = h.bits
      ∧ h'.count = h.count + 1 := by
  obtain ⟨i, chain, h1, _, h3⟩ := chain_at inv k
  have ha : ¬ chain.any (·.1 == k) = true := by
    intro ha
    obtain ⟨⟨a, b⟩, hm, hb⟩ := List.any_eq_true.1 ha
    have hb : a = k := by simpa using hb
    subst hb
    exact hn b ((mem_entries inv h1 h3 b).2 hm)
  obtain ⟨A, B, hT, hl, hset⟩ := split_at h3
  have hperm : (h.table.set i (chain ++ [(k, v)])).flatten.Perm ((k, v) :: h.entries) := by
    rw [hset, MHash.entries, hT]
    simp only [List.flatten_append, List.flatten_cons, List.append_assoc]
    refine (List.Perm.trans ?_ List.perm_middle)
    refine List.Perm.append_left _ ?_
    exact List.perm_middle
  unfold put
  rw [h1, Res.ok_bind, h3]
  refine ⟨{ h with table := h.table.set i (chain ++ [(k, v)]), count := h.count + 1 }, if_neg ha, ?_, hperm, rfl, rfl⟩
  have hlen := hperm.length_eq
  rw [List.length_cons] at hlen
  have hcnt := inv.counted
  refine ⟨inv.low, inv.high, by simpa using inv.size, ?_, ?_, by simp only [MHash.entries] at *; omega⟩
  · intro j ch hj e he
    simp only [List.getElem?_set] at hj
    split at hj
    · rename_i hij
      subst hij
      split at hj
      · injection hj with hj
        subst hj
        rcases List.mem_append.1 he with he | he
        · exact inv.here i chain h3 e he
        · rw [List.mem_singleton.1 he]
          exact h1
      · cases hj
    · exact inv.here j ch hj e he
  · refine ((hperm.map (·.1)).nodup_iff).2 ?_
    rw [List.map_cons, List.nodup_cons]
    refine ⟨?_, inv.once⟩
    intro hm
    obtain ⟨⟨a, b⟩, hm2, hb⟩ := List.mem_map.1 hm
    have hb : a = k := hb
    subst hb
    exact hn b hm2

theorem eraseP_perm {chain : List (List UInt8 × ν)} {k : List UInt8} {e : List UInt8 × ν}
    (h : chain.find? (·.1 == k) = some e) : chain.Perm (e :: chain.eraseP (·.1 == k)) := by
  induction chain with
  | nil => cases h
  | cons x l ih =>
    rw [List.find?_cons] at h
    rw [List.eraseP_cons]
    cases hx : x.1 == k with
    | true =>
      rw [hx] at h
      injection h with h
      subst h
      exact List.Perm.refl _
    | false =>
      rw [hx] at h
      refine List.Perm.trans (List.Perm.cons x (ih h)) ?_
      simp only [cond_false]
      exact List.Perm.swap _ _ _

theorem undef_none {c : UInt32} {h : MHash ν} (inv : Inv c h) {k : List UInt8} (hn : ∀ w, (k, w) ∉ h.entries) :
    undef c h k = .ok (none, h) := by
  obtain ⟨i, chain, h1, _, h3⟩ := chain_at inv k
  unfold undef
  rw [h1, Res.ok_bind, h3]
  have : chain.find? (·.1 == k) = none := find_none.2 fun v hm => hn v ((mem_entries inv h1 h3 v).2 hm)
  simp only [this]

theorem undef_some {c : UInt32} {h : MHash ν} (inv : Inv c h) {k : List UInt8} {w : ν} (hw : (k, w) ∈ h.entries) :
    ∃ h', undef c h k = .ok (some w, h') ∧ Inv c h' ∧ h.entries.Perm ((k, w) :: h'.entries) ∧ h'.bits = h.bits
      ∧ h'.count = h.count - 1 := by
  obtain ⟨i, chain, h1, _, h3⟩ := chain_at inv k
  unfold undef
  rw [h1, Res.ok_bind, h3]
  have hm := (mem_entries inv h1 h3 w).1 hw
  cases hf : chain.find? (·.1 == k) with
  | none => exact absurd hm (find_none.1 hf w)
  | some e =>
    obtain ⟨he, hme⟩ := find_some hf
    have hwe : e.2 = w := by
      rw [he] at hme
      exact entries_unique inv ((mem_entries inv h1 h3 _).2 hme) hw
    have he' : e = (k, w) := by rw [he, hwe]
    subst he'
    obtain ⟨A, B, hT, hl, hset⟩ := split_at h3
    have hperm : h.entries.Perm ((k, w) :: (h.table.set i (chain.eraseP (·.1 == k))).flatten) := by
      rw [hset, MHash.entries, hT]
      simp only [List.flatten_append, List.flatten_cons]
      refine List.Perm.trans ?_ List.perm_middle
      refine List.Perm.append_left _ ?_
      exact (eraseP_perm hf).append_right _
    have hlen := hperm.length_eq
    rw [List.length_cons] at hlen
    have hcnt := inv.counted
    refine ⟨{ h with table := h.table.set i (chain.eraseP (·.1 == k)), count := h.count - 1 }, by simp only [hf],
      ⟨inv.low, inv.high, by simpa using inv.size, ?_, ?_, by simp only [MHash.entries] at *; omega⟩, hperm, rfl, rfl⟩
    · intro j ch hj e he
      simp only [List.getElem?_set] at hj
      split at hj
      · rename_i hij
        subst hij
        split at hj
        · injection hj with hj
          subst hj
          exact inv.here i chain h3 e (List.mem_of_mem_eraseP he)
        · cases hj
      · exact inv.here j ch hj e he
    · have := ((hperm.map (·.1)).nodup_iff).1 inv.once
      rw [List.map_cons, List.nodup_cons] at this
      exact this.2

theorem refill_ok {c : UInt32} : ∀ (l : List (List UInt8 × ν)) (h : MHash ν), Inv c h →
    ((l ++ h.entries).map (·.1)).Nodup →
    ∃ h', refill c l h = .ok h' ∧ Inv c h' ∧ h'.entries.Perm (l ++ h.entries) ∧ h'.bits = h.bits
      ∧ h'.count = h.count + l.length
  | [], h, inv, _ => ⟨h, rfl, inv, List.Perm.refl _, rfl, rfl⟩
  | e :: l, h, inv, hn => by
    rw [List.cons_append, List.map_cons, List.nodup_cons] at hn
    have hk : ∀ w, (e.1, w) ∉ h.entries := by
      intro w hw
      exact hn.1 (List.mem_map.2 ⟨(e.1, w), List.mem_append_right _ hw, rfl⟩)
    obtain ⟨h1, p1, i1, q1, b1, c1⟩ := put_ok inv hk e.2
    have hperm : (l ++ h1.entries).Perm (e :: (l ++ h.entries)) :=
      List.Perm.trans (q1.append_left l) List.perm_middle
    have hn1 : ((l ++ h1.entries).map (·.1)).Nodup := by
      refine ((hperm.map (·.1)).nodup_iff).2 ?_
      rw [List.map_cons, List.nodup_cons]
      exact hn
    obtain ⟨h2, p2, i2, q2, b2, c2⟩ := refill_ok l h1 i1 hn1
    refine ⟨h2, ?_, i2, q2.trans hperm, b2.trans b1, ?_⟩
    · unfold refill
      rw [p1]
      exact p2
    · rw [c2, c1, List.length_cons]
      omega

theorem flatten_replicate_nil (n : Nat) : (List.replicate n ([] : List (List UInt8 × ν))).flatten = [] := by
  induction n with
  | zero => rfl
  | succ n ih => rw [List.replicate_succ, List.flatten_cons, ih]; rfl

theorem inv_empty (c : UInt32) {bits : Nat} (h1 : 1 ≤ bits) (h2 : bits ≤ 24) (n : Nat) :
    Inv c ({ bits, table := List.replicate (2 ^ bits - 1 + 1) [], count := n } : MHash ν) := by
  refine ⟨h1, h2, ?_, ?_, ?_, ?_⟩
  · have : 0 < 2 ^ bits := Nat.pow_pos (by decide)
    simp only [List.length_replicate]
    omega
  · intro i chain h e he
    simp only [List.getElem?_replicate] at h
    split at h
    · injection h with h
      subst h
      cases he
    · cases h
  · simp only [MHash.entries, flatten_replicate_nil, List.map_nil, List.nodup_nil]
  · simp only [MHash.entries, flatten_replicate_nil, List.length_nil, Nat.zero_le]

/-- The chain with the number 0 is empty. -/
theorem entries_drop {c : UInt32} {h : MHash ν} (inv : Inv c h) : (h.table.drop 1).flatten = h.entries := by
  cases ht : h.table with
  | nil => rw [MHash.entries, ht]; rfl
  | cons a t =>
    have : a = [] := by
      cases a with
      | nil => rfl
      | cons e a =>
        have h0 := inv.here 0 (e :: a) (by rw [ht]; rfl) e (List.mem_cons_self ..)
        obtain ⟨i, h1, h2, _⟩ := hashOf_ok c inv.low inv.high e.1
        rw [h0] at h1
        injection h1 with h1
        omega
    rw [MHash.entries, ht, this]
    rfl

theorem resize_ok {c : UInt32} {h : MHash ν} (inv : Inv c h) {bits : Nat} (h1 : 1 ≤ bits) (h2 : bits ≤ 24) :
    ∃ h', resize c h bits = .ok h' ∧ Inv c h' ∧ h'.entries.Perm h.entries ∧ h'.bits = bits
      ∧ h'.count = h.count + h.entries.length := by
  unfold resize
  rw [if_neg (by omega), masks_eq h1 (by omega), entries_drop inv]
  have he : MHash.entries ({ bits, table := List.replicate (2 ^ bits - 1 + 1) [], count := h.count } : MHash ν) = [] :=
    flatten_replicate_nil _
  obtain ⟨h', p, i, q, b, n⟩ := refill_ok (c := c) h.entries _ (inv_empty c h1 h2 h.count)
    (by rw [he, List.append_nil]; exact inv.once)
  rw [he, List.append_nil] at q
  exact ⟨h', p, i, q, b, n⟩

theorem create_ok (c : UInt32) {bits : Nat} (h1 : 1 ≤ bits) (h2 : bits ≤ 24) :
    ∃ h : MHash ν, create bits = .ok h ∧ Inv c h ∧ h.entries = [] ∧ h.bits = bits ∧ h.count = 0 := by
  unfold create
  rw [masks_eq h1 (by omega)]
  exact ⟨_, rfl, inv_empty c h1 h2 0, flatten_replicate_nil _, rfl, rfl⟩

end Hash
end Mara
