import Verif.Deadwood.HashModel
import Mathlib.Data.List.Nodup
import Mathlib.Data.List.Perm.Lattice
import Mathlib.Tactic.SplitIfs
/-! Helper lemmas about the hash model (table part). -/

namespace Dw
namespace Hash

variable {hf : List UInt8 → Nat}

/-- Lookup in a ghost list of elements. -/
def lfind (l : List Elem) (k : List UInt8) : Option Elem := l.find? (fun e => e.key == k)

/-- The table holds exactly the elements of `l`, each in its bucket. -/
structure TInv (hf : List UInt8 → Nat) (h : Hash) (l : List Elem) : Prop where
  mem : ∀ i e, e ∈ h.tbl i ↔ e ∈ l ∧ h.bucket hf e.key = i
  nodup : ∀ i, (h.tbl i).Nodup
  keys : (l.map Elem.key).Nodup
  ids : (l.map Elem.id).Nodup
  fresh : ∀ e ∈ l, e.id < h.next
  size : h.size = l.length

theorem key_inj {l : List Elem} (hk : (l.map Elem.key).Nodup) {a b : Elem} (ha : a ∈ l)
    (hb : b ∈ l) (h : a.key = b.key) : a = b := List.inj_on_of_nodup_map hk ha hb h

theorem lfind_eq_some {l : List Elem} (hk : (l.map Elem.key).Nodup) {k : List UInt8} {e : Elem} :
    lfind l k = some e ↔ e ∈ l ∧ e.key = k := by
  constructor
  · intro h
    exact ⟨List.mem_of_find?_eq_some h, by simpa using List.find?_some h⟩
  · rintro ⟨hm, rfl⟩
    have hs : (lfind l e.key).isSome := by
      simp only [lfind, List.find?_isSome]; exact ⟨e, hm, by simp⟩
    obtain ⟨x, hx⟩ := Option.isSome_iff_exists.1 hs
    rw [hx]
    have h1 : x ∈ l := List.mem_of_find?_eq_some hx
    have h2 : x.key = e.key := by simpa using List.find?_some hx
    rw [key_inj hk h1 hm h2]

theorem lfind_eq_none {l : List Elem} {k : List UInt8} :
    lfind l k = none ↔ ∀ e ∈ l, e.key ≠ k := by
  simp [lfind, List.find?_eq_none]

/-- Membership characterises lookups, so any two lists with the same members
and distinct keys give the same lookups. -/
theorem lfind_congr {l l' : List Elem} (hk : (l.map Elem.key).Nodup)
    (hk' : (l'.map Elem.key).Nodup) {k : List UInt8}
    (hm : ∀ e, e.key = k → (e ∈ l ↔ e ∈ l')) : lfind l k = lfind l' k := by
  cases h : lfind l k with
  | some e =>
    obtain ⟨h1, h2⟩ := (lfind_eq_some hk).1 h
    exact ((lfind_eq_some hk').2 ⟨(hm e h2).1 h1, h2⟩).symm
  | none =>
    rw [lfind_eq_none] at h
    refine (lfind_eq_none.2 ?_).symm
    intro e he hek
    exact h e ((hm e hek).2 he) hek

/-- The number of elements in a chain. -/
theorem TInv.chain_length {h : Hash} {l : List Elem} (I : TInv hf h l) (i : Nat) :
    (h.tbl i).length = (l.filter (fun e => h.bucket hf e.key == i)).length := by
  apply List.Perm.length_eq
  rw [List.perm_ext_iff_of_nodup (I.nodup i) ((I.keys.of_map).filter _)]
  intro e
  rw [I.mem]; simp

theorem TInv.chain_le {h : Hash} {l : List Elem} (I : TInv hf h l) (i : Nat) :
    (h.tbl i).length ≤ l.length := by
  rw [I.chain_length]; exact List.length_filter_le _ _

theorem TInv.chain_keys {h : Hash} {l : List Elem} (I : TInv hf h l) (i : Nat) :
    ((h.tbl i).map Elem.key).Nodup := by
  rw [List.nodup_map_iff_inj_on (I.nodup i)]
  intro x hx y hy hxy
  exact key_inj I.keys ((I.mem i x).1 hx).1 ((I.mem i y).1 hy).1 hxy

/-- Searching a chain that is not over-long finds exactly the element. -/
theorem TInv.grep_eq {h : Hash} {l : List Elem} (I : TInv hf h l) (k : List UInt8)
    (hc : (h.tbl (h.bucket hf k)).length ≤ 32000) : h.grep hf k = lfind l k := by
  rw [grep, List.take_of_length_le hc]
  show lfind (h.tbl (h.bucket hf k)) k = lfind l k
  apply lfind_congr (I.chain_keys _) I.keys
  rintro e rfl
  rw [I.mem]; simp

theorem TInv.perm {h : Hash} {l l' : List Elem} (I : TInv hf h l) (p : l.Perm l') :
    TInv hf h l' where
  mem i e := by rw [I.mem, p.mem_iff]
  nodup := I.nodup
  keys := (p.map _).nodup_iff.1 I.keys
  ids := (p.map _).nodup_iff.1 I.ids
  fresh e he := I.fresh e (p.mem_iff.2 he)
  size := by rw [I.size, p.length_eq]

/-- The list without one identity. -/
def noId (l : List Elem) (id : Nat) : List Elem := l.filter (fun x => x.id != id)

theorem mem_noId {l : List Elem} {id : Nat} {e : Elem} : e ∈ noId l id ↔ e ∈ l ∧ e.id ≠ id := by
  simp [noId]

theorem noId_perm {l : List Elem} (hi : (l.map Elem.id).Nodup) {e : Elem} (he : e ∈ l) :
    l.Perm (e :: noId l e.id) := by
  have hn : l.Nodup := hi.of_map
  rw [List.perm_ext_iff_of_nodup hn]
  · intro x
    simp only [List.mem_cons, mem_noId]
    constructor
    · intro hx
      by_cases h : x.id = e.id
      · exact Or.inl (List.inj_on_of_nodup_map hi hx he h)
      · exact Or.inr ⟨hx, h⟩
    · rintro (rfl | ⟨h, -⟩) <;> assumption
  · rw [List.nodup_cons]
    exact ⟨by simp [mem_noId], hn.filter _⟩

theorem TInv.unlink {h : Hash} {l : List Elem} (I : TInv hf h l) {e : Elem} (he : e ∈ l) :
    TInv hf (h.unlink e) (noId l e.id) where
  mem i x := by
    simp only [Hash.unlink, List.mem_filter, mem_noId, I.mem]
    simp only [Hash.bucket, bne_iff_ne, ne_eq]
    tauto
  nodup i := (I.nodup i).filter _
  keys := I.keys.sublist (List.Sublist.map _ List.filter_sublist)
  ids := I.ids.sublist (List.Sublist.map _ List.filter_sublist)
  fresh x hx := I.fresh x (mem_noId.1 hx).1
  size := by
    have := (noId_perm I.ids he).length_eq
    simp only [Hash.unlink, I.size, List.length_cons] at this ⊢
    omega

theorem TInv.pushed {h : Hash} {l : List Elem} (I : TInv hf h l) {e : Elem}
    (hk : ∀ x ∈ l, x.key ≠ e.key) (hi : ∀ x ∈ l, x.id ≠ e.id) (hid : e.id < h.next) :
    TInv hf { h.push hf e with size := h.size + 1 } (e :: l) where
  mem i x := by
    simp only [Hash.push]
    show x ∈ (if i = h.bucket hf e.key then e :: h.tbl i else h.tbl i) ↔
      x ∈ e :: l ∧ h.bucket hf x.key = i
    split_ifs with hb
    · simp only [List.mem_cons, I.mem]
      constructor
      · rintro (rfl | h)
        · exact ⟨Or.inl rfl, hb.symm⟩
        · exact ⟨Or.inr h.1, h.2⟩
      · rintro ⟨rfl | h, hx⟩
        · exact Or.inl rfl
        · exact Or.inr ⟨h, hx⟩
    · simp only [List.mem_cons, I.mem]
      constructor
      · intro h; exact ⟨Or.inr h.1, h.2⟩
      · rintro ⟨rfl | h, hx⟩
        · exact absurd hx.symm hb
        · exact ⟨h, hx⟩
  nodup i := by
    simp only [Hash.push]
    split_ifs with hb
    · rw [List.nodup_cons]
      refine ⟨fun hm => ?_, I.nodup i⟩
      exact hk e ((I.mem i e).1 hm).1 rfl
    · exact I.nodup i
  keys := by
    simp only [List.map_cons, List.nodup_cons, List.mem_map, not_exists, not_and]
    exact ⟨fun x hx => hk x hx, I.keys⟩
  ids := by
    simp only [List.map_cons, List.nodup_cons, List.mem_map, not_exists, not_and]
    exact ⟨fun x hx => hi x hx, I.ids⟩
  fresh x hx := by
    rcases List.mem_cons.1 hx with rfl | hx
    · exact hid
    · exact I.fresh x hx
  size := by simp [I.size]

theorem TInv.bump {h : Hash} {l : List Elem} (I : TInv hf h l) :
    TInv hf { h with next := h.next + 1 } l where
  mem := I.mem
  nodup := I.nodup
  keys := I.keys
  ids := I.ids
  fresh e he := Nat.lt_succ_of_lt (I.fresh e he)
  size := I.size

theorem TInv.withFila {h : Hash} {l : List Elem} (I : TInv hf h l) (f : List Nat) :
    TInv hf { h with fila := f } l where
  mem := I.mem
  nodup := I.nodup
  keys := I.keys
  ids := I.ids
  fresh := I.fresh
  size := I.size

/-- Identities of live elements can be followed. -/
theorem TInv.findId {h : Hash} {l : List Elem} (I : TInv hf h l) {e : Elem} (he : e ∈ l) :
    h.findId e.id = some e := by
  have hb : e ∈ h.tbl (h.bucket hf e.key) := (I.mem _ _).2 ⟨he, rfl⟩
  have hlt : h.bucket hf e.key < h.mask + 1 := Nat.lt_succ_of_le Nat.and_le_right
  have hs : (h.findId e.id).isSome := by
    rw [Hash.findId, List.findSome?_isSome_iff]
    refine ⟨_, List.mem_range.2 hlt, ?_⟩
    rw [List.find?_isSome]
    exact ⟨e, hb, by simp⟩
  obtain ⟨x, hx⟩ := Option.isSome_iff_exists.1 hs
  rw [hx]
  obtain ⟨i, -, hxi⟩ := List.exists_of_findSome?_eq_some hx
  have h1 := List.mem_of_find?_eq_some hxi
  have h2 : x.id = e.id := by simpa using List.find?_some hxi
  rw [List.inj_on_of_nodup_map I.ids ((I.mem i x).1 h1).1 he h2]

theorem TInv.init (cs n : Nat) : TInv hf (Hash.init cs n) [] where
  mem := by simp [Hash.init]
  nodup := by simp [Hash.init]
  keys := by simp
  ids := by simp
  fresh := by simp
  size := by simp [Hash.init]

end Hash
end Dw
