import Verif.Mara.BigHashModel
import Verif.Mara.LookupLemmas
import Mathlib.Data.List.Nodup
import Mathlib.Data.List.Perm.Subperm
/-!
# The main table against the records given to it: lemmas
-/

namespace Mara
namespace Big

open Dw (Res)
open Lookup (getRtype changeRtype u16)
open Spec

/-- A name (as stored) and a type. -/
abbrev Key := List UInt8 × Nat

def enc (k : Key) : List UInt8 := k.1 ++ u16 k.2

/-- Names and types that records can be stored for and found. -/
structure Good (k : Key) : Prop where
  pos : 1 ≤ k.1.length
  fits : k.1.length ≤ 253
  small : k.2 < 65001
  kind : k.2 ≠ 255 ∧ k.2 ≠ 251 ∧ k.2 ≠ 252

/-- Data and time to live. -/
abbrev Rec := List UInt8 × Nat

/-- What is stored under a key: is the server the authority, the records, and the zone whose
name servers follow. -/
structure Ent where
  auth : Bool
  recs : List Rec
  ns : Option (List UInt8)

theorem getRtype_app (b : List UInt8) (hb : 1 ≤ b.length) {t : Nat} (ht : t < 65536) : getRtype (b ++ u16 t) = some t := by
  unfold getRtype
  have hl : (b ++ u16 t).length = b.length + 2 := by simp [u16]
  rw [if_neg (by omega), hl]
  congr 1
  have h1 : (b ++ u16 t).getD (b.length + 2 - 2) 0 = UInt8.ofNat (t / 256) := by
    simp [List.getD_eq_getElem?_getD, u16]
  have h2 : (b ++ u16 t).getD (b.length + 2 - 1) 0 = UInt8.ofNat t := by
    simp [List.getD_eq_getElem?_getD, u16, List.getElem?_append]
  rw [h1, h2]
  simp only [UInt8.toNat_ofNat']
  omega

theorem enc_inj {k k' : Key} (h : k.2 < 65536) (h' : k'.2 < 65536) (he : enc k = enc k') : k = k' := by
  obtain ⟨b, t⟩ := k
  obtain ⟨b', t'⟩ := k'
  have hl : (u16 t).length = (u16 t').length := by simp [u16]
  obtain ⟨h1, h2⟩ := List.append_inj' he hl
  simp only [u16, List.cons.injEq, and_true] at h2
  have h3 := congrArg UInt8.toNat h2.1
  have h4 := congrArg UInt8.toNat h2.2
  simp only [UInt8.toNat_ofNat'] at h3 h4
  simp only at h h' h1
  rw [h1, show t = t' by omega]

/-- The nodes of one key: each has its record, points to the next, and the last one to `tail`. -/
def Path (heap : List Node) (kq : List UInt8) (t : Nat) (a : Bool) : List Nat → List Rec → Option Nat → Prop
  | [i], [r], tl => heap[i]? = some ⟨a, r.2, t, r.1, tl, true, kq⟩
  | i :: j :: l, r :: rs, tl => heap[i]? = some ⟨a, r.2, t, r.1, some j, true, kq⟩ ∧ Path heap kq t a (j :: l) rs tl
  | _, _, _ => False

/-- The nodes after those of a key. -/
def tailOf (own : Key → List Nat) (ns : Option (List UInt8)) : Option Nat := ns.bind fun z => (own (z, 2)).head?

structure Inv (s : Store) (A : Key → Option Ent) (own : Key → List Nat) (L : List UInt8 → List (Nat × Nat)) : Prop where
  none_iff : ∀ k, A k = none ↔ own k = []
  good : ∀ k, own k ≠ [] → Good k
  dict : ∀ k : Key, k.2 < 65536 → k.2 ≠ 255 → s.dict (enc k) = (own k).head?.map Cell.rr
  any : ∀ b, s.dict (enc (b, 255)) = if L b = [] then none else some (.list (L b))
  list : ∀ b t i, (t, i) ∈ L b ↔ (own (b, t)).head? = some i
  types : ∀ b, ((L b).map (·.1)).Nodup
  disj : ∀ k k' i, i ∈ own k → i ∈ own k' → k = k'
  nodup : ∀ k, (own k).Nodup
  path : ∀ k e, A k = some e → Path s.heap (enc k) k.2 e.auth (own k) e.recs (tailOf own e.ns)
  ns : ∀ k e z, A k = some e → e.ns = some z → own (z, 2) ≠ [] ∧ k.2 ≠ 2

theorem Path.ne {heap : List Node} {kq : List UInt8} {t : Nat} {a : Bool} {l : List Nat} {rs : List Rec} {tl : Option Nat}
    (h : Path heap kq t a l rs tl) : l ≠ [] := by
  intro hl
  subst hl
  cases rs <;> exact h

/-- Each node of a path. -/
theorem Path.node {heap : List Node} {kq : List UInt8} {t : Nat} {a : Bool} {tl : Option Nat} : ∀ {l : List Nat} {rs : List Rec},
    Path heap kq t a l rs tl → ∀ i ∈ l, ∃ n, heap[i]? = some n ∧ n.live = true ∧ n.type = t ∧ n.auth = a ∧ n.query = kq
  | [], _, h, _, _ => absurd rfl h.ne
  | [i], [], h, _, _ => h.elim
  | [i], [r], h, x, hx => by
    rw [List.mem_singleton.1 hx]
    exact ⟨_, h, rfl, rfl, rfl, rfl⟩
  | [i], _ :: _ :: _, h, _, _ => h.elim
  | _ :: _ :: _, [], h, _, _ => h.elim
  | i :: j :: l, r :: rs, h, x, hx => by
    rcases List.mem_cons.1 hx with hx | hx
    · rw [hx]
      exact ⟨_, h.1, rfl, rfl, rfl, rfl⟩
    · exact Path.node h.2 x hx

theorem Path.lt {heap : List Node} {kq : List UInt8} {t : Nat} {a : Bool} {tl : Option Nat} {l : List Nat} {rs : List Rec}
    (h : Path heap kq t a l rs tl) : ∀ i ∈ l, i < heap.length := by
  intro i hi
  obtain ⟨n, hn, _⟩ := h.node i hi
  exact (List.getElem?_eq_some_iff.1 hn).1

/-- A path only depends on its own nodes. -/
theorem Path.frame {heap heap' : List Node} {kq : List UInt8} {t : Nat} {a : Bool} {tl : Option Nat} : ∀ {l : List Nat} {rs : List Rec},
    Path heap kq t a l rs tl → (∀ i ∈ l, heap'[i]? = heap[i]?) → Path heap' kq t a l rs tl
  | [], _, h, _ => absurd rfl h.ne
  | [i], [], h, _ => h.elim
  | [i], [r], h, hf => by
    have := hf i (List.mem_singleton.2 rfl)
    exact this.trans h
  | [i], _ :: _ :: _, h, _ => h.elim
  | _ :: _ :: _, [], h, _ => h.elim
  | i :: j :: l, r :: rs, h, hf =>
    ⟨(hf i (List.mem_cons_self ..)).trans h.1, Path.frame h.2 fun x hx => hf x (List.mem_cons_of_mem _ hx)⟩

/-- The list of types at a name is never too long. -/
theorem Inv.short {s : Store} {A : Key → Option Ent} {own : Key → List Nat} {L : List UInt8 → List (Nat × Nat)}
    (inv : Inv s A own L) (b : List UInt8) : (L b).length ≤ 65001 := by
  have h1 : (L b).map (·.1) ⊆ List.range 65001 := by
    intro t ht
    obtain ⟨⟨t', i⟩, hm, he⟩ := List.mem_map.1 ht
    have he : t' = t := he
    subst he
    have := (inv.list b t' i).1 hm
    have hne : own (b, t') ≠ [] := by
      intro h0
      rw [h0] at this
      cases this
    have hg := (inv.good _ hne).small
    exact List.mem_range.2 hg
  have h2 := ((inv.types b).subperm h1).length_le
  rwa [List.length_map, List.length_range] at h2

theorem rtype_good {k : Key} (hg : Good k) : getRtype (enc k) = some k.2 :=
  getRtype_app _ hg.pos (by have := hg.small; omega)

theorem change_good {k : Key} (hg : Good k) {u : Nat} (hu : u < 65536) : changeRtype (enc k) u = some (enc (k.1, u)) :=
  Lookup.changeRtype_app _ hg.pos k.2 u hu

theorem enc_length (k : Key) : (enc k).length = k.1.length + 2 := by simp [enc, u16]

/-- Update of a function on keys. -/
def upd {β : Type} {α : Type} [DecidableEq α] (f : α → β) (k : α) (v : β) : α → β := fun x => if x = k then v else f x

theorem upd_same {β α : Type} [DecidableEq α] (f : α → β) (k : α) (v : β) : upd f k v k = v := if_pos rfl

theorem upd_ne {β α : Type} [DecidableEq α] (f : α → β) {k x : α} (v : β) (h : x ≠ k) : upd f k v x = f x := if_neg h

theorem set_dict_same (s : Store) (k : List UInt8) (v : Option Cell) : (s.set k v).dict k = v := if_pos rfl

theorem set_dict_ne (s : Store) {k x : List UInt8} (v : Option Cell) (h : x ≠ k) : (s.set k v).dict x = s.dict x := if_neg h

/-- The state after a new key. -/
theorem Inv.put {s : Store} {A : Key → Option Ent} {own : Key → List Nat} {L : List UInt8 → List (Nat × Nat)}
    (inv : Inv s A own L) {k : Key} (hg : Good k) (hA : A k = none) (r : Rec) (auth : Bool) (ns : Option (List UInt8))
    (hns : ∀ z, ns = some z → own (z, 2) ≠ [] ∧ k.2 ≠ 2) {s' : Store}
    (hheap : s'.heap = s.heap ++ [⟨auth, r.2, k.2, r.1, tailOf own ns, true, enc k⟩])
    (hdict : s'.dict = ((s.set (enc k) (some (.rr s.heap.length))).set (enc (k.1, 255))
      (some (.list (L k.1 ++ [(k.2, s.heap.length)])))).dict) :
    Inv s' (upd A k (some ⟨auth, [r], ns⟩)) (upd own k [s.heap.length]) (upd L k.1 (L k.1 ++ [(k.2, s.heap.length)])) := by
  have hown : own k = [] := (inv.none_iff k).1 hA
  have hsm := hg.small
  have hk255 : enc k ≠ enc (k.1, 255) := by
    intro h
    have := enc_inj (by omega) (by simp) h
    exact hg.kind.1 (by rw [this])
  have hlt : ∀ k' i, i ∈ own k' → i < s.heap.length := by
    intro k' i hi
    cases hA' : A k' with
    | none => rw [(inv.none_iff k').1 hA'] at hi; cases hi
    | some e => exact (inv.path k' e hA').lt i hi
  have htail : ∀ ns', (∀ z, ns' = some z → own (z, 2) ≠ []) →
      tailOf (upd own k [s.heap.length]) ns' = tailOf own ns' := by
    intro ns' h
    cases ns' with
    | none => rfl
    | some z =>
      have : (z, 2) ≠ k := by
        intro he
        have := h z rfl
        rw [he] at this
        exact this hown
      simp only [tailOf, Option.bind_some, upd_ne own _ this]
  refine ⟨?_, ?_, ?_, ?_, ?_, ?_, ?_, ?_, ?_, ?_⟩
  · intro x
    by_cases hx : x = k
    · subst hx; simp [upd_same]
    · rw [upd_ne _ _ hx, upd_ne _ _ hx]; exact inv.none_iff x
  · intro x hne
    by_cases hx : x = k
    · rw [hx]; exact hg
    · rw [upd_ne _ _ hx] at hne; exact inv.good x hne
  · intro x hx1 hx2
    rw [hdict]
    have h255 : enc x ≠ enc (k.1, 255) := by
      intro h
      have := enc_inj hx1 (by simp) h
      exact hx2 (by rw [this])
    rw [set_dict_ne _ _ h255]
    by_cases hx : x = k
    · subst hx
      rw [set_dict_same, upd_same]; rfl
    · have : enc x ≠ enc k := fun h => hx (enc_inj hx1 (by omega) h)
      rw [set_dict_ne _ _ this, upd_ne _ _ hx]
      exact inv.dict x hx1 hx2
  · intro b
    rw [hdict]
    by_cases hb : b = k.1
    · subst hb
      rw [set_dict_same, upd_same, if_neg (by simp)]
    · have h1 : enc (b, 255) ≠ enc (k.1, 255) := by
        intro h
        have := enc_inj (by simp) (by simp) h
        exact hb (congrArg Prod.fst this)
      have h2 : enc (b, 255) ≠ enc k := by
        intro h
        have := enc_inj (by simp) (by omega) h
        exact hb (by rw [← this])
      rw [set_dict_ne _ _ h1, set_dict_ne _ _ h2, upd_ne _ _ hb]
      exact inv.any b
  · intro b t i
    by_cases hb : b = k.1
    · subst hb
      rw [upd_same, List.mem_append, List.mem_singleton]
      by_cases ht : t = k.2
      · subst ht
        rw [upd_same]
        have : (k.2, i) ∉ L k.1 := by
          intro h
          have := (inv.list _ _ _).1 h
          have hk : own (k.1, k.2) = [] := hown
          rw [hk] at this
          cases this
        simp [this, eq_comm]
      · have hne : (k.1, t) ≠ k := by
          intro h
          exact ht (by rw [← h])
        rw [upd_ne _ _ hne, ← inv.list]
        simp [ht]
    · have hne : (b, t) ≠ k := by
        intro h
        exact hb (by rw [← h])
      rw [upd_ne _ _ hb, upd_ne _ _ hne]
      exact inv.list b t i
  · intro b
    by_cases hb : b = k.1
    · subst hb
      rw [upd_same, List.map_append, List.map_singleton]
      have := inv.types k.1
      rw [List.nodup_append]
      refine ⟨this, by simp, ?_⟩
      intro a ha c hc
      rw [List.mem_singleton] at hc
      subst hc
      intro hac
      obtain ⟨⟨t', i⟩, hm, he⟩ := List.mem_map.1 ha
      have he : t' = a := he
      subst he
      have := (inv.list _ _ _).1 hm
      have hk : own (k.1, k.2) = [] := hown
      rw [hac, hk] at this
      cases this
    · rw [upd_ne _ _ hb]; exact inv.types b
  · intro x y i hx hy
    by_cases h1 : x = k
    · by_cases h2 : y = k
      · rw [h1, h2]
      · subst h1
        rw [upd_same, List.mem_singleton] at hx
        rw [upd_ne _ _ h2] at hy
        have := hlt _ _ hy
        omega
    · rw [upd_ne _ _ h1] at hx
      by_cases h2 : y = k
      · subst h2
        rw [upd_same, List.mem_singleton] at hy
        have := hlt _ _ hx
        omega
      · rw [upd_ne _ _ h2] at hy
        exact inv.disj x y i hx hy
  · intro x
    by_cases hx : x = k
    · subst hx; simp [upd_same]
    · rw [upd_ne _ _ hx]; exact inv.nodup x
  · intro x e he
    by_cases hx : x = k
    · subst hx
      rw [upd_same] at he ⊢
      injection he with he
      subst he
      rw [hheap, htail ns (fun z hz => (hns z hz).1)]
      simp [Path]
    · rw [upd_ne _ _ hx] at he ⊢
      rw [htail e.ns (fun z hz => (inv.ns x e z he hz).1)]
      refine (inv.path x e he).frame ?_
      intro i hi
      rw [hheap, List.getElem?_append_left ((inv.path x e he).lt i hi)]
  · intro x e z he hz
    have up : own (z, 2) ≠ [] → upd own k [s.heap.length] (z, 2) ≠ [] := by
      intro h
      by_cases hzk : (z, 2) = k
      · rw [hzk, upd_same]; simp
      · rw [upd_ne _ _ hzk]; exact h
    by_cases hx : x = k
    · subst hx
      rw [upd_same] at he
      injection he with he
      subst he
      exact ⟨up (hns z hz).1, (hns z hz).2⟩
    · rw [upd_ne _ _ hx] at he
      have := inv.ns x e z he hz
      exact ⟨up this.1, this.2⟩

end Big
end Mara
