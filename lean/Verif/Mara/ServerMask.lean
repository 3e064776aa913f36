import Verif.Mara.ServerHold
import Verif.Mara.ReplyProps
import Verif.Mara.ReplyMask
/-!
# Lemmas: the records that are not star records, and how replies change their order
-/

namespace Mara
namespace Server

open Dw (Res)
open Spec
open Big (Key enc base Cell)
open Reply (Chain Closed SameOn Heap Node toEnd)

/-- The places of records that are not star records. -/
def World.Plain (W : World) (i : Nat) : Prop := ∃ n t, LabelsOk n ∧ i ∈ W.own (encName n, t)

/-- The records, told apart by their places. -/
def World.shelf (W : World) : Shelf := ⟨W.item, fun star n t => W.own (base star n, t)⟩

/-- The records are in memory in this order. -/
structure Mask (W : World) (v6 : Bool) (o : Order) (h : Heap) : Prop where
  good : Reply.Good h W.item
  closed : Closed W.Plain h
  looks : ∀ n t, LabelsOk n → ∀ i ∈ W.own (encName n, t), ∃ p, h[i]? = some p ∧ Looks W v6 (encName n, t) i p
  chain : ∀ n t, LabelsOk n → W.own (encName n, t) ≠ [] → Chain h (o n t).head? (o n t ++ W.tail (encName n, t))
  perm : ∀ n t, LabelsOk n → (o n t).Perm (W.own (encName n, t))
  still : ∀ n, LabelsOk n → o n 2 = W.own (encName n, 2)

/-- What stands for the records that are not looked at. -/
def standIn (r : Rec) : Node where
  query := encName r.name ++ be16 r.type
  data := r.rdata
  ttl := r.ttl
  type := r.type
  auth := false
  next := none

open Classical in
/-- The records without the star records. -/
noncomputable def masked (W : World) (h : Heap) : Heap := h.mapIdx fun i p => if W.Plain i then p else standIn (W.item i)

theorem masked_get (W : World) (h : Heap) (i : Nat) {p : Node} (hp : h[i]? = some p) :
    (W.Plain i → (masked W h)[i]? = some p) ∧ (¬W.Plain i → (masked W h)[i]? = some (standIn (W.item i))) := by
  unfold masked
  rw [List.getElem?_mapIdx, hp]
  constructor
  · intro h; simp [h]
  · intro h; simp [h]

theorem masked_same (W : World) (h : Heap) : SameOn W.Plain (masked W h) h where
  len := by simp [masked]
  at_ i hi := by
    cases hp : h[i]? with
    | none => unfold masked; rw [List.getElem?_mapIdx, hp]; rfl
    | some p => exact (masked_get W h i hp).1 hi

/-- The chain behind a record of it. -/
theorem chain_next {h : Heap} : ∀ {l : List Nat} {o : Option Nat}, Chain h o l → ∀ i ∈ l, ∀ p : Node, h[i]? = some p → ∀ j, p.next = some j →
    ∃ a b, l = a ++ i :: j :: b
  | _, _, .nil, i, hi, _, _, _, _ => by cases hi
  | _, _, .cons (i := i0) (p := p0) (l := l) hp hc, i, hi, p, hpi, j, hj => by
    rcases List.mem_cons.1 hi with rfl | hi
    · rw [hp] at hpi
      injection hpi with hpi
      subst hpi
      rw [hj] at hc
      cases hc with
      | @cons _ q l' hq hc' => exact ⟨[], l', rfl⟩
    · obtain ⟨a, b, e⟩ := chain_next hc i hi p hpi j hj
      exact ⟨i0 :: a, b, by rw [e]; rfl⟩

/-- Chains of records that are the same. -/
theorem chain_congr {h h' : Heap} : ∀ {l : List Nat} {o : Option Nat}, Chain h o l → (∀ i ∈ l, h'[i]? = h[i]?) → Chain h' o l
  | _, _, .nil, _ => .nil
  | _, _, .cons (i := i) hp hc, hs => .cons (by rw [hs i (by simp)]; exact hp) (chain_congr hc fun j hj => hs j (List.mem_cons_of_mem _ hj))

section
variable {W : World} {v6 : Bool} {h : Heap} {dict : List UInt8 → Option Cell}

theorem Stands.tailPlain (st : Stands W v6 h dict) (k : Key) : ∀ i ∈ W.tail k, W.Plain i ∧ ∃ z, LabelsOk z ∧ i ∈ W.own (encName z, 2) := by
  intro i hi
  rcases st.tail k with h0 | ⟨_, z, hz, e⟩
  · rw [h0] at hi; cases hi
  · rw [e] at hi
    exact ⟨⟨z, 2, hz, hi⟩, z, hz, hi⟩

/-- Hosts are not star names. -/
theorem Stands.host (st : Stands W v6 h dict) {star : Bool} {n : Name} {t : Nat} (hn : LabelsOk n) {i : Nat} (hi : i ∈ W.own (base star n, t))
    (ht : t = 2 ∨ t = 5 ∨ t = 15) : NameOk (W.host i) := by
  obtain ⟨h1, _, h3, _⟩ := st.item star n t hn i hi
  exact (rdata_host h1 (by rw [h3]; exact ht)).2.1

theorem Stands.holds (st : Stands W v6 h dict) {n : Name} {t : Nat} (hn : LabelsOk n) {i : Nat} (hi : i ∈ W.own (encName n, t)) {p : Node}
    (lk : Looks W v6 (encName n, t) i p) : Reply.Holds p (W.item i) := by
  obtain ⟨h1, h2, h3, h4⟩ := st.item false n t hn i hi
  exact ⟨by rw [lk.query, h2, h3]; rfl, by rw [lk.type, h3], h4, lk.ttl, lk.data, h1⟩

theorem Stands.mask (st : Stands W v6 h dict) : Mask W v6 (fun n t => W.own (encName n, t)) (masked W h) := by
  have hget : ∀ {i : Nat} {p : Node}, (masked W h)[i]? = some p →
      (∃ n t, LabelsOk n ∧ i ∈ W.own (encName n, t) ∧ h[i]? = some p ∧ Looks W v6 (encName n, t) i p) ∨ (¬W.Plain i ∧ p = standIn (W.item i)) := by
    intro i p hp
    obtain ⟨q, hq⟩ : ∃ q, h[i]? = some q := by
      have : i < h.length := by
        have := (List.getElem?_eq_some_iff.1 hp).1
        rwa [(masked_same W h).len] at this
      exact ⟨_, List.getElem?_eq_getElem this⟩
    by_cases hd : W.Plain i
    · rw [(masked_get W h i hq).1 hd] at hp
      injection hp with hp
      subst hp
      obtain ⟨n, t, hn, hi⟩ := hd
      obtain ⟨p', hp', lk⟩ := st.looks _ i hi
      rw [hq] at hp'
      injection hp' with hp'
      subst hp'
      exact .inl ⟨n, t, hn, hi, hq, lk⟩
    · rw [(masked_get W h i hq).2 hd] at hp
      injection hp with hp
      exact .inr ⟨hd, hp.symm⟩
  have hnode : ∀ {k : Key} {i : Nat}, i ∈ W.own k → i < (masked W h).length := by
    intro k i hi
    obtain ⟨p, hp, _⟩ := st.looks _ i hi
    rw [(masked_same W h).len]
    exact (List.getElem?_eq_some_iff.1 hp).1
  have hall : ∀ n t, LabelsOk n → ∀ i ∈ W.own (encName n, t) ++ W.tail (encName n, t), W.Plain i := by
    intro n t hn i hi
    rcases List.mem_append.1 hi with hi | hi
    · exact ⟨n, t, hn, hi⟩
    · exact (st.tailPlain _ i hi).1
  have hchain : ∀ n t, LabelsOk n → W.own (encName n, t) ≠ [] →
      Chain (masked W h) (W.own (encName n, t)).head? (W.own (encName n, t) ++ W.tail (encName n, t)) := by
    intro n t hn hne
    exact chain_congr (st.chain _ hne) fun i hi => (masked_same W h).at_ i (hall n t hn i hi)
  -- the record behind a record
  have hnext : ∀ {n : Name} {t i : Nat} {p : Node} {j : Nat}, LabelsOk n → i ∈ W.own (encName n, t) → (masked W h)[i]? = some p → p.next = some j →
      j ∈ W.own (encName n, t) ++ W.tail (encName n, t) := by
    intro n t i p j hn hi hp hj
    obtain ⟨a, b, e⟩ := chain_next (hchain n t hn (List.ne_nil_of_mem hi)) i (List.mem_append_left _ hi) p hp j hj
    rw [e]
    simp
  have htype : ∀ {n : Name} {t i : Nat} {p : Node}, LabelsOk n → i ∈ W.own (encName n, t) → (masked W h)[i]? = some p →
      Looks W v6 (encName n, t) i p := by
    intro n t i p hn hi hp
    obtain ⟨p', hp', lk⟩ := st.looks _ i hi
    rw [(masked_get W h i hp').1 ⟨n, t, hn, hi⟩] at hp
    injection hp with hp
    rw [← hp]
    exact lk
  refine ⟨⟨?_, ?_, ?_, ?_, ?_, ?_⟩, ⟨?_, ?_, ?_, ?_⟩, ?_, hchain, fun _ _ _ => .rfl, fun _ _ => rfl⟩
  · intro i p hp
    rcases hget hp with ⟨n, t, hn, hi, _, lk⟩ | ⟨_, rfl⟩
    · exact st.holds hn hi lk
    · exact ⟨rfl, rfl, (st.sound i).2, rfl, rfl, (st.sound i).1⟩
  · intro i p j hp hj
    rcases hget hp with ⟨n, t, hn, hi, _, lk⟩ | ⟨_, rfl⟩
    · rcases List.mem_append.1 (hnext hn hi hp hj) with hj' | hj'
      · obtain ⟨q, hq⟩ : ∃ q, (masked W h)[j]? = some q := ⟨_, List.getElem?_eq_getElem (hnode hj')⟩
        have lq := htype hn hj' hq
        exact ⟨q, hq, fun hp2 => by rw [lq.type, ← lk.type]; exact hp2, fun _ => by rw [lq.query, lk.query]⟩
      · obtain ⟨_, z, hz, hjz⟩ := st.tailPlain _ j hj'
        obtain ⟨q, hq⟩ : ∃ q, (masked W h)[j]? = some q := ⟨_, List.getElem?_eq_getElem (hnode hjz)⟩
        have lq := htype hz hjz hq
        exact ⟨q, hq, fun _ => lq.type, fun h2 => absurd lq.type h2⟩
    · cases hj
  · intro i p j hp hj
    rcases hget hp with ⟨n, t, hn, hi, _, lk⟩ | ⟨_, rfl⟩
    · rw [lk.ip] at hj
      split at hj
      · exact hnode (List.mem_of_mem_head? hj)
      · cases hj
    · cases hj
  · intro i p j hp hj
    rcases hget hp with ⟨n, t, hn, hi, _, lk⟩ | ⟨_, rfl⟩
    · rw [lk.ip6] at hj
      split at hj
      · exact hnode (List.mem_of_mem_head? hj)
      · cases hj
    · cases hj
  · intro i p t j hp hj
    rcases hget hp with ⟨n, t, hn, hi, _, lk⟩ | ⟨_, rfl⟩
    · exact hnode (lk.onlist _ _ hj).2
    · cases hj
  · classical
    refine ⟨fun i => if hc : ∃ l, Chain (masked W h) (some i) l then hc.choose.length else 0, fun i p j hp hj => ?_⟩
    have hci : ∃ l, Chain (masked W h) (some i) (i :: j :: l) := by
      rcases hget hp with ⟨n, t, hn, hi, _, lk⟩ | ⟨_, rfl⟩
      · have hc := hchain n t hn (List.ne_nil_of_mem hi)
        obtain ⟨a, b, e⟩ := chain_next hc i (List.mem_append_left _ hi) p hp j hj
        rw [e] at hc
        exact ⟨b, hc.suffix⟩
      · cases hj
    obtain ⟨l, hl⟩ := hci
    have hcj : Chain (masked W h) (some j) (j :: l) := Reply.Chain.suffix (pre := [i]) hl
    have e1 : ∃ l, Chain (masked W h) (some i) l := ⟨_, hl⟩
    have e2 : ∃ l, Chain (masked W h) (some j) l := ⟨_, hcj⟩
    beta_reduce
    rw [dif_pos e1, dif_pos e2, e1.choose_spec.unique hl, e2.choose_spec.unique hcj]
    simp
  · rintro i p j ⟨n, t, hn, hi⟩ hp hj
    exact hall n t hn j (hnext hn hi hp hj)
  · rintro i p j ⟨n, t, hn, hi⟩ hp hj
    have lk := htype hn hi hp
    rw [lk.ip] at hj
    split at hj
    · rename_i hc
      have hc : t = 2 ∨ t = 15 := hc
      exact ⟨_, 1, (st.host (star := false) hn hi (by omega)).1, List.mem_of_mem_head? hj⟩
    · cases hj
  · rintro i p j ⟨n, t, hn, hi⟩ hp hj
    have lk := htype hn hi hp
    rw [lk.ip6] at hj
    split at hj
    · rename_i hc
      have hc : t = 2 ∨ t = 15 := hc.1
      exact ⟨_, 28, (st.host (star := false) hn hi (by omega)).1, List.mem_of_mem_head? hj⟩
    · cases hj
  · rintro i p u j ⟨n, t, hn, hi⟩ hp hj
    have lk := htype hn hi hp
    obtain ⟨h5, hj'⟩ := lk.onlist _ _ hj
    have h5 : t = 5 := h5
    exact ⟨_, u, (st.host (star := false) hn hi (by omega)).1, hj'⟩
  · intro n t hn i hi
    obtain ⟨p, hp, lk⟩ := st.looks _ i hi
    exact ⟨p, (masked_get W h i hp).1 ⟨n, t, hn, hi⟩, lk⟩

end

end Server
end Mara
