import Verif.Deadwood.CompressPacketProps
import Verif.Spec.Packet
/-!
# The reply as a message

The compressor works on question and records separately; here both are read as one message, with
the question as the client wrote it.
-/

namespace Dw
namespace DwStr
open Spec

/-- How the message `m` holds the records `p` and a question like `q`. -/
structure Holds (m p q : Mem) (qlen : Nat) : Prop where
  body : ∀ i v, p i = some v → m (14 + qlen + i) = some v
  question : ∀ i v, q i = some v → ∃ v', m (12 + i) = some v' ∧ (v = v' ∨ v = lower v')

theorem lower_lower (c : UInt8) : lower (lower c) = lower c := by
  unfold lower
  split
  · next h =>
    rw [if_neg]
    simp
    omega
  · rfl

theorem small_same {v v' : UInt8} (h : v = v' ∨ v = lower v') (hv : v.toNat < 64) : v' = v := by
  rcases h with rfl | rfl
  · rfl
  · unfold lower at hv ⊢
    split
    · next h => rw [if_pos h] at hv; simp at hv; omega
    · rfl

/-- A label in the question: the client's letters. -/
theorem Holds.label {m p q : Mem} {qlen : Nat} (H : Holds m p q qlen) {i : Nat} {l : List UInt8}
    (h : LabelAt q i l) : ∃ l', l.map lower = l'.map lower ∧ LabelAt m (12 + i) l' := by
  have hb : ∀ j (_ : j < l.length), ∃ v', m (12 + i + 1 + j) = some v' ∧ lower v' = lower l[j] := by
    intro j hj
    obtain ⟨v', h1, h2⟩ := H.question _ _ (h.bytes j hj)
    refine ⟨v', by rw [← h1]; congr 1; omega, ?_⟩
    rcases h2 with h2 | h2
    · rw [h2]
    · rw [h2, lower_lower]
  let l' := List.ofFn (fun j : Fin l.length => (hb j.1 j.2).choose)
  have hl : l'.length = l.length := by simp [l']
  refine ⟨l', ?_, ⟨by rw [hl]; exact h.pos, by rw [hl]; exact h.le, ?_, ?_⟩⟩
  · apply List.ext_getElem (by simp [hl])
    intro j h1 h2
    simp only [List.length_map] at h1
    simp only [List.getElem_map, l', List.getElem_ofFn]
    exact ((hb j h1).choose_spec.2).symm
  · obtain ⟨v', h1, h2⟩ := H.question _ _ h.len
    rw [h1, hl, small_same h2]
    have := h.le
    simp; omega
  · intro j hj
    rw [hl] at hj
    rw [(hb j hj).choose_spec.1]
    simp [l']

theorem Holds.labelBody {m p q : Mem} {qlen : Nat} (H : Holds m p q qlen) {i : Nat} {l : List UInt8}
    (h : LabelAt p i l) : LabelAt m (14 + qlen + i) l :=
  ⟨h.pos, h.le, H.body _ _ h.len, fun j hj => by
    rw [← H.body _ _ (h.bytes j hj)]; congr 1; omega⟩

/-- The place in the message. -/
def place (qlen : Nat) (b : Bool) (i : Nat) : Nat := if b then 12 + i else 14 + qlen + i

theorem sameName_nil : SameName [] [] := rfl

theorem Holds.name {m p q : Mem} {qlen plen : Nat} (H : Holds m p q qlen) {b : Bool} {i : Nat}
    {ls : List (List UInt8)} (h : BackHop p q plen qlen b i ls) :
    ∃ ls', SameName ls ls' ∧ NameIn m (place qlen b i) ls' := by
  induction h with
  | @root b i h =>
    refine ⟨[], rfl, .root ?_⟩
    cases b
    · exact H.body _ _ h
    · obtain ⟨v', h1, h2⟩ := H.question _ _ h
      rw [place, if_pos rfl, h1, small_same h2 (by decide)]
  | @label b i l ls h _ ih =>
    obtain ⟨ls', h1, h2⟩ := ih
    cases b
    · refine ⟨l :: ls', (sameName_cons ..).2 ⟨rfl, h1⟩, .label (H.labelBody h) ?_⟩
      rw [show place qlen false i + (l.length + 1) = place qlen false (i + (l.length + 1)) by simp [place]; omega]
      exact h2
    · obtain ⟨l', h3, h4⟩ := H.label h
      refine ⟨l' :: ls', (sameName_cons ..).2 ⟨h3, h1⟩, .label h4 ?_⟩
      have : l'.length = l.length := by simpa using (congrArg List.length h3).symm
      rw [show place qlen true i + (l'.length + 1) = place qlen true (i + (l.length + 1)) by simp [place]; omega]
      exact h2
  | @pointer i x y z b₁ i₁ ls g1 g2 g3 g4 g5 g6 _ _ _ ih =>
    obtain ⟨ls', h1, h2⟩ := ih
    have ht : x.toNat % 64 * 256 + y.toNat = place qlen b₁ i₁ ∧
        x.toNat % 64 * 256 + y.toNat < 14 + qlen + i := by
      unfold ptrTarget at g4
      split at g4
      · cases g4
        simp only [place, if_true]
        omega
      · split at g4
        · cases g4
          have := g6 rfl
          simp only [place, Bool.false_eq_true, if_false]
          omega
        · cases g4
    refine ⟨ls', h1, .pointer (H.body _ _ g1) g2 (H.body _ _ g3) ht.2 ?_⟩
    rw [ht.1]; exact h2

theorem Holds.ends {m p q : Mem} {qlen : Nat} (H : Holds m p q qlen) {i e : Nat} (h : EndsAt p i e) :
    EndsAt m (14 + qlen + i) (14 + qlen + e) := by
  induction h with
  | root h => exact .root (H.body _ _ h)
  | pointer h g => exact .pointer (H.body _ _ h) g
  | @label i l e h _ ih =>
    refine .label (H.labelBody h) ?_
    rw [show 14 + qlen + i + (l.length + 1) = 14 + qlen + (i + (l.length + 1)) by omega]
    exact ih

theorem Holds.bytes {m p q : Mem} {qlen : Nat} (H : Holds m p q qlen) {i : Nat} {l : List UInt8}
    (h : BytesAt p i l) : BytesAt m (14 + qlen + i) l := fun j hj => by
  rw [← H.body _ _ (h j hj)]; congr 1; omega

theorem endsAt_le {p : Mem} {i e : Nat} (h : EndsAt p i e) : i ≤ e := by
  induction h <;> omega

theorem Holds.names {m p q : Mem} {qlen plen : Nat} (H : Holds m p q qlen) {i k : Nat}
    {ns : List (List (List UInt8))} (h : NamesBk p q plen qlen i ns k) :
    i ≤ k ∧ ∃ ns', SameNames ns ns' ∧ NamesIn m (14 + qlen + i) ns' (14 + qlen + k) := by
  induction h with
  | nil => exact ⟨Nat.le_refl _, [], trivial, .nil⟩
  | cons _ h2 h3 _ ih =>
    obtain ⟨h0, ns', h4, h5⟩ := ih
    obtain ⟨ls', h6, h7⟩ := H.name h2.2
    have := endsAt_le h3
    exact ⟨by omega, ls' :: ns', ⟨h6, h4⟩, .cons h7 (H.ends h3) h5⟩

theorem Holds.recs {m p q : Mem} {qlen plen : Nat} (H : Holds m p q qlen) {i e : Nat} {rs : List Rec}
    (h : RecsBk p q plen qlen i rs e) :
    ∃ rs', SameRecs rs rs' ∧ RecsIn m (14 + qlen + i) rs' (14 + qlen + e) := by
  induction h with
  | nil => exact ⟨[], trivial, .nil⟩
  | @cons i e k r rs h _ ih =>
    obtain ⟨rs', h1, h2⟩ := ih
    obtain ⟨n, a, j, -, g2, g3, g4, g5, g6, g7, g8, g9⟩ := h.at_
    obtain ⟨ls', k1, k2⟩ := H.name g2.2
    obtain ⟨hle, ns', k3, k4⟩ := H.names g7
    refine ⟨⟨ls', r.type, r.cls, r.ttl, r.lead, ns', r.tail⟩ :: rs', ⟨⟨k1, rfl, rfl, rfl, rfl, k3, rfl⟩, h1⟩,
      .cons ⟨14 + qlen + a, 14 + qlen + j, k2, H.ends g3, ?_, by omega, by omega, ?_, ?_, H.bytes g8, by
        simp only; omega⟩ h2⟩
    · have := H.bytes g4
      rwa [show e - (a + 10) = 14 + qlen + e - (14 + qlen + a + 10) by omega] at this
    · have := H.bytes g6
      rwa [← Nat.add_assoc] at this
    · rw [show 14 + qlen + a + 10 + r.lead.length = 14 + qlen + (a + 10 + r.lead.length) by omega]
      exact k4

end DwStr
end Dw
