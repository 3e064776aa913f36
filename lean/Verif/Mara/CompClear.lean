import Verif.Mara.CompUnique
import Verif.Spec.Pointers
/-!
# Compression: where pointers lead to
-/

namespace Mara
namespace Comp

open Spec
open Dw (Res)

theorem leads_plain {qn : Name} (hq : LabelsOk qn) {i p : Nat} {m : Mem} (h : Leads m i p) : ∀ {pre t : List UInt8},
    i = pre.length → m = memOf (pre ++ (encName qn ++ t)) →
    ∃ a b, qn = a ++ b ∧ p = i + (encLabels a).length := by
  induction h generalizing qn with
  | here => intro pre t _ _; exact ⟨[], qn, rfl, by simp [encLabels]⟩
  | @label i l p hl _ ih =>
    intro pre t hi hm
    subst hi hm
    cases qn with
    | nil =>
      exfalso
      exact label_zero hl (by simp [memOf, encName, encLabels])
    | cons l' qn =>
      have h1 := labelAt_view (h := none) (c := pre) (by intro a ha; cases ha) hq.head (encName qn ++ t)
      have e : pre ++ (encName (l' :: qn) ++ t) = pre ++ UInt8.ofNat l'.length :: l' ++ (encName qn ++ t) := by
        rw [Lookup.encName_cons]; simp
      have h1' : LabelAt (memOf (pre ++ (encName (l' :: qn) ++ t))) pre.length l' := by
        rw [e]; simpa [view] using h1
      have hu := label_unique hl h1'
      subst hu
      obtain ⟨a, b, h2, h3⟩ := ih hq.tail (pre := pre ++ UInt8.ofNat l.length :: l) (t := t) (by simp) (by rw [e])
      refine ⟨l :: a, b, by rw [h2]; rfl, ?_⟩
      rw [h3, encLabels_length]
      omega

theorem halts_plain {qn : Name} (hq : LabelsOk qn) {i p : Nat} {m : Mem} (h : Halts m i p) : ∀ {pre t : List UInt8},
    i = pre.length → m = memOf (pre ++ (encName qn ++ t)) → p = i + (encName qn).length := by
  induction h generalizing qn with
  | @root i h0 =>
    intro pre t hi hm
    subst hi hm
    cases qn with
    | nil => rfl
    | cons l' qn =>
      exfalso
      have h1 := labelAt_view (h := none) (c := pre) (by intro a ha; cases ha) hq.head (encName qn ++ t)
      have e : pre ++ (encName (l' :: qn) ++ t) = pre ++ UInt8.ofNat l'.length :: (l' ++ (encName qn ++ t)) := by
        rw [Lookup.encName_cons]; simp
      rw [e] at h0
      exact label_zero (by simpa [view] using h1) h0
  | @label i l p hl _ ih =>
    intro pre t hi hm
    subst hi hm
    cases qn with
    | nil =>
      exfalso
      exact label_zero hl (by simp [memOf, encName, encLabels])
    | cons l' qn =>
      have h1 := labelAt_view (h := none) (c := pre) (by intro a ha; cases ha) hq.head (encName qn ++ t)
      have e : pre ++ (encName (l' :: qn) ++ t) = pre ++ UInt8.ofNat l'.length :: l' ++ (encName qn ++ t) := by
        rw [Lookup.encName_cons]; simp
      have h1' : LabelAt (memOf (pre ++ (encName (l' :: qn) ++ t))) pre.length l' := by
        rw [e]; simpa [view] using h1
      have hu := label_unique hl h1'
      subst hu
      have := ih hq.tail (pre := pre ++ UInt8.ofNat l.length :: l) (t := t) (by simp) (by rw [e])
      rw [this, Lookup.encName_cons_length]
      omega

theorem firm_from {qn : Name} (hq : LabelsOk qn) {pre t : List UInt8} (h12 : pre.length = 12) {i : Nat} {ls : Name}
    (h : Firm (memOf (pre ++ (encName qn ++ t))) i ls) :
    ∃ n, NameFrom (memOf (pre ++ (encName qn ++ t))) qn n i ls ∧ n ≤ 2 * ls.length ∧
      ((∃ z, memOf (pre ++ (encName qn ++ t)) i = some z ∧ ¬ 192 ≤ z) → ls ≠ [] → n < 2 * ls.length) := by
  induction h with
  | root h => exact ⟨0, .root h, by simp, fun _ hne => absurd rfl hne⟩
  | @label i l ls hl _ ih =>
    obtain ⟨n, h1, h2, _⟩ := ih
    exact ⟨n + 1, .label hl h1, by simp; omega, fun _ _ => by simp; omega⟩
  | @pointer i x y z ls hx h1 hy hv hlo hp hz h192 hne hf ih =>
    obtain ⟨n, g1, g2, g3⟩ := ih
    have g4 := g3 ⟨z, hz, h192⟩ hne
    have hno : (∃ z, memOf (pre ++ (encName qn ++ t)) i = some z ∧ ¬ 192 ≤ z) → False := by
      rintro ⟨w, hw, hw'⟩
      rw [hx] at hw
      cases hw
      exact hw' h1
    rcases hp with hp | ⟨e, he, hle⟩
    · obtain ⟨a, b, e1, e2⟩ := leads_plain hq hp (pre := pre) (t := t) h12.symm rfl
      have hb : NameIn (memOf (pre ++ (encName qn ++ t))) (12 + (encLabels a).length) b := by
        have := nameIn_plain (ls := b) (LabelsOk.app.1 (e1 ▸ hq)).2 (pre ++ encLabels a) t
        rw [List.length_append, h12, List.append_assoc] at this
        rw [e1, encName_append, List.append_assoc]
        exact this
      rw [← e2] at hb
      have hls := nameIn_unique hf.toIn hb
      subst hls
      have : 1 ≤ ls.length := List.length_pos_iff.2 hne
      exact ⟨ls.length + 1, .asked hx h1 hy e2 e1, by omega, fun hw => (hno hw).elim⟩
    · have e2 := halts_plain hq he (pre := pre) (t := t) h12.symm rfl
      exact ⟨n + 1, .behind hx h1 hy (by omega) g1, by omega, fun hw => (hno hw).elim⟩

theorem firms_from {qn : Name} (hq : LabelsOk qn) {pre t : List UInt8} (h12 : pre.length = 12) {m : Mem} (hm : m = memOf (pre ++ (encName qn ++ t)))
    {i e : Nat} {ns : List Name} (h : NamesVia (Firm m) m i ns e) :
    NamesVia (fun i ls => ∃ n, n ≤ 2 * ls.length ∧ NameFrom m qn n i ls) m i ns e := by
  subst hm
  induction h with
  | nil => exact .nil
  | cons a b _ ih =>
    obtain ⟨n, h1, h2, _⟩ := firm_from hq h12 a
    exact .cons ⟨n, h2, h1⟩ b ih

theorem frecs_from {qn : Name} (hq : LabelsOk qn) {pre t : List UInt8} (h12 : pre.length = 12) {m : Mem} (hm : m = memOf (pre ++ (encName qn ++ t)))
    {i e : Nat} {rs : List Rec} (h : RecsVia (Firm m) m i rs e) :
    RecsVia (fun i ls => ∃ n, n ≤ 2 * ls.length ∧ NameFrom m qn n i ls) m i rs e := by
  induction h with
  | nil => exact .nil
  | cons hr _ ih =>
    obtain ⟨a, k, h1, h2, h3, h4, h5, h6, h7, h8, h9⟩ := hr.at_
    have h7' := firms_from hq h12 hm h7
    subst hm
    obtain ⟨n, g1, g2, _⟩ := firm_from hq h12 h1
    exact .cons ⟨a, k, ⟨n, g2, g1⟩, h2, h3, h4, h5, h6, h7', h8, h9⟩ ih

/-- What comes out of the compression of a message, if anything does, is the same message, and its pointers lead to the name
in the question or behind the question. -/
theorem compress_clear {p : Msg} (hp : p.Sound) {um om : Nat} (hum : p.bytes.length < um) :
    compress p.bytes um om = .err ∨ ∃ c p', compress p.bytes um om = .ok c ∧ p.Same p' ∧ p'.Is c ∧ p'.Clear c ∧
      c.length ≤ p.bytes.length ∧ c.length < om := by
  rcases compress_step hp hum (om := om) with ⟨h, _⟩ | ⟨c, p', h1, h2, h3, h3', h4, h5⟩
  · exact .inl h
  · refine .inr ⟨c, p', h1, h2, ⟨h3, frecs_in h3'⟩, ?_, h4, h5⟩
    obtain ⟨x, hx⟩ := h3
    refine frecs_from (pre := p'.header) (t := be16 p'.qtype ++ be16 p'.qclass ++ x) (h2.qname ▸ hp.qname.1) ?_ ?_ h3'
    · unfold Msg.header
      rw [← h2.head]
      simp [hp.head, be16]
    · rw [← hx]
      unfold Msg.question
      simp

end Comp
end Mara
