import Verif.Spec.Trust
/-!
# Specification: who may be believed, whatever the packets are

As in Trust.lean, but what was heard need not be messages: all that is said of a packet is what it asks for.
-/

namespace Spec

/-- Behind twelve bytes, the packet has the question for the name `n` and the type `t`. -/
def AsksFor (c : List UInt8) (n : List (List UInt8)) (t : Nat) : Prop :=
  ∃ h rest, h.length = 12 ∧ c = h ++ (encName n ++ (be16 t ++ rest))

/-- `l` are servers that may speak for `zone`: they were configured, or servers that may speak for a zone above it were heard in reply to a
question for a name in `zone`.  A list begins with the name of the zone it is for. -/
inductive Vouched (conf : List (List (List UInt8) × List UInt8)) (heard : List (List UInt8 × List UInt8)) :
    List (List UInt8) → List UInt8 → Prop
  | configured {zone l} (h : (zone, l) ∈ conf) : Vouched conf heard zone l
  | referred {above zone n : List (List UInt8)} {t : Nat} {l c x : List UInt8} (by_ : Vouched conf heard above l)
      (said : (l, c) ∈ heard) (asks : AsksFor c n t) (asked : Below n above) (may : MayDelegate above n zone) :
      Vouched conf heard zone (encName zone ++ x)

/-- A packet was heard in reply to the question for `q` and the type `t`, from servers that may speak for `q`. -/
def Spoken (conf : List (List (List UInt8) × List UInt8)) (heard : List (List UInt8 × List UInt8))
    (q : List (List UInt8)) (t : Nat) : Prop :=
  ∃ zone l c n, Vouched conf heard zone l ∧ Below q zone ∧ (l, c) ∈ heard ∧ AsksFor c n t ∧ lowered n = q

/-- `value` is kept for `q` and the type `t` because a packet was heard in reply to that question, from servers that may speak for `q`; or
it was made of what was kept for `q` as its aliases and of what was kept for another question (`join` says how). -/
inductive Worded (conf : List (List (List UInt8) × List UInt8)) (heard : List (List UInt8 × List UInt8))
    (join : List UInt8 → List UInt8 → List UInt8 → Prop) : List (List UInt8) → Nat → List UInt8 → Prop
  | told {q t value} (h : Spoken conf heard q t) : Worded conf heard join q t value
  | joined {q t value as q' t' t'' value'} (al : Spoken conf heard q t'') (rest : Worded conf heard join q' t' value')
      (made : join as value' value) : Worded conf heard join q t value

theorem Vouched.mono {conf heard heard'} (hh : ∀ x ∈ heard, x ∈ heard') {z l} (h : Vouched conf heard z l) :
    Vouched conf heard' z l := by
  induction h with
  | configured h => exact .configured h
  | referred _ said asks asked may ih => exact .referred ih (hh _ said) asks asked may

theorem Spoken.mono {conf heard heard'} (hh : ∀ x ∈ heard, x ∈ heard') {q t} (h : Spoken conf heard q t) : Spoken conf heard' q t := by
  obtain ⟨z, l, c, n, h1, h2, h3, h4⟩ := h
  exact ⟨z, l, c, n, h1.mono hh, h2, hh _ h3, h4⟩

theorem Worded.mono {conf heard heard' join} (hh : ∀ x ∈ heard, x ∈ heard') {q t v} (h : Worded conf heard join q t v) :
    Worded conf heard' join q t v := by
  induction h with
  | told h => exact .told (h.mono hh)
  | joined al _ m ih => exact .joined (al.mono hh) ih m

end Spec
