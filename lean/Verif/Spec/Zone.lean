import Verif.Spec.Wire
/-!
# Specification: what an authoritative server has and says

Names are lists of labels, the leftmost label first.  Independent of the model.
-/

namespace Spec

abbrev Name := List (List UInt8)

/-- A name in lower case. -/
def lowName (n : Name) : Name := n.map fun l => l.map lower

/-- A name and the names above it, from the name itself up to the root. -/
def upward : Name → List Name
  | [] => [[]]
  | l :: ls => (l :: ls) :: upward ls

/-- What a server has been given: the record set at a name for a type, with a mark whether the server
is the authority for it; the names with any record set at all; the same for the star name below
a name (`*.` in front of it). -/
structure Zone (ρ : Type) where
  rr : Name → Nat → Option (Bool × ρ)
  exists? : Name → Bool
  star : Name → Nat → Option ρ
  starExists : Name → Bool

/-- What the server says. -/
inductive Reply (ρ : Type) where
  | records (r : ρ)
  | referral (r : ρ)
  /-- a star record, sent with the name asked for and this type -/
  | wildcard (r : ρ) (type : Nat)
  | noData (soa : ρ)
  | nxDomain (soa : ρ)
  | refused
  | failure
deriving DecidableEq

/-- The number written by one to three digits, if it is at most 255. -/
def byteLabel (l : List UInt8) : Option Nat :=
  let v := l.foldl (fun v c => v * 10 + (c.toNat - 48)) 0
  if 1 ≤ l.length ∧ l.length ≤ 3 ∧ (∀ c ∈ l, 48 ≤ c ∧ c ≤ 57) ∧ v ≤ 255 then some v else none

/-- A name that is written like an IPv4 address. -/
def dottedQuad : Name → Option (List Nat)
  | [a, b, c, d] => do some [← byteLabel a, ← byteLabel b, ← byteLabel c, ← byteLabel d]
  | _ => none

namespace Zone

variable {ρ : Type}

/-- The closest name servers at or above a name: where they are, are they ours, and which. -/
def closestNs (z : Zone ρ) (n : Name) : Option (Name × Bool × ρ) :=
  (upward n).findSome? fun s => (z.rr s 2).map fun v => (s, v)

/-- The star record that stands for a name: the closest one of the type asked for or else a
CNAME directly above. -/
def wildcardFor (z : Zone ρ) (n : Name) (t : Nat) : Option (ρ × Nat) :=
  ((upward n.tail).findSome? fun s => (z.star s t).map (·, t)).or ((z.star n.tail 5).map (·, 5))

/-- There is a star name of some type above the name. -/
def covered (z : Zone ρ) (n : Name) : Bool := (upward n.tail).any z.starExists

/-- The whole decision. -/
def reply (z : Zone ρ) (n : Name) (t : Nat) : Reply ρ :=
  match (z.rr n t).or (z.rr n 5), z.closestNs n with
  | some (_, r), _ => .records r
  | none, some (_, false, r) => .referral r
  | none, ns =>
    match (if z.exists? n then none else z.wildcardFor n t), ns with
    | some (r, u), _ => .wildcard r u
    | none, none => .refused
    | none, some (apex, _) =>
      match z.rr apex 6 with
      | none => .failure
      | some (_, soa) => if z.exists? n ∨ z.covered n then .noData soa else .nxDomain soa

/-- What is left of the records for the search once the set asked for is not there, by
`dos_protection_level` (doc/en/source/mararc.ej:445-456): from 8 on no CNAME records, from 12 on no
delegations (name servers), from 18 on no star records.  Star CNAME records are found when they are
what is asked for. -/
def limited (z : Zone ρ) (level t : Nat) : Zone ρ :=
  { z with
    rr := fun n u => if (8 ≤ level ∧ u = 5) ∨ (12 ≤ level ∧ u = 2) then none else z.rr n u
    star := fun n u => if 18 ≤ level ∨ (8 ≤ level ∧ u = 5 ∧ t ≠ 5) then none else z.star n u }

/-- The whole decision at a `dos_protection_level`. -/
def replyAt (z : Zone ρ) (level : Nat) (n : Name) (t : Nat) : Reply ρ :=
  if level = 78 ∨ level = 79 then .refused
  else match z.rr n t with
    | some (_, r) => .records r
    | none => (z.limited level t).reply n t

end Zone

end Spec
