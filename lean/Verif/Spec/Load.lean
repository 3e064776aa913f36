import Verif.Spec.Zone
/-!
# Specification: what a server has after records have been given to it

Records are given one after the other, each with the zone it is in.
-/

namespace Spec

/-- A record of a zone: `*.name` if `star`. -/
structure Given where
  star : Bool
  name : Name
  type : Nat
  data : List UInt8
  ttl : Nat
  zone : Name

namespace Given

/-- Is the record in the part of the name space that its zone decides on: the name of the zone
itself, or directly below it unless it is a delegation. -/
def decided (g : Given) : Bool :=
  if g.star then decide (g.type ≠ 2 ∧ g.name = g.zone)
  else decide (g.name = g.zone ∨ (g.type ≠ 2 ∧ g.name ≠ [] ∧ g.name.tail = g.zone))

/-- The records given for a name and a type. -/
def at? (star : Bool) (n : Name) (t : Nat) (g : Given) : Bool := decide (g.star = star ∧ g.name = n ∧ g.type = t)

/-- The records kept for a name and a type: those of the zones that decide on it if there are
such records, else all. -/
def kept (gs : List Given) (star : Bool) (n : Name) (t : Nat) : List Given :=
  let mine := gs.filter (at? star n t)
  if mine.any decided then mine.filter decided else mine

/-- The records kept, in the order they are sent in: as given, but of the name servers the second and
later ones in reverse order. -/
def sets (gs : List Given) (star : Bool) (n : Name) (t : Nat) : List (Nat × List UInt8 × Nat) :=
  let l := kept gs star n t
  (if t = 2 then l.take 1 ++ (l.drop 1).reverse else l).map fun g => (g.type, g.data, g.ttl)

/-- Is the first record that is kept for a name and type preceded by a name server of its zone? -/
def homeOf (gs : List Given) (star : Bool) (n : Name) (t : Nat) : Option Name :=
  let first := fun g => at? star n t g && (decided g || !(gs.filter (at? star n t)).any decided)
  match gs.find? first with
  | none => none
  | some g => if t ≠ 2 ∧ (gs.takeWhile fun x => !first x).any (at? false g.zone 2) then some g.zone else none

/-- The name servers sent along. -/
def servers (gs : List Given) (star : Bool) (n : Name) (t : Nat) : List (Nat × List UInt8 × Nat) :=
  match homeOf gs star n t with
  | none => []
  | some z => sets gs false z 2

/-- Does the server have the right to speak for a name and type? -/
def mark (gs : List Given) (star : Bool) (n : Name) (t : Nat) : Bool := (gs.filter (at? star n t)).any decided

/-- What the server has been given, for `Zone.reply`: record sets with the name servers. -/
def toZone (gs : List Given) : Zone (List (Nat × List UInt8 × Nat)) where
  rr n t := if gs.any (at? false n t) then some (mark gs false n t, sets gs false n t ++ servers gs false n t) else none
  star n t := if gs.any (at? true n t) then some (sets gs true n t ++ servers gs true n t) else none
  exists? n := gs.any fun g => decide (g.star = false ∧ g.name = n)
  starExists n := gs.any fun g => decide (g.star = true ∧ g.name = n)

end Given

end Spec
