import Verif.Spec.Load
import Verif.Spec.Reply
/-!
# Specification: a server that has been given records, and what it says one question after the other

Independent of the model.
-/

namespace Spec

/-- A name of four labels of one to three digits. -/
def FourNumbers (n : Name) : Prop := n.length = 4 ∧ ∀ l ∈ n, 1 ≤ l.length ∧ l.length ≤ 3 ∧ ∀ x ∈ l, 48 ≤ x ∧ x ≤ 57

/-- The bytes begin with a name of four numbers (the root label may be missing at the end). -/
def BeginsAsAddress (d : List UInt8) : Prop := ∃ n : Name, FourNumbers n ∧ encName n <+: d ++ [0]

namespace Given

/-- A name (a star name is marked by a byte in front) as bytes. -/
def bytesOf (g : Given) : List UInt8 := if g.star then 95 :: encName g.name else encName g.name

/-- The record can be sent: its data is of the form its type demands. -/
def Sendable (g : Given) : Prop :=
  ∃ r : Rec, r.Sound ∧ r.name = g.name ∧ r.type = g.type ∧ r.cls = be16 1 ∧ r.ttl = g.ttl ∧ r.rdata = g.data

/-- Records that make no trouble: they can be sent; the hosts of mail exchangers and name servers are
not named like addresses; a name does not have more than a thousand types.  The conditions on what
follows the first two bytes of the name of a name server are there because the server takes such a
record for a mail exchanger. -/
structure Tidy (gs : List Given) : Prop where
  send : ∀ g ∈ gs, g.Sendable
  mx : ∀ g ∈ gs, g.type = 15 → ¬ BeginsAsAddress (g.data.drop 2)
  ns : ∀ g ∈ gs, g.type = 2 → ¬ BeginsAsAddress g.data ∧ ¬ BeginsAsAddress (g.data.drop 2)
  off : ∀ g ∈ gs, g.type = 2 → ∀ x ∈ gs, x.type = 1 ∨ x.type = 28 → x.bytesOf ≠ g.data.drop 2
  few : ∀ n, (gs.filter fun g => decide (g.star = false ∧ g.name = n)).length ≤ 1001

end Given

/-- The records a server has, told apart by numbers: which they are, and the numbers of the records of a
name (of `*.name`) and type in the order in which they are sent first. -/
structure Shelf where
  item : Nat → Rec
  own : Bool → Name → Nat → List Nat

/-- The order of the records of each name and type at some time. -/
abbrev Order := Name → Nat → List Nat

/-- The first goes behind the others. -/
def toBack : List Nat → List Nat
  | [] => []
  | x :: l => l ++ [x]

/-- The first record of a name and type goes behind the others. -/
def Order.turn (o : Order) (n : Name) (t : Nat) : Order := fun n' t' => if n' = n ∧ t' = t then toBack (o n t) else o n' t'

namespace Shelf

/-- The shelf has the records given, and every record has its own number. -/
structure Has (sh : Shelf) (gs : List Given) : Prop where
  recs : ∀ star n t, LabelsOk n →
    (sh.own star n t).map (fun i => ((sh.item i).name, (sh.item i).type, (sh.item i).rdata, (sh.item i).ttl)) =
      (Given.sets gs star n t).map fun x => (n, x)
  ok : ∀ star n t, LabelsOk n → ∀ i ∈ sh.own star n t, (sh.item i).Sound ∧ (sh.item i).cls = be16 1
  apart : ∀ star n t star' n' t', LabelsOk n → LabelsOk n' → ∀ i ∈ sh.own star n t, i ∈ sh.own star' n' t' →
    star = star' ∧ n = n' ∧ t = t'
  nodup : ∀ star n t, LabelsOk n → (sh.own star n t).Nodup

/-- The name servers that are sent along with the records of a name and type. -/
def servers (sh : Shelf) (gs : List Given) (star : Bool) (n : Name) (t : Nat) : List Nat :=
  match Given.homeOf gs star n t with
  | none => []
  | some z => sh.own false z 2

/-- The host a record names: the first name in its data. -/
def host (sh : Shelf) (i : Nat) : Name := (sh.item i).names.headD []

/-- The records of a name and type, from the one on that was the first when the server started.  (The
server finds the addresses of hosts and what aliases lead to by pointers to those.) -/
def fromFirst (sh : Shelf) (o : Order) (n : Name) (t : Nat) : List Nat :=
  match (sh.own false n t).head? with
  | none => []
  | some i => (o n t).dropWhile fun j => j != i

/-- The addresses of type `u` for a record: of name servers and mail exchangers. -/
def addresses (sh : Shelf) (o : Order) (u i : Nat) : List Nat :=
  if (sh.item i).type = 2 ∨ (sh.item i).type = 15 then sh.fromFirst o (sh.host i) u else []

/-- The groups of addresses for a record. -/
def hosts (sh : Shelf) (v6 : Bool) (o : Order) (i : Nat) : List (List Nat) :=
  if (sh.item i).type = 5 then [] else sh.addresses o 1 i :: if v6 then [sh.addresses o 28 i] else []

/-- The records of the type asked for that an alias leads to. -/
def leads (sh : Shelf) (o : Order) (t : Nat) (i : Nat) : List Nat :=
  if (sh.item i).type = 5 then (sh.fromFirst o (sh.host i) t).take 100 else []

/-- The records of the answer section when the records of `n` of type `u` are sent for a question of type
`t`.  (For a question for name servers, everything that is sent is an answer.) -/
def answers (sh : Shelf) (gs : List Given) (o : Order) (n : Name) (u t : Nat) : List Nat :=
  if t = 2 then o n u ++ sh.servers gs false n u else if u = 2 then [] else o n u

/-- The records of the authority section. -/
def others (sh : Shelf) (gs : List Given) (o : Order) (n : Name) (u t : Nat) : List Nat :=
  if t = 2 then [] else if u = 2 then o n u else sh.servers gs false n u

end Shelf

/-- Limits for replies: records of a section, records in all, addresses for a record; are IPv6 addresses
sent along? -/
structure Limits where
  chain : Nat
  total : Nat
  addrs : Nat
  v6 : Bool

/-- The order after the records of `n` of type `u` have been sent for a question of type `t`: with a limit of
one address for a record, records take turns. -/
def Order.next (o : Order) (lim : Limits) (n : Name) (u t : Nat) : Order :=
  if lim.addrs = 1 ∧ t ≠ 2 ∧ u ≠ 2 then o.turn n u else o

namespace Shelf

/-- What the reply has to go by.  The addresses for the name servers are found when the answers have
already taken turns. -/
def source (sh : Shelf) (gs : List Given) (lim : Limits) (o : Order) (n : Name) (u t : Nat) : Source where
  chain := lim.chain
  total := lim.total
  addrs := lim.addrs
  tellNs := Given.mark gs false n u || decide (t ≠ 2 ∧ u = 2)
  answers := sh.answers gs o n u t
  servers := sh.others gs o n u t
  leads := sh.leads o t
  hosts := fun i => sh.hosts lim.v6 (if i ∈ sh.answers gs o n u t then o else o.next lim n u t) i

/-- The star records of the answer section. -/
def starAnswers (sh : Shelf) (gs : List Given) (n : Name) (u t : Nat) : List Nat :=
  if t = 2 then sh.own true n u ++ sh.servers gs true n u else sh.own true n u

/-- The name servers sent along with star records. -/
def starOthers (sh : Shelf) (gs : List Given) (n : Name) (u t : Nat) : List Nat := if t = 2 then [] else sh.servers gs true n u

/-- Records as they are shown when star records of type `u` stand for the name `q`: the answers with that
name and type. -/
def shownAs (sh : Shelf) (as : List Nat) (q : Name) (u : Nat) (i : Nat) : Rec :=
  if i ∈ as then { sh.item i with name := q, type := u } else sh.item i

/-- One address for each record that names a host. -/
def oneAddress (sh : Shelf) (l : List Nat) : List Nat :=
  l.filterMap fun i => if (sh.item i).type = 2 ∨ (sh.item i).type = 15 then (sh.own false (sh.host i) 1).head? else none

end Shelf

/-- A reply that is nothing but a header with a code. -/
def bareCode (id : Nat) (rd : Bool) (code : UInt8) : List UInt8 :=
  be16 id ++ [128 + (if rd then 1 else 0), code, 0, 0, 0, 0, 0, 0, 0, 0]

/-- The records given, named by what they are for: `(star, name, type)`. -/
def Given.places (gs : List Given) : Zone (Bool × Name × Nat) where
  rr n t := if gs.any (Given.at? false n t) then some (Given.mark gs false n t, false, n, t) else none
  star n t := if gs.any (Given.at? true n t) then some (true, n, t) else none
  exists? n := gs.any fun g => decide (g.star = false ∧ g.name = n)
  starExists n := gs.any fun g => decide (g.star = true ∧ g.name = n)

end Spec
