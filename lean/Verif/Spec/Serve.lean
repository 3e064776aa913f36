import Verif.Spec.ZoneFile
import Verif.Spec.Packed
/-!
# Specification: zones sent to another server

RFC 5936: the records of the zone in messages over a stream, with the SOA record first and last.  Each message has its length
in front of it (RFC 1035 4.2.2).
-/

namespace Spec
namespace Serve

/-- A record in a message, of class IN. -/
structure Copy where
  name : Name
  type : Nat
  ttl : Nat
  data : List UInt8
deriving DecidableEq

def Copy.bytes (c : Copy) : List UInt8 :=
  encName c.name ++ be16 c.type ++ be16 1 ++ be32 c.ttl ++ be16 c.data.length ++ c.data

/-- In the protocol a star is a label. -/
def starred (star : Bool) (n : Name) : Name := if star then [42] :: n else n

/-- A record of the server, with a TTL. -/
def copy (ttl : Int) (g : Given) : Copy := ⟨starred g.star g.name, g.type, ttl.toNat, g.data⟩

/-- The SOA record: the one at the top of the file as it is written, or one that is made up. -/
def soaOf (h : Host) (zone : Name) (es : List ZoneLine) : Copy :=
  match es with
  | e :: _ => if e.type = 6 then ⟨e.name, 6, e.ttl.toNat, e.data⟩ else copy 86400 (madeSoa h zone)
  | [] => copy 86400 (madeSoa h zone)

/-- What comes after the SOA record, without other SOA records. -/
def restOf (es : List ZoneLine) : List ZoneLine := es.filter fun e => e.type ≠ 6

/-- The name servers of the zone at the top of the file. -/
def topOf (zone : Name) (es : List ZoneLine) : List ZoneLine := (restOf es).takeWhile (ZoneLine.own zone)

/-- The other records; name servers of the zone that come later do not count. -/
def othersOf (zone : Name) (es : List ZoneLine) : List ZoneLine :=
  ((restOf es).dropWhile (ZoneLine.own zone)).filter fun e => !e.own zone

/-- The records of a line. -/
def lineSent (zone : Name) (e : ZoneLine) : List Copy := (e.stands zone).map (copy e.ttl)

/-- The records of the zone but for the SOA record; if the zone has records other than its name servers and name servers
are missing, they are made up. -/
def bodySent (h : Host) (zone : Name) (es : List ZoneLine) : List Copy :=
  (if topOf zone es = [] ∧ othersOf zone es ≠ [] then (madeNs h zone).map (copy 86400) else (topOf zone es).flatMap (lineSent zone)) ++
    (othersOf zone es).flatMap (lineSent zone)

/-- The records of the zone. -/
def zoneSent (h : Host) (zone : Name) (es : List ZoneLine) : List Copy := soaOf h zone es :: bodySent h zone es

/-- A message in reply to the question whose first bytes are `q`: the identification, the opcode and RD are those of the
question; QR and AA are set, the other flags are not.  One question, one answer. -/
def message (q : List UInt8) (name : Name) (type : Nat) (an : Copy) (ns : List Copy) : List UInt8 :=
  let m := [q.getD 0 0, q.getD 1 0, (q.getD 2 0 &&& 121) ||| 132, 0] ++ be16 1 ++ be16 1 ++ be16 ns.length ++ be16 0 ++
    encName name ++ be16 type ++ be16 1 ++ an.bytes ++ ns.flatMap Copy.bytes
  be16 m.length ++ m

/-- A zone as it is sent: a message for each record, and the SOA record once more. -/
def sending (q : List UInt8) (rs : List Copy) : List (List UInt8) :=
  match rs with
  | [] => []
  | soa :: _ => (rs ++ [soa]).map fun r => message q soa.name 252 r []

/-- A record that can be sent, with the name of the SOA record as the name asked for. -/
structure Fits (soa c : Copy) : Prop where
  type : c.type ≤ 65535
  ttl : c.ttl < 2 ^ 32
  size : 12 + (encName soa.name).length + 4 + c.bytes.length ≤ 2047

instance (soa c : Copy) : Decidable (Fits soa c) :=
  decidable_of_iff (c.type ≤ 65535 ∧ c.ttl < 2 ^ 32 ∧ 12 + (encName soa.name).length + 4 + c.bytes.length ≤ 2047)
    ⟨fun h => ⟨h.1, h.2.1, h.2.2⟩, fun h => ⟨h.type, h.ttl, h.size⟩⟩

end Serve
end Spec
