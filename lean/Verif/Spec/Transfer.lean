import Verif.Spec.Unpacked
import Verif.Spec.ZoneText
/-!
# Specification: zones received from another server

A transfer of a zone (RFC 5936) is messages whose answers are the records of the zone, with the SOA record first and last.
Here is which records can be written to a zone file, and what they are as lines of one.
-/

namespace Spec
namespace Transfer

open ZoneText (isPlain)

/-- A name that is not the root, whose labels have letters, digits, `-` and `_` only. -/
def PlainName (n : Name) : Prop := n ≠ [] ∧ ∀ l ∈ n, 1 ≤ l.length ∧ l.length ≤ 63 ∧ ∀ c ∈ l, isPlain c = true

/-- Is the first label a star? -/
def isStar (n : Name) : Bool := n.head? = some [42]

/-- The name without a star. -/
def base (n : Name) : Name := if isStar n then n.tail else n

/-- A record as a line of a zone file. -/
def toLine (r : Rec) : ZoneLine := ⟨isStar r.name, base r.name, r.type, r.ttl, r.rdata⟩

/-- A number of four bytes. -/
def num32At (l : List UInt8) (i : Nat) : Nat :=
  (((l.getD i 0).toNat * 256 + (l.getD (i + 1) 0).toNat) * 256 + (l.getD (i + 2) 0).toNat) * 256 + (l.getD (i + 3) 0).toNat

/-- The names and numbers in the data. -/
def DataOk (r : Rec) : Prop :=
  match r.type with
  | 2 => ∀ n ∈ r.names, PlainName n
  | 5 => ∀ n ∈ r.names, PlainName n
  | 12 => ∀ n ∈ r.names, PlainName n
  | 15 => ∀ n ∈ r.names, PlainName n ∧ (encName n).length ≤ 253
  | 6 => ∃ m u h, r.names = [m, u :: h] ∧ PlainName m ∧ PlainName [u] ∧ PlainName h ∧
      (encName m).length + (encName (u :: h)).length ≤ 491 ∧ ∀ i ∈ [0, 4, 8, 12, 16], num32At r.tail i ≤ 2147483647
  | 16 => r.tail ≠ [0]
  | t => t ∉ [255, 251, 252, 253, 254, 38, 39, 41]

/-- A record that can be written to a zone file. -/
structure Plain (r : Rec) : Prop where
  name : PlainName (base r.name)
  lower : ∀ l ∈ r.name, ∀ c ∈ l, ¬ (65 ≤ c ∧ c ≤ 90)
  ttl : r.ttl ≤ 2147483647
  some : r.rdata ≠ []
  short : r.rdata.length ≤ 1511
  data : DataOk r

/-- Does the name belong to the zone? -/
def Within (zone name : Name) : Prop := zone <:+ name

instance (zone name : Name) : Decidable (Within zone name) := by unfold Within; infer_instance

/-- The answers of a message. -/
def answers (p : Parcel) : List Rec := p.recs.take (Parcel.count p.head 6)

/-- The message says that there is no error. -/
def NoError (p : Parcel) : Prop := (p.head.getD 3 0).toNat % 16 = 0

/-- The zone in the answers of a transfer: what comes before the second SOA record. -/
def received : List Rec → List Rec
  | [] => []
  | s :: r => s :: r.takeWhile fun x => x.type ≠ 6

/-- Is there a second SOA record? -/
def complete : List Rec → Bool
  | [] => false
  | _ :: r => r.any fun x => x.type = 6

/-- The records in the zone. -/
def inside (zone : Name) (rs : List Rec) : List Rec := rs.filter fun r => Within zone r.name

/-- How many records are not in the zone. -/
def strangers (zone : Name) (rs : List Rec) : Nat := rs.countP fun r => ¬ Within zone r.name

/-- The answers of all messages. -/
def allAnswers (ps : List Parcel) : List Rec := ps.flatMap answers

/-! ## What a received zone may put into a zone file -/

/-- Bytes of a name: letters, digits, `-`, `_`, `.`, `@`, backslashes and what is not ASCII. -/
def nameByte (c : UInt8) : Bool := isPlain c ∨ c = 46 ∨ c = 64 ∨ c = 92 ∨ c > 127

/-- Bytes that end no line and no record, and begin no comment and no field: not a line feed, carriage return, `#`, `{`, `|` or `~`. -/
def innerByte (c : UInt8) : Bool := c ∉ [10, 13, 35, 123, 124, 126]

/-- A line that is empty or a comment, or one record whose name, as it is written, is the name of the zone or ends with
a dot and the name of the zone.  Only its first byte may be a blank or a star. -/
inductive Harmless (zone : Name) : List UInt8 → Prop
  | empty : Harmless zone []
  | comment (t : List UInt8) : (∀ c ∈ t, c ≠ 10 ∧ c ≠ 13 ∧ c ≠ 123) → Harmless zone (35 :: t)
  | record (pre own rest : List UInt8) : pre ∈ [[], [32], [42]] → (∀ c ∈ own, nameByte c = true) →
      (own = dotted zone ∨ (46 :: dotted zone) <:+ own) → (∀ c ∈ rest, innerByte c = true) →
      Harmless zone (pre ++ own ++ ascii " +" ++ rest ++ ascii " ~ ")

end Transfer
end Spec
