import Verif.Spec.Pointers
import Verif.Spec.Believe
/-!
# Specification: messages off the wire

What it means that the bytes of a packet are a message: names may be compressed with pointers to the names in the
question and to places behind the question (RFC 1035 4.1.4), but not to the header.
-/

namespace Spec

/-- A name that can be read in fewer than 200 steps. -/
def ReadFrom (m : Mem) (qn : List (List UInt8)) (i : Nat) (ls : List (List UInt8)) : Prop :=
  ∃ n, n < 200 ∧ NameFrom m qn n i ls

/-- The bytes `c` are the message `p`: its header, its question and its records, to the last byte. -/
structure Msg.From (p : Msg) (c : List UInt8) : Prop where
  front : (p.header ++ p.question) <+: c
  recs : RecsVia (ReadFrom (memOf c) p.qname) (memOf c) (p.header ++ p.question).length p.all c.length

/-- The response code of a message. -/
def Msg.rcode (p : Msg) : Nat := (p.head.getD 3 0).toNat % 16

/-- The records of a message as the resolver keeps them: 1 if there is no such name. -/
def Msg.answers (p : Msg) : Answers := ⟨p.an, p.ns, p.ar, if p.rcode = 3 then 1 else 0⟩

/-- A message that can be read: a name with control characters or one of the types that Deadwood has for itself
(65392 to 65407) is not asked for; names have at most 255 bytes; addresses have their length; and there are records,
at most 2047 bytes of them with the names written out. -/
structure Msg.Plain (p : Msg) : Prop where
  head : p.head.length = 4
  qname : NameOk p.qname
  printable : ∀ l ∈ p.qname, ∀ x ∈ l, 32 ≤ x.toNat
  qtype : p.qtype < 65392 ∨ 65407 < p.qtype ∧ p.qtype < 65536
  recs : ∀ r ∈ p.all, r.Plain
  a : ∀ r ∈ p.an, r.type = 1 → 4 ≤ r.rdata.length
  aaaa : ∀ r ∈ p.an, r.type = 28 → 16 ≤ r.rdata.length
  some : p.all ≠ []
  size : p.answers.packed.enc.length < 2048

/-- A name in lower case. -/
def lowered (n : List (List UInt8)) : List (List UInt8) := n.map (List.map lower)

/-- How long an answer may be kept, by what it says: the least of the lifetimes of its aliases `cs` and of the first
record behind them, but no longer than a year and no less than a minute. -/
def lifetime (cs rest : List Rec) : Nat :=
  max 60 ((cs ++ rest.take 1).foldl (fun t r => min t r.ttl) 31536000)

end Spec
