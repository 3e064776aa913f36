import Verif.Spec.Message
/-!
# Specification: DNS messages and the names in them

Independent of the model.  A message is a string of bytes; places in it (also the ones pointers
refer to) are counted from its start, RFC 1035 4.1.4.
-/

namespace Spec

/-- The name at place `i` of a message: labels up to the root label or to a pointer to an earlier
place.  (Only names that a reader gets to the end of have a derivation.) -/
inductive NameIn (m : Mem) : Nat → List (List UInt8) → Prop
  | root {i} : m i = some 0 → NameIn m i []
  | label {i l ls} : LabelAt m i l → NameIn m (i + (l.length + 1)) ls → NameIn m i (l :: ls)
  | pointer {i x y ls} : m i = some x → 192 ≤ x → m (i + 1) = some y →
      x.toNat % 64 * 256 + y.toNat < i → NameIn m (x.toNat % 64 * 256 + y.toNat) ls → NameIn m i ls

/-- Names one after another, from `i` up to `e`. -/
inductive NamesIn (m : Mem) : Nat → List (List (List UInt8)) → Nat → Prop
  | nil {i} : NamesIn m i [] i
  | cons {i e k ls rest} : NameIn m i ls → EndsAt m i e → NamesIn m e rest k → NamesIn m i (ls :: rest) k

/-- The record `r` is at place `i`, its last byte is before place `e`. -/
structure RecIn (m : Mem) (i : Nat) (r : Rec) (e : Nat) : Prop where
  at_ : ∃ a k, NameIn m i r.name ∧ EndsAt m i a ∧
    BytesAt m a (be16 r.type ++ r.cls ++ be32 r.ttl ++ be16 (e - (a + 10))) ∧ e - (a + 10) < 65536 ∧
    a + 10 ≤ e ∧
    BytesAt m (a + 10) r.lead ∧ NamesIn m (a + 10 + r.lead.length) r.names k ∧
    BytesAt m k r.tail ∧ e = k + r.tail.length

/-- Records one after another. -/
inductive RecsIn (m : Mem) : Nat → List Rec → Nat → Prop
  | nil {i} : RecsIn m i [] i
  | cons {i e k r rs} : RecIn m i r e → RecsIn m e rs k → RecsIn m i (r :: rs) k

/-- A message with one question: identification and flags, question, records. -/
structure Msg where
  head : List UInt8
  qname : List (List UInt8)
  qtype : Nat
  qclass : Nat
  an : List Rec
  ns : List Rec
  ar : List Rec
deriving Repr, DecidableEq

namespace Msg

/-- All records in order. -/
def all (p : Msg) : List Rec := p.an ++ p.ns ++ p.ar

/-- The header. -/
def header (p : Msg) : List UInt8 :=
  p.head ++ be16 1 ++ be16 p.an.length ++ be16 p.ns.length ++ be16 p.ar.length

/-- The question. -/
def question (p : Msg) : List UInt8 := encName p.qname ++ be16 p.qtype ++ be16 p.qclass

/-- The message with all names written out. -/
def bytes (p : Msg) : List UInt8 := p.header ++ p.question ++ (p.all.map Rec.toRR).flatMap RR.enc

/-- The bytes `c` are the message `p`, with compressed names: its header and question, its records
up to the last byte. -/
structure Is (p : Msg) (c : List UInt8) : Prop where
  front : (p.header ++ p.question) <+: c
  recs : RecsIn (memOf c) (p.header ++ p.question).length p.all c.length

/-- The same message, except for the letter case of the names in the records. -/
structure Same (p q : Msg) : Prop where
  head : p.head = q.head
  qname : p.qname = q.qname
  qtype : p.qtype = q.qtype
  qclass : p.qclass = q.qclass
  an : SameRecs p.an q.an
  ns : SameRecs p.ns q.ns
  ar : SameRecs p.ar q.ar

end Msg

/-- A name of at most 255 bytes. -/
def NameOk (n : List (List UInt8)) : Prop := LabelsOk n ∧ (encName n).length ≤ 255

/-- A record with names of legal length, an address of four bytes, a text with a first string that
is not longer than the data, and a time to live that is not the largest number there is. -/
structure Rec.Sound (r : Rec) : Prop where
  ok : r.Ok
  name : NameOk r.name
  names : ∀ n ∈ r.names, NameOk n
  ttl : r.ttl ≠ 4294967295
  a : r.type = 1 → r.tail.length = 4
  txt : r.type = 16 → ∃ n rest, r.tail = n :: rest ∧ n.toNat ≤ rest.length

/-- A message made of such records. -/
structure Msg.Sound (p : Msg) : Prop where
  head : p.head.length = 4
  qname : NameOk p.qname
  qtype : p.qtype < 65536
  qclass : p.qclass < 65536
  recs : ∀ r ∈ p.all, r.Sound
  an : p.an.length < 65536
  ns : p.ns.length < 65536
  ar : p.ar.length < 65536

/-- Labels of a name, with the root label. -/
def nameCount (n : List (List UInt8)) : Nat := n.length + 1

/-- Labels of all names of a message. -/
def Msg.labels (p : Msg) : Nat :=
  nameCount p.qname + (p.all.map fun r => nameCount r.name + (r.names.map nameCount).sum).sum

end Spec
