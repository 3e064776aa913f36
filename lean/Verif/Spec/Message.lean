import Verif.Spec.Names
import Verif.Spec.Packed
import Verif.Spec.NameEq
/-!
# Specification: the records of a DNS message

Independent of the model: records with the names in their data, and what it means that such a
record stands (with compressed names) at a place of a message.
-/

namespace Spec

/-- Record types with names in their data: bytes before the names, number of names, bytes after
them.  RFC 1035 3.3 (MX, NS, PTR, CNAME, SOA, MD, MF, MB, MG, MR, MINFO), RFC 1183 (RP, AFSDB, RT),
RFC 2782 (SRV). -/
def rdLayout (type : Nat) : Option (Nat × Nat × Nat) :=
  match type with
  | 2 => some (0, 1, 0)    -- NS
  | 3 => some (0, 1, 0)    -- MD
  | 4 => some (0, 1, 0)    -- MF
  | 5 => some (0, 1, 0)    -- CNAME
  | 6 => some (0, 2, 20)   -- SOA
  | 7 => some (0, 1, 0)    -- MB
  | 8 => some (0, 1, 0)    -- MG
  | 9 => some (0, 1, 0)    -- MR
  | 12 => some (0, 1, 0)   -- PTR
  | 14 => some (0, 2, 0)   -- MINFO
  | 15 => some (2, 1, 0)   -- MX
  | 17 => some (0, 2, 0)   -- RP
  | 18 => some (2, 1, 0)   -- AFSDB
  | 21 => some (2, 1, 0)   -- RT
  | 33 => some (6, 1, 0)   -- SRV
  | _ => none

/-- A record: its data is some bytes, some names and some more bytes. -/
structure Rec where
  name : List (List UInt8)
  type : Nat
  cls : List UInt8
  ttl : Nat
  lead : List UInt8
  names : List (List (List UInt8))
  tail : List UInt8
deriving Repr, DecidableEq

namespace Rec

/-- The data with uncompressed names. -/
def rdata (r : Rec) : List UInt8 := r.lead ++ r.names.flatMap encName ++ r.tail

/-- The record as it is kept in the cache. -/
def toRR (r : Rec) : RR :=
  ⟨encName r.name, r.type, r.cls, r.ttl, be16 r.rdata.length, r.rdata⟩

/-- Field widths, and data of the form its type demands; the data of other types are only bytes. -/
structure Ok (r : Rec) : Prop where
  type : r.type < 65536
  cls : r.cls.length = 2
  ttl : r.ttl < 4294967296
  size : r.rdata.length < 65536
  form : (r.lead.length, r.names.length, r.tail.length) =
    (rdLayout r.type).getD (0, 0, r.tail.length)

end Rec

/-- The bytes `l` are at place `i`. -/
def BytesAt (m : Mem) (i : Nat) (l : List UInt8) : Prop := ∀ j (h : j < l.length), m (i + j) = some l[j]

/-- Names one after another, from `i` up to `e`, each read in fewer than 200 steps. -/
inductive NamesAt (p q : Mem) (plen qlen : Nat) : Nat → List (List (List UInt8)) → Nat → Prop
  | nil {i} : NamesAt p q plen qlen i [] i
  | cons {n i e k ls rest} : n < 200 → NameAt p q plen qlen n false i ls → EndsAt p i e →
      NamesAt p q plen qlen e rest k → NamesAt p q plen qlen i (ls :: rest) k

/-- The record `r` is at place `i`, its last byte is before place `e`.  Its length field says how
many bytes its (compressed) data has. -/
structure RecAt (p q : Mem) (plen qlen : Nat) (i : Nat) (r : Rec) (e : Nat) : Prop where
  at_ : ∃ n a k, n < 200 ∧ NameAt p q plen qlen n false i r.name ∧ EndsAt p i a ∧
    BytesAt p a (be16 r.type ++ r.cls ++ be32 r.ttl ++ be16 (e - (a + 10))) ∧ e - (a + 10) < 65536 ∧
    BytesAt p (a + 10) r.lead ∧ NamesAt p q plen qlen (a + 10 + r.lead.length) r.names k ∧
    BytesAt p k r.tail ∧ e = k + r.tail.length

/-- Records one after another. -/
inductive RecsAt (p q : Mem) (plen qlen : Nat) : Nat → List Rec → Nat → Prop
  | nil {i} : RecsAt p q plen qlen i [] i
  | cons {i e k r rs} : RecAt p q plen qlen i r e → RecsAt p q plen qlen e rs k →
      RecsAt p q plen qlen i (r :: rs) k

/-- An answer with the names in its records. -/
structure Answers where
  an : List Rec
  ns : List Rec
  ar : List Rec
  kind : UInt8
deriving Repr, DecidableEq

/-- All records in order. -/
def Answers.all (p : Answers) : List Rec := p.an ++ p.ns ++ p.ar

/-- The form kept in the cache. -/
def Answers.packed (p : Answers) : Packed :=
  ⟨p.an.map Rec.toRR, p.ns.map Rec.toRR, p.ar.map Rec.toRR, p.kind⟩

/-- The seven bytes that follow the records in the string given to the decompressor. -/
def Answers.trailer (p : Answers) : List UInt8 :=
  be16 p.an.length ++ be16 p.ns.length ++ be16 p.ar.length ++ [p.kind]

/-- The same names in the same order. -/
def SameNames : List (List (List UInt8)) → List (List (List UInt8)) → Prop
  | [], [] => True
  | a :: as, b :: bs => SameName a b ∧ SameNames as bs
  | _, _ => False

/-- Records that differ at most in the letter case of their names. -/
structure SameRec (r s : Rec) : Prop where
  name : SameName r.name s.name
  type : r.type = s.type
  cls : r.cls = s.cls
  ttl : r.ttl = s.ttl
  lead : r.lead = s.lead
  names : SameNames r.names s.names
  tail : r.tail = s.tail

/-- The same records in the same order. -/
def SameRecs : List Rec → List Rec → Prop
  | [], [] => True
  | a :: as, b :: bs => SameRec a b ∧ SameRecs as bs
  | _, _ => False

/-- The same answer, ignoring the letter case of names. -/
structure SameAnswers (p p' : Answers) : Prop where
  an : SameRecs p.an p'.an
  ns : SameRecs p.ns p'.ns
  ar : SameRecs p.ar p'.ar
  kind : p.kind = p'.kind

end Spec
