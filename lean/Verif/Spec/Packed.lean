import Verif.Spec.Wire
/-!
# Specification: an answer as it is kept in the cache

Independent of the model: records, their layout and the table of offsets.
-/

namespace Spec

/-- A resource record with an uncompressed name.  `rdlen` is the length field
as written (2 bytes). -/
structure RR where
  name : List UInt8
  type : Nat
  cls : List UInt8
  ttl : Nat
  rdlen : List UInt8
  rdata : List UInt8
deriving Repr, DecidableEq

/-- 16-bit big-endian number. -/
def be16 (n : Nat) : List UInt8 := [UInt8.ofNat (n / 256), UInt8.ofNat n]

/-- 32-bit big-endian number. -/
def be32 (n : Nat) : List UInt8 := be16 (n / 65536) ++ be16 (n % 65536)

namespace RR

/-- Bytes of a record. -/
def enc (r : RR) : List UInt8 :=
  r.name ++ be16 r.type ++ r.cls ++ be32 r.ttl ++ r.rdlen ++ r.rdata

/-- Field widths. -/
structure Ok (r : RR) : Prop where
  type : r.type < 65536
  cls : r.cls.length = 2
  ttl : r.ttl < 4294967296
  rdlen : r.rdlen.length = 2

/-- Length of a record. -/
def size (r : RR) : Nat := r.name.length + 10 + r.rdata.length

end RR

/-- Offsets of records laid out one after another from `at`: start of the record
and start of its type field. -/
def offsets : (pos : Nat) → List RR → List (Nat × Nat)
  | _, [] => []
  | pos, r :: rs => (pos, pos + r.name.length) :: offsets (pos + r.size) rs

/-- Total size of a list of records. -/
def sizes (rs : List RR) : Nat := (rs.map RR.size).sum

/-- An answer: answer, authority and additional records, and the kind of answer. -/
structure Packed where
  an : List RR
  ns : List RR
  ar : List RR
  kind : UInt8
deriving Repr, DecidableEq

namespace Packed

/-- All records in order. -/
def all (p : Packed) : List RR := p.an ++ p.ns ++ p.ar

/-- Bytes of one line of the offset table. -/
def cell (c : Nat × Nat) : List UInt8 := be16 c.1 ++ be16 c.2

/-- The cached form: records, table of offsets, counts, kind. -/
def enc (p : Packed) : List UInt8 :=
  p.all.flatMap RR.enc ++ (offsets 0 p.all).flatMap cell ++
    be16 p.an.length ++ be16 p.ns.length ++ be16 p.ar.length ++ [p.kind]

/-- Everything fits its field. -/
structure Ok (p : Packed) : Prop where
  recs : ∀ r ∈ p.all, r.Ok
  size : sizes p.all < 65536
  kind : p.kind = 0 ∨ p.kind = 1 ∨ p.kind = 2

end Packed
end Spec

namespace Spec

/-- RFC 1918 and other non-public IPv4 ranges as documented for the filter:
192.168/16, 172.16/12, 10/8, 127/8, 169.254/16, 224/8 and 0.0/16. -/
def privateAddr : List UInt8 → Bool
  | [a, b, _, _] =>
    (a == 192 && b == 168) || (a == 172 && decide (16 ≤ b.toNat) && decide (b.toNat ≤ 31)) ||
    a == 10 || a == 127 || (a == 169 && b == 254) || a == 224 || (a == 0 && b == 0)
  | _ => false

/-- A record that must not be served. -/
def RR.bad (filter : Bool) (blocked : List UInt8 → Bool) (r : RR) : Bool :=
  (r.type == 1 && ((filter && privateAddr (r.rdata.take 4)) || blocked (r.rdata.take 4))) ||
  (r.type == 28 && blocked (r.rdata.take 16))

/-- Record types Deadwood reserves for itself. -/
def reserved (t : Nat) : Bool := decide (65392 ≤ t) && decide (t ≤ 65407)

/-- The rotation: leading CNAME records stay, the first other record goes to the
end; only for answers without authority and additional records. -/
def Packed.rotated (p : Packed) : Option Packed :=
  if p.ns ≠ [] ∨ p.ar ≠ [] then none
  else
    let pre := p.an.takeWhile (fun r => r.type == 5)
    match p.an.dropWhile (fun r => r.type == 5) with
    | r :: q :: post =>
      if reserved r.type then none
      else some { p with an := pre ++ (q :: post) ++ [r] }
    | _ => none

/-- The time to live written by ageing. -/
def agedTtl (left : Nat) : Nat := max 5 left % 2147483648

/-- The record with another time to live. -/
def RR.withTtl (r : RR) (t : Nat) : RR := { r with ttl := t }

/-- The answer with the time to live of its answer records replaced. -/
def Packed.aged (p : Packed) (left : Nat) : Packed :=
  { p with an := p.an.map (fun r => r.withTtl (agedTtl left)) }

/-- Lower-casing a query: inside labels only, up to the end of the name. -/
def lowerName : (fuel : Nat) → List UInt8 → List UInt8
  | 0, l => l
  | _ + 1, [] => []
  | n + 1, b :: l =>
    if b = 0 then b :: l
    else b :: ((l.take b.toNat).map lower ++
      lowerName n (l.drop b.toNat))

end Spec
