import Verif.Spec.Header
import Verif.Spec.Packed
/-!
# The negative answer made up on the spot

RFC 2308: no answer record, one SOA record in the authority section.
-/

namespace Spec

/-- The same header as an answer with one authority record and no other record. -/
def Header.oneAuthority (h : Header) : Header :=
  { h with qr := true, ancount := 0, nscount := 1, arcount := 0 }

/-- The header of the answer: the client's own with QR and RA set, one authority record
and no other record. -/
def Header.refusal (h : Header) : Header := { h.oneAuthority with ra := true }

/-- An SOA record for the name of the question (a pointer to offset 12): TTL 0, primary
server `z.` and mail address `y.` below that name, and 1 for all five numbers. -/
def soaNone : List UInt8 :=
  [0xc0, 12] ++ be16 6 ++ be16 1 ++ be32 0 ++ be16 28 ++
    [1, 122, 0xc0, 12] ++ [1, 121, 0xc0, 12] ++ be32 1 ++ be32 1 ++ be32 1 ++ be32 1 ++ be32 1

/-- The same header with another ID. -/
def Header.withId (h : Header) (id : Nat) : Header := { h with id := Fin.ofNat 65536 id }

/-- A query Deadwood works on: a standard query for recursion with one question and no
other record (but perhaps one additional record, as EDNS has). -/
def Header.Query (h : Header) : Prop :=
  h.qr = false ∧ h.opcode = 0 ∧ h.rd = true ∧ h.z = false ∧ h.rcode = 0 ∧ h.qdcount.val = 1 ∧
    h.ancount.val = 0 ∧ h.nscount.val = 0 ∧ h.arcount.val ≤ 1

end Spec
