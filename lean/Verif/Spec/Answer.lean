import Verif.Spec.Header
import Verif.Spec.Packed
/-!
# Replies to clients

RFC 1035 4.1: header, one question, records.
-/

namespace Spec

/-- The header of a reply to a standard query for recursion from a recursive server. -/
def replyHeader (id : Fin 65536) (tc : Bool) (rcode : Fin 16) (an ns ar : Fin 65536) : Header :=
  { id, qr := true, opcode := 0, aa := false, tc, rd := true, ra := true, z := false, ad := false,
    cd := false, rcode, qdcount := 1, ancount := an, nscount := ns, arcount := ar }

/-- A reply: header, question of class IN, records. -/
def reply (id : Fin 65536) (tc : Bool) (rcode : Fin 16) (an ns ar : Fin 65536)
    (question records : List UInt8) : List UInt8 :=
  (replyHeader id tc rcode an ns ar).enc ++ question ++ be16 1 ++ records

/-- SERVFAIL for a question. -/
def servfail (id : Fin 65536) (question : List UInt8) : List UInt8 :=
  reply id false 2 0 0 0 question []

end Spec
