import Verif.Spec.Shown
import Verif.Spec.Header
import Verif.Spec.Packet
/-!
# Specification: questions and what a script may say about them

Independent of the model.  From doc of coLunacyDNS (`coLunacyDNS/README.md`, `coLunacyDNS/doc`): the table that `processQuery` returns.
-/

namespace Spec
namespace Script

/-- A packet with one question, and anything after it (usually an EDNS record). -/
structure Quest where
  header : Header
  name : List (List UInt8)
  qtype : Nat
  qclass : Nat
  rest : List UInt8

namespace Quest

def question (q : Quest) : List UInt8 := encName q.name ++ be16 q.qtype ++ be16 q.qclass

def bytes (q : Quest) : List UInt8 := q.header.enc ++ q.question ++ q.rest

/-- A question as resolvers send it: one question, no answers, a name that is not the root and is not too long to be shown
to a script. -/
structure Ok (q : Quest) : Prop where
  query : q.header.qr = false
  one : q.header.qdcount = 1
  an : q.header.ancount = 0
  ns : q.header.nscount = 0
  ar : q.header.arcount.val < 256
  labels : LabelsOk q.name
  notRoot : q.name ≠ []
  qtype : q.qtype < 65536
  qclass : q.qclass < 65536
  fits : (q.header.enc ++ q.question).length ≤ 255
  shows : (shown q.name).length < 490

end Quest

/-- What can be said about a question: what scripts may say, and the reply to questions for all there is (RFC 8482). -/
inductive Body
  | fail
  | notThere (ttl : Nat)
  | a (ip : List UInt8) (ttl : Nat)
  | aaaa (ip : List UInt8) (ttl : Nat)
  | any
deriving DecidableEq

namespace Body

/-- The header of the reply: the one of the question, with QR, AA, RA and the counts set. -/
def header (h : Header) (aa ra : Bool) : Body → Header
  | fail => { h with qr := true, aa := aa, ra := ra, rcode := 2, ancount := 0, arcount := 0 }
  | _ => { h with qr := true, aa := aa, ra := ra, ancount := 1, arcount := 0 }

/-- The record behind the question, with a pointer to the name in it. -/
def record : Body → List UInt8
  | fail => []
  | notThere ttl => [192, 12] ++ be16 6 ++ be16 1 ++ be32 ttl ++ be16 28 ++
      ([1, 122, 192, 12] ++ [1, 121, 192, 12] ++ (be32 1 ++ be32 1 ++ be32 1 ++ be32 1 ++ be32 1))
  | a ip ttl => [192, 12] ++ be16 1 ++ be16 1 ++ be32 ttl ++ be16 4 ++ ip
  | aaaa ip ttl => [192, 12] ++ be16 28 ++ be16 1 ++ be32 ttl ++ be16 16 ++ ip
  | any => [192, 12] ++ be16 13 ++ be16 1 ++ be32 0 ++ be16 9 ++ [7, 82, 70, 67, 56, 52, 56, 50, 0]

/-- The reply. -/
def reply (b : Body) (q : Quest) (aa ra : Bool) : List UInt8 := (b.header q.header aa ra).enc ++ q.question ++ b.record

/-- The records of the answer section. -/
def answers (name : List (List UInt8)) : Body → List Rec
  | fail => []
  | notThere ttl => [⟨name, 6, [0, 1], ttl, [], [[122] :: name, [121] :: name], be32 1 ++ be32 1 ++ be32 1 ++ be32 1 ++ be32 1⟩]
  | a ip ttl => [⟨name, 1, [0, 1], ttl, [], [], ip⟩]
  | aaaa ip ttl => [⟨name, 28, [0, 1], ttl, [], [], ip⟩]
  | any => [⟨name, 13, [0, 1], 0, [], [], [7, 82, 70, 67, 56, 52, 56, 50, 0]⟩]

/-- The reply as a message. -/
def message (b : Body) (q : Quest) (aa ra : Bool) : Msg :=
  ⟨(b.header q.header aa ra).enc.take 4, q.name, q.qtype, q.qclass, b.answers q.name, [], []⟩

/-- Addresses have four or sixteen bytes. -/
def Ok : Body → Prop
  | a ip _ => ip.length = 4
  | aaaa ip _ => ip.length = 16
  | _ => True

/-- Replies that say that there is nothing of the type, or that not all there is is told. -/
def Special : Body → Prop
  | notThere _ => True
  | any => True
  | _ => False

instance (b : Body) : Decidable b.Special := by unfold Special; split <;> infer_instance

end Body

end Script
end Spec
