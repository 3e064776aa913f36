import Verif.Spec.Pointers
/-!
# Specification: replies that have been cut down to fit

Independent of the model.  RFC 2181 9: records of the additional and authority sections may be left
out; a reply that lacks more than that is marked as truncated (TC).
-/

namespace Spec

/-- How many records may be left out. -/
def Msg.optional (p : Msg) : Nat := p.ns.length + p.ar.length

/-- The message without the last `k` records of its authority and additional sections. -/
def Msg.without (p : Msg) (k : Nat) : Msg :=
  { p with ns := p.ns.take (p.optional - k), ar := p.ar.take (p.ar.length - k) }

/-- The reply that says nothing but that it is cut short: identification and flags with TC, no
question, no records. -/
def truncated : List UInt8 → List UInt8
  | [a, b, x, y] => [a, b, x ||| 2, y, 0, 0, 0, 0, 0, 0, 0, 0]
  | _ => []

/-- The flags do not say that the message is cut short. -/
def NotTruncated : List UInt8 → Prop
  | [_, _, x, _] => x &&& 2 = 0
  | _ => False

/-- Identification and flags of an answer: a reply, authoritative or not, the wish for recursion as in
the question. -/
def answerHead (id : Nat) (aa rd : Bool) : List UInt8 :=
  be16 id ++ [128 + (if aa then 4 else 0) + (if rd then 1 else 0), 0]

/-- The reply that says that the server has failed: no question, no records. -/
def serverFailure (id : Nat) (rd : Bool) : List UInt8 :=
  be16 id ++ [128 + (if rd then 1 else 0), 2, 0, 0, 0, 0, 0, 0, 0, 0]

/-- Identification and flags of a denial: a reply, authoritative or not, the wish for recursion as in
the question, and its code. -/
def denialHead (id : Nat) (aa rd : Bool) (rcode : Nat) : List UInt8 :=
  be16 id ++ [128 + (if aa then 4 else 0) + (if rd then 1 else 0), UInt8.ofNat rcode]

/-- The header of a message, with the numbers of its records, marked as cut short. -/
def Msg.cutHeader (p : Msg) : List UInt8 :=
  match p.head with
  | [a, b, x, y] => [a, b, x ||| 2, y] ++ be16 1 ++ be16 p.an.length ++ be16 p.ns.length ++ be16 p.ar.length
  | _ => []

/-- The bytes are the message, but for the letter case of names, and its pointers lead to the question or behind it. -/
def Msg.Carried (p : Msg) (c : List UInt8) : Prop := ∃ p', p.Same p' ∧ p'.Is c ∧ p'.Clear c

/-- What the reply to a question has to go by: at most `chain` records of the answer and of the
authority section, `total` in all, `addrs` addresses for each; whether name servers are told; the
answers and the name servers there are; the records an alias leads to; the groups of addresses of the
host a record names.  (Records are told apart by their places.) -/
structure Source where
  chain : Nat
  total : Nat
  addrs : Nat
  tellNs : Bool
  answers : List Nat
  servers : List Nat
  leads : Nat → List Nat
  hosts : Nat → List (List Nat)

/-- What a reply shows: the first `a` answers, each with the records it leads to as an alias; the first
`b` name servers; addresses. -/
structure Source.Shown (s : Source) (a b : Nat) (an ns ar : List Nat) : Prop where
  an : an = (s.answers.take a).flatMap fun i => i :: s.leads i
  ns : ns = s.servers.take b
  /-- not more than there are and not more than allowed -/
  few : a ≤ s.answers.length ∧ a ≤ s.chain ∧ b ≤ s.servers.length ∧ b ≤ s.chain
  total : a + b + ar.length ≤ s.total
  quiet : s.tellNs = false → b = 0
  /-- all of them, unless a limit is reached -/
  answers : a = s.answers.length ∨ a = s.chain ∨ b = 0 ∧ a + ar.length = s.total
  servers : s.tellNs = true → b = s.servers.length ∨ b = s.chain ∨ a + b + ar.length = s.total
  /-- the addresses are those of hosts that the records shown name -/
  from_ : ∀ j ∈ ar, ∃ i ∈ s.answers.take a ++ s.servers.take b, ∃ g ∈ s.hosts i, j ∈ g
  /-- of each group of addresses as many as allowed, unless the limit is reached -/
  each : ∀ i ∈ s.answers.take a ++ s.servers.take b, ∀ g ∈ s.hosts i,
    (∀ j ∈ g, j ∈ ar) ∨ s.addrs ≤ g.countP (· ∈ ar) ∨ a + b + ar.length = s.total
  /-- no address twice -/
  once : s.total ≤ 250 → ar.Nodup
  /-- few addresses for each record -/
  many : ∀ k, (∀ i, (s.hosts i).length ≤ k) → ar.length ≤ k * s.addrs * (a + b)

end Spec
