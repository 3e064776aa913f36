import Verif.Mara.ReplyModel
/-!
# The authoritative server: replies for star records, denials and errors

Source: `udpstar`, `make_synth_ns_record`, `udpnotfound`, `udperror` and the reply of `ddip_check` in
`/repo/server/MaraDNS.c`, as built with `AUTHONLY`.

As in `ReplyModel`, strings are their contents with the sizes they were made with, allocations succeed,
and sending never fails.
-/

namespace Mara
namespace Reply

open Dw (Res)
open Lookup (getRtype changeRtype)

/-- `udperror`, MaraDNS.c:514-603: the string for the reply has 96 bytes; nothing is no reply.  The code
-111 stands for a reply that is cut short. -/
def udperror (id : Nat) (question : Option (List UInt8)) (code : Int) (rd : Bool) : Option (List UInt8) :=
  let hdr := makeHdr { id := id, qr := true, tc := decide (code = -111), rd := rd, rcode := if code = -111 then 0 else code.toNat,
                       qd := if question.isNone then 0 else 1 }
  match question with
  | none => some hdr
  | some q => do
    let r ← append 96 hdr q
    append 96 r (put16 1)

/-- The end of `udpstar` and of `udpnotfound`, MaraDNS.c:1625-1650 and 1942-1960: compression, and the
header alone for a reply that is too long. -/
def sendOnce (hdr : Hdr) (most : List UInt8) (rd : Bool) : Res (List UInt8) :=
  match Comp.compress most 1024 1024 with
  | .ub => .ub
  | .err => .ok (servfail hdr.id rd)
  | .ok c => .ok (if c.length > 512 then makeHdr { hdr with tc := true } else c)

/-- The steps over labels in `make_synth_ns_record`, MaraDNS.c:1387-1402. -/
def zapLabels (l : List UInt8) : (n point : Nat) → Res (Option Nat)
  | 0, point => .ok (some point)
  | n + 1, point =>
    match l[point]? with
    | none => .ub
    | some c =>
      if point + c.toNat > l.length ∨ c > 63 then .ok none
      else if point + (c.toNat + 1) > l.length then .ok none
      else zapLabels l n (point + (c.toNat + 1))

/-- `make_synth_ns_record`, MaraDNS.c:1372-1429. -/
def synthNs (l : List UInt8) (zap : Nat) : Res (Option (List UInt8)) := do
  let p ← zapLabels l zap 0
  match p with
  | none => .ok none
  | some p => .ok (changeRtype (l.drop p) 2)

/-- The strings and counts of `udpstar`. -/
structure Star where
  most : List UInt8
  ar : List UInt8 := []
  an : Nat := 0
  ns : Nat := 0
  arc : Nat := 0
deriving Repr, DecidableEq

/-- The address of the host a record names, MaraDNS.c:1571-1596. -/
def starAddr (heap : Heap) (p : Node) (s : Star) : Res (Option Star) :=
  match p.ip with
  | none => .ok (some s)
  | some a =>
    if p.type = 5 then .ok (some s)
    else do
      let q ← deref heap a
      .ok ((put 1024 s.ar q).map fun ar => { s with ar := ar, arc := s.arc + 1 })

/-- The name a record is shown with, MaraDNS.c:1521-1552. -/
def starName (answer : List UInt8) (labels : Nat) (inNs : Bool) (p : Node) : Res (Option (List UInt8)) :=
  if inNs = false then .ok (some answer)
  else if 0 < labels ∧ labels < 125 then synthNs answer (labels - 1)
  else .ok (some p.query)

/-- The loop over the chain, MaraDNS.c:1510-1602; nothing is `goto giveerror`. -/
def starLoop (heap : Heap) (t : Nat) (answer : List UInt8) (labels : Nat) :
    (n : Nat) → (i : Option Nat) → (inNs : Bool) → Star → Res (Option Star)
  | _, none, _, s => .ok (some s)
  | 0, some _, _, _ => .ub
  | n + 1, some i, inNs, s => do
    let p ← deref heap i
    let inNs := inNs || decide (t ≠ 2 ∧ p.type = 2)
    let name ← starName answer labels inNs p
    match name.bind fun q => put 1024 s.most { p with query := q } with
    | none => .ok none
    | some most => do
      let s ← starAddr heap p { s with most := most, an := if inNs then s.an else s.an + 1, ns := if inNs then s.ns + 1 else s.ns }
      match s with
      | none => .ok none
      | some s => starLoop heap t answer labels n p.next inNs s

/-- `udpstar`, MaraDNS.c:1446-1669: `first` is `where`, `query` the question, `answer` the name and
type shown for the records, `labels` is `endstar`. -/
def udpstar (heap : Heap) (first id : Nat) (query answer : List UInt8) (rd : Bool) (labels : Nat) : Res (List UInt8) := do
  let p ← deref heap first
  let fail : Res (List UInt8) := .ok (servfail id rd)
  match getRtype query with
  | none => .ub
  | some t =>
    if p.data.length > 65535 then fail
    else match append 1024 (makeHdr { id := id, rd := rd }) query with
      | none => fail
      | some most =>
        match append 1024 most (put16 1) with
        | none => fail
        | some most => do
          let s ← starLoop heap t answer labels (heap.length + 1) (some first) false { most := most }
          match s with
          | none => fail
          | some s =>
            let hdr : Hdr := { id := id, qr := true, aa := p.auth, qd := 1, an := s.an, ns := s.ns, ar := s.arc }
            match append 1024 (makeHdr hdr ++ s.most.drop 12) s.ar with
            | none => fail
            | some most => sendOnce hdr most rd

/-- `udpnotfound`, MaraDNS.c:1755-1983, called by the authoritative half with 0 for `qtype`: `p` is the
SOA record, `rcode` is found out as in `Lookup.notFound`. -/
def udpnotfound (p : Node) (rcode id : Nat) (query : List UInt8) (rd : Bool) : Res (List UInt8) :=
  let fail : Res (List UInt8) := .ok (servfail id rd)
  if p.data.length > 65535 then fail
  else match append 1024 (makeHdr { id := id, rd := rd }) query with
    | none => fail
    | some most =>
      if (changeRtype query 0).isNone then fail
      else match append 1024 most (put16 1) with
        | none => fail
        | some most =>
          match if p.query.head? = some 95 then changeRtype query 6 else some p.query with
          | none => fail
          | some name =>
            match put 1024 most { p with query := name } with
            | none => fail
            | some most =>
              let hdr : Hdr := { id := id, qr := true, aa := p.auth, rd := rd, rcode := rcode, qd := 1, ns := 1 }
              sendOnce hdr (makeHdr hdr ++ most.drop 12) rd

/-- The reply of `ddip_check`, MaraDNS.c:2318-2372, in a string of 512 bytes; nothing is an error. -/
def ddipReply (id : Nat) (query ip : List UInt8) : Option (List UInt8) := do
  let r := makeHdr { id := id, qr := true, qd := 1, an := 1 }
  let r ← append 512 r query
  let r ← append 512 r (put16 1)
  let q ← changeRtype query 1
  let r ← append 512 r q
  let r ← append 512 r (put16 1)
  let r ← append 512 r (put32 19770616)
  let r ← append 512 r (put16 4)
  append 512 r ip

end Reply
end Mara
