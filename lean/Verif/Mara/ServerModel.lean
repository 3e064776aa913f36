import Verif.Mara.LinkModel
import Verif.Mara.StarModel
/-!
# Model: the authoritative server, one query after the other

`proc_query` of `/repo/server/MaraDNS.c` with the functions that write the replies, on the records in
memory.  The search is `Lookup.procQuery`, here on a hash whose record sets are named by their keys; the
replies are those of `ReplyModel` and `StarModel`.

Of `udpany`, the reply of RFC 8482 is modelled, which is the only one with the setting `rfc8482 = 1` (the
default, MaraDNS.c:158); it is sent when the search finds that `udpany` replies (`Lookup.Cfg.any`).
`easter_egg` is not modelled: a query that is handed to it is an error here.
-/

namespace Mara
namespace Server

open Dw (Res)
open Big (Cell)

/-- What is in memory: the records and the big hash. -/
structure Srv where
  heap : Reply.Heap
  dict : List UInt8 → Option Cell

/-- The server after the zones have been read and `add_an` has been called. -/
def start (l : Big.Linked) (junk : Nat → Reply.Node) : Srv := ⟨l.heap junk, l.store.dict⟩

/-- The hash as the search sees it: a record set is named by its key. -/
def Srv.hash (s : Srv) : Lookup.Hash (List UInt8) := fun k =>
  match s.dict k with
  | none => none
  | some (.list _) => some .list
  | some (.rr i) =>
    match s.heap[i]? with
    | none => none
    | some p => some (.rr p.auth k)

/-- Settings: those of the search, those of the replies, the record `ra_data` (MaraDNS.c:3694-3745) for
types that are rejected.  `echo` stands for the string `lookfor` at the time of an error, which is
repeated in the reply. -/
structure Cfg where
  look : Lookup.Cfg := {}
  reply : Reply.Cfg := {}
  rejected : Reply.Node
  echo : Js → List UInt8 := fun _ => []

/-- The identification of a query, Queries.c:166. -/
def idOf (raw : Js) : Nat := (raw.buf.getD 0 0).toNat * 256 + (raw.buf.getD 1 0).toNat

/-- The wish for recursion, Queries.c:181-184. -/
def rdOf (raw : Js) : Bool := raw.buf.getD 2 0 &&& 1 ≠ 0

/-- `origq`, the name and type of the question, MaraDNS.c:2580-2643. -/
def question (raw : Js) : List UInt8 :=
  match Lookup.dlabelLength raw 12 with
  | .ok n => (raw.contents.drop 12).take (n + 2)
  | _ => []

/-- The record a key of the hash leads to. -/
def Srv.first (s : Srv) (k : List UInt8) : Res Nat :=
  match s.dict k with
  | some (.rr i) => .ok i
  | _ => .ub

/-- `udpany` with `rfc8482` set, MaraDNS.c:896-959: the string for the reply has 1024 bytes. -/
def rfc8482 (id : Nat) (origq : List UInt8) (rd : Bool) : Option (List UInt8) := do
  let r := Reply.makeHdr { id := id, qr := true, aa := true, rd := rd, qd := 1, an := 1 }
  let r ← Reply.append 1024 r origq
  let r ← Reply.append 1024 r (Reply.put16 1)
  let r ← Reply.append 1024 r (Reply.put16 0xc00c)
  let r ← Reply.append 1024 r (Reply.put16 13)
  let r ← Reply.append 1024 r (Reply.put16 1)
  let r ← Reply.append 1024 r (Reply.put16 0)
  let r ← Reply.append 1024 r (Reply.put16 3600)
  let r ← Reply.append 1024 r (Reply.put16 9)
  let r ← Reply.append 1024 r (Reply.put16 0x0752)
  let r ← Reply.append 1024 r (Reply.put16 0x4643)
  let r ← Reply.append 1024 r (Reply.put16 0x3834)
  let r ← Reply.append 1024 r (Reply.put16 0x3832)
  Reply.append 1024 r [0]

/-- `proc_query`, MaraDNS.c:2514-3425, with what is sent and what becomes of the records: after
`udpsuccess`, the hash has the record that is first now (`rotate_point`, udpsuccess.c:197, 512).
`long` says whether the client may get long replies. -/
def answer (cfg : Cfg) (s : Srv) (raw : Js) (long : Bool) : Res (Option (List UInt8) × Srv) := do
  let o ← Lookup.procQuery cfg.look s.hash raw
  match o with
  | .none => .ok (none, s)
  | .error code echo =>
    if raw.count < 2 then .ok (none, s)
    else .ok (Reply.udperror (idOf raw) (if echo then some (cfg.echo raw) else none) code (rdOf raw), s)
  | .success k auth => do
    let i ← s.first k
    let d ← Reply.udpsuccess cfg.reply s.heap i (idOf raw) (question raw) (rdOf raw) auth long
    .ok (some d.reply, ⟨d.heap, fun q => if q = k then some (.rr d.head) else s.dict q⟩)
  | .star k shown labels => do
    let i ← s.first k
    let r ← Reply.udpstar s.heap i (idOf raw) (question raw) shown (rdOf raw) labels
    .ok (some r, s)
  | .negative k rcode => do
    let i ← s.first k
    let p ← Reply.deref s.heap i
    let r ← Reply.udpnotfound p rcode (idOf raw) (question raw) (rdOf raw)
    .ok (some r, s)
  | .rejected => do
    let r ← Reply.udpnotfound cfg.rejected 0 (idOf raw) (question raw) (rdOf raw)
    .ok (some r, s)
  | .ddip ip => .ok (Reply.ddipReply (idOf raw) (question raw) ip, s)
  | .any =>
    match rfc8482 (idOf raw) (question raw) (rdOf raw) with
    | some r => .ok (some r, s)
    | none => .err
  | .egg => .err

/-- A packet that arrives, and whether its sender may get long replies. -/
structure Packet where
  raw : Js
  long : Bool

/-- Queries one after the other. -/
def serve (cfg : Cfg) : List Packet → Srv → Res (List (Option (List UInt8)) × Srv)
  | [], s => .ok ([], s)
  | p :: ps, s => do
    let (r, s) ← answer cfg s p.raw p.long
    let (rs, s) ← serve cfg ps s
    .ok (r :: rs, s)

end Server
end Mara
