import Verif.Deadwood.HeaderModel
import Verif.Deadwood.DnsStrModel
/-!
# Questions sent upstream and the replies to them

Source: `/repo/deadwood-github/src/DwUdpSocket.c`.  The socket is connected, so that the
operating system only hands over packets from the address and to the port the question
was sent from; only what Deadwood itself checks is modelled.
-/

namespace Dw
namespace Remote
open Acl (rd wr)

/-- What a pending question remembers for the test of a reply (`remote_T`, the fields
`remote_id` and `query`). -/
structure Pending where
  remoteId : Nat
  query : List UInt8
deriving DecidableEq

/-- A string with these contents, as `dw_get_dname_type` makes it (with room to spare). -/
def dstr (l : List UInt8) : DwStr := ⟨l.length, l.length + 1, l ++ [0, 0, 0]⟩

/-- Name and type of the question in a packet, in lower case: `dw_get_dname_type` then
`dwc_lower_case` (DwUdpSocket.c:347-348, 1022-1027).  `err` is the null pointer. -/
def question (packet : List UInt8) (len : Nat) : Res (List UInt8) :=
  match Dw.getDnameType packet 12 len with
  | .ok q =>
    match (dstr q).lowerCase with
    | .ok s => .ok s.contents
    | .err => .ok q
    | .ub => .ub
  | .err => .err
  | .ub => .ub

/-- `make_new_udp_connect` with `make_remote_connection`, DwUdpSocket.c:339-358 and
188-259: the packet that is sent and what is remembered.  `rnd` is the 16-bit random
number; `err` when nothing is sent.  Choosing and reaching a server is not modelled. -/
def sendQuery (packet : List UInt8) (len rnd : Nat) (upstream : Bool) : Res (List UInt8 × Pending) := do
  let q ← question packet len
  let (id, packet) ← Hdr.setDnsQid packet len rnd
  if id = -1 then .err
  else do
    let f ← rd packet 2
    let packet ← wr packet 2 (if upstream then f ||| 1 else f &&& 0xfe)
    .ok (packet.take len, ⟨id.toNat, q⟩)

/-- `verify_dns_packet`, DwUdpSocket.c:1012-1040. -/
def verify (p : Pending) (packet : List UInt8) (len : Nat) : Res Bool := do
  let id ← Hdr.getDnsQid packet len 0
  if id ≠ (p.remoteId : Int) then .ok false
  else
    match question packet len with
    | .ok q => do
      let same ← DwStr.issame (dstr q) (dstr p.query)
      .ok same
    | .err => .ok false
    | .ub => .ub

/-- The loop that looks for the end of the first answer, DwUdpSocket.c:1249-1297.  `y` is
the state, `x` the bytes left in it.  `none` when the packet is refused, otherwise the
new value of `count`. -/
def cut (a : List UInt8) : (n z y x count : Nat) → Res (Option Nat)
  | 0, _, _, _, count => .ok (some count)
  | n + 1, z, y, x, count =>
    if z < count then do
      let c ← rd a z
      if y = 0 then
        if c.toNat > 63 then .ok none
        else if c = 0 then cut a n (z + 1) 7 4 count
        else cut a n (z + 1) 1 c.toNat count
      else if y = 1 then cut a n (z + 1) (if x - 1 = 0 then 0 else 1) (x - 1) count
      else if y = 7 then cut a n (z + 1) (if x - 1 = 0 then 2 else 7) (x - 1) count
      else if y = 2 then
        if c ≠ 0xc0 then .ok none else cut a n (z + 1) 3 x count
      else if y = 3 then
        if c ≠ 0x0c then .ok none else cut a n (z + 1) 4 8 count
      else if y = 4 then cut a n (z + 1) (if x - 1 = 0 then 5 else 4) (x - 1) count
      else if y = 5 then
        if c ≠ 0 then .ok none else cut a n (z + 1) 6 x count
      else if y = 6 then
        if z + c.toNat + 1 > count then .ok none else cut a n (z + 1) 8 x (z + c.toNat + 1)
      else cut a n (z + 1) y x count
    else .ok (some count)

/-- The counts of the salvaged packet, DwUdpSocket.c:1247-1248. -/
def oneAnswer (a : List UInt8) : Res (List UInt8) := do
  let a ← wr a 11 0
  let a ← wr a 10 0
  let a ← wr a 9 0
  let a ← wr a 8 0
  let a ← wr a 6 0
  wr a 7 1

/-- The salvaging of a truncated reply, DwUdpSocket.c:1243-1299.  `none` when the packet is
refused, otherwise the packet and its new length. -/
def salvage (a : List UInt8) (count : Nat) (hack : Bool) : Res (Option (List UInt8 × Nat)) := do
  let f ← rd a 2
  let n ← rd a 7
  if f &&& 2 ≠ 0 ∧ n ≠ 0 ∧ hack then do
    let a ← oneAnswer a
    match ← cut a count 12 0 0 count with
    | none => .ok none
    | some k => do
      let f ← rd a 2
      let a ← wr a 2 (f &&& 0xfd)
      .ok (some (a, k))
  else .ok (some (a, count))

/-- A client that waits: by UDP or TCP; `inner` when the question is Deadwood's own. -/
structure Local where
  id : Nat
  tcp : Option Nat
  inner : Bool

/-- What happens when a reply comes in. -/
inductive Ev where
  /-- the packet is given to the cache, with the mark for truncated packets -/
  | cache (packet : List UInt8) (tc : Bool)
  /-- all clients get a made-up answer (`make_synth_not_there`) and the connection is reset -/
  | notThere (packet : List UInt8)
  /-- the question is asked again by TCP for client `l` -/
  | retryTcp (l : Nat)
  /-- client `l` is answered out of the cache (`send_reply_from_cache`) -/
  | fromCache (packet : List UInt8) (l : Nat)
  /-- client `l`, connected by TCP, gets this packet -/
  | tcpReply (packet : List UInt8) (l : Nat)
  /-- the socket is closed and the place in the table freed -/
  | done
deriving DecidableEq

/-- Settings and the results of what is not modelled here: `cacheRet` is the value of
`cache_dns_reply`, `sendRet` that of `send_reply_from_cache`. -/
structure Env where
  hack : Bool
  tcpListen : Bool
  cacheRet : List UInt8 → Int
  sendRet : List UInt8 → Nat → Int

/-- `get_rem_udp_packet_core`, DwUdpSocket.c:1227-1360, for client `l`.  The events, the
return value and the packet array afterwards. -/
def core (e : Env) (a : List UInt8) (count : Nat) (lc : Local) (l : Nat) : Res (List Ev × Int × List UInt8) :=
  if count < 12 then .ok ([], -1, a)
  else do
    match ← salvage a count e.hack with
    | none => .ok ([], -1, a)
    | some (a, count) => do
      let f ← rd a 2
      let p := a.take count
      if f &&& 2 = 0 then
        let r := e.cacheRet p
        if r = -2 then .ok ([.cache p false, .notThere p], -1, a)
        else if r < 0 then .ok ([.cache p false], -1, a)
        else if r ≥ 16 then .ok ([.cache p false], 3, a)
        else answer [.cache p false] a count
      else if lc.tcp.isSome ∧ e.tcpListen then .ok ([.retryTcp l], 2, a)
      else if ¬ e.tcpListen then .ok ([], -1, a)
      else answer [.cache p true] a count
where
  /-- DwUdpSocket.c:1345-1359 -/
  answer (evs : List Ev) (a : List UInt8) (count : Nat) : Res (List Ev × Int × List UInt8) := do
    let (_, a) ← Hdr.setDnsQid a count lc.id
    let p := a.take count
    if lc.tcp = none ∨ lc.inner then .ok (evs ++ [.fromCache p l], e.sendRet p l, a)
    else if e.tcpListen then .ok (evs ++ [.tcpReply p l], 1, a)
    else .ok (evs, 1, a)

/-- The loop over the waiting clients, DwUdpSocket.c:1395-1402, and what follows it. -/
def coreAll (e : Env) (count : Nat) : (ls : List Local) → (l : Nat) → (kill : Bool) → List UInt8 → Res (List Ev)
  | [], _, kill, _ => .ok (if kill then [.done] else [])
  | lc :: ls, l, kill, a => do
    let (evs, r, a) ← core e a count lc l
    if r = -1 then .ok evs
    else do
      let rest ← coreAll e count ls (l + 1) (if r = 2 ∨ r = 3 then false else kill) a
      .ok (evs ++ rest)

/-- `get_remote_udp_packet`, DwUdpSocket.c:1363-1409.  `a` is the array on the stack (520
bytes), of which `recv` filled `count`. -/
def getRemote (e : Env) (p : Pending) (locals : List Local) (a : List UInt8) (count : Nat) : Res (List Ev) :=
  if count < 12 ∨ count > 512 then .ok []
  else do
    let f ← rd a 2
    let a ← wr a 2 (f ||| 0x80)
    let v ← verify p a count
    if v ≠ true then .ok [] else coreAll e count locals 0 true a

end Remote
end Dw
