import Verif.Deadwood.HeaderModel
/-!
# Answers made up without asking anybody

Source: `/repo/deadwood-github/src/DwUdpSocket.c`.  A block of heap memory is a list of
cells; a cell never written holds `none`.  Allocation is taken to succeed.
-/

namespace Dw
namespace SR
open Acl (rd wr)

abbrev Cells := List (Option UInt8)

/-- Write one byte of a block. -/
def wrC (b : Cells) (i : Nat) (v : UInt8) : Res Cells := if i < b.length then .ok (b.set i (some v)) else .ub

/-- Read one byte of a block for a computation. -/
def rdC (b : Cells) (i : Nat) : Res UInt8 :=
  match b[i]? with
  | some (some v) => .ok v
  | _ => .ub

/-- `for(; n more; i++) { answer[d + i] = a[i]; }` (the copying loops of DwUdpSocket.c:1053-1090). -/
def copyN (a : List UInt8) (d : Nat) : (n i : Nat) → Cells → Res Cells
  | 0, _, b => .ok b
  | n + 1, i, b => do
    let x ← rd a i
    let b ← wrC b (d + i) x
    copyN a d n (i + 1) b

/-- The loop over the name, DwUdpSocket.c:1064-1071.  Gives the place it stopped at. -/
def copyName (a : List UInt8) (count : Nat) : (n i : Nat) → Cells → Res (Cells × Nat)
  | 0, i, b => .ok (b, i)
  | n + 1, i, b =>
    if i < 520 ∧ i < count then do
      let x ← rd a i
      if x = 0 then .ok (b, i) else do
        let b ← wrC b i x
        copyName a count n (i + 1) b
    else .ok (b, i)

/-- `make_synth_answer`, DwUdpSocket.c:1043-1092.  The new block and the new value of
`*count`; `err` for the null pointer. -/
def makeSynth (a : List UInt8) (count : Nat) (only : Bool) (synth : List UInt8) : Res (Cells × Nat) :=
  let b : Cells := List.replicate (count + synth.length + 3) none
  if only then do
    let b ← copyN synth 0 synth.length 0 b
    .ok (b, count)
  else do
    let b ← copyN a 0 (min 12 count) 0 b
    let (b, i) ← copyName a count 520 (min 12 count) b
    if count < i + 5 ∨ i > 512 then .err
    else do
      let b ← copyN a 0 5 i b
      let b ← copyN synth (i + 5) synth.length 0 b
      .ok (b, i + 5)

/-- The bytes of `not_there`, DwUdpSocket.c:1097-1104. -/
def notThere : List UInt8 :=
  [0xc0, 0x0c, 0, 6, 0, 1, 0, 0, 0, 0, 0, 0x1c, 1, 0x7a, 0xc0, 0x0c, 1, 0x79, 0xc0, 0x0c,
    0, 0, 0, 1, 0, 0, 0, 1, 0, 0, 0, 1, 0, 0, 0, 1, 0, 0, 0, 1]

/-- The bytes of `AnyAnswer`, DwUdpSocket.c:1110-1111, as many as are copied (21). -/
def anyAnswer : List UInt8 :=
  [0xc0, 0x0c, 0, 0x0d, 0, 1, 0, 0, 0, 0, 0, 9, 7, 0x52, 0x46, 0x43, 0x38, 0x34, 0x38, 0x32, 0]

/-- Mark the block as an answer with one authority record, DwUdpSocket.c:838-846; `ra`
tells whether the RA bit is set too (it is not in `make_synth_not_there`, 1128-1132). -/
def finish (b : Cells) (ra : Bool) : Res Cells := do
  let f ← rdC b 2
  let b ← wrC b 2 (f ||| 0x80)
  let b ← if ra then do
      let g ← rdC b 3
      wrC b 3 (g ||| 0x80)
    else .ok b
  let b ← wrC b 9 1
  let b ← wrC b 11 0
  let b ← wrC b 10 0
  let b ← wrC b 8 0
  let b ← wrC b 7 0
  wrC b 6 0

/-- `sendto` with a length: the bytes of the block that go out. -/
def send (b : Cells) (n : Nat) : Res Cells := if n ≤ b.length then .ok (b.take n) else .ub

/-- The answer to a query that is refused, DwUdpSocket.c:829-849. -/
def refuse (packet : List UInt8) (len qtype : Nat) : Res Cells := do
  let (b, len) ← makeSynth packet len false (if qtype = 255 ∨ qtype = 13 then anyAnswer else notThere)
  let b ← finish b true
  send b (len + 40)

/-- The answer to a query for a name with a block-list entry in the cache,
DwUdpSocket.c:605-626.  The pointer is not tested for null. -/
def blocklist (packet : List UInt8) (len : Nat) : Res Cells :=
  match makeSynth packet len false notThere with
  | .ok (b, len) => do
    let b ← finish b true
    send b (len + 40)
  | _ => .ub

/-- What becomes of a packet from a client. -/
inductive Fate where
  /-- no reaction -/
  | drop
  /-- this is sent back -/
  | reply (cells : Cells)
  /-- the question is looked up in the cache and then upstream -/
  | lookup (query packet : List UInt8) (len : Nat)
deriving DecidableEq

/-- No answer is sent when the pointer is null, DwUdpSocket.c:834-836. -/
def fateOf : Res Cells → Res Fate
  | .ok cells => .ok (.reply cells)
  | .err => .ok .drop
  | .ub => .ub

/-- The parameters the decision depends on. -/
structure Cfg where
  rejectAaaa : Bool
  rejectPtr : Bool
  rfc8482 : Bool
  /-- is the name refused by the block file (`BH.blocked` on the lower-cased query) -/
  blocked : List UInt8 → Res Bool

/-- From the question on, DwUdpSocket.c:775-861.  The case of the query is not touched
here: only `blocked` sees the lower-cased query. -/
def ask (c : Cfg) (packet : List UInt8) (len : Nat) : Res Fate :=
  match Dw.getDnameType packet 12 len with
  | .ok q => do
    let t0 ← rd q (q.length - 2)
    let t1 ← rd q (q.length - 1)
    let qtype := t0.toNat * 256 + t1.toNat
    let inHash ← c.blocked q
    if (qtype = 28 ∧ c.rejectAaaa) ∨ (qtype = 12 ∧ c.rejectPtr) ∨ ((qtype = 255 ∨ qtype = 13) ∧ c.rfc8482) ∨ inHash then
      fateOf (refuse packet len qtype)
    else .ok (.lookup q packet len)
  | .err => .ok .drop
  | .ub => .ub

/-- `get_local_udp_packet`, DwUdpSocket.c:720-861, for a client on the access list.
`packet` is the whole array on the stack (522 bytes), of which `recvfrom` filled the
first `len`. -/
def getLocal (c : Cfg) (packet : List UInt8) (len : Nat) : Res Fate :=
  if len < 12 then .ok .drop
  else do
    let id ← Hdr.getDnsQid packet len 2
    if id = -2 then
      match Dw.getDnameType packet 12 len with
      | .ok q => do
        let len := q.length + 14
        let packet ← wr packet 11 0
        let id ← Hdr.getDnsQid packet len 2
        if id < 0 ∨ len < 13 then .ok .drop else ask c packet len
      | .err => .ok .drop
      | .ub => .ub
    else if id < 0 ∨ len < 13 then .ok .drop
    else ask c packet len

/-- Who waits for an answer: a UDP client or one connected by TCP (its place in the
table), with the ID of its question; or nobody (a question asked by Deadwood itself). -/
inductive Waiter where
  | udp (id : Nat)
  | tcp (id : Nat)
  | glueless

/-- Put an ID into the answer, DwUdpSocket.c:1140-1142. -/
def putId (b : Cells) (id : Nat) : Res Cells := do
  let b ← wrC b 0 (UInt8.ofNat (id / 256))
  wrC b 1 (UInt8.ofNat id)

/-- `make_synth_not_there`, DwUdpSocket.c:1115-1163: the answer for every waiting client,
in order.  For TCP it is the length passed to `tcp_return_reply`. -/
def notThereAll (b : Cells) (count : Nat) : List Waiter → Res (List Cells)
  | [] => .ok []
  | .glueless :: ws => notThereAll b count ws
  | .udp id :: ws => do
    let b ← putId b id
    let s ← send b (count + 40)
    let r ← notThereAll b count ws
    .ok (s :: r)
  | .tcp id :: ws => do
    let b ← putId b id
    let s ← send b count
    let r ← notThereAll b count ws
    .ok (s :: r)

/-- `make_synth_not_there`, DwUdpSocket.c:1115-1163, up to the reset of the connection. -/
def synthNotThere (a : List UInt8) (count : Nat) (ws : List Waiter) : Res (List Cells) :=
  if count < 12 then .ok []
  else
    match makeSynth a count false notThere with
    | .ok (b, count) => do
      let b ← finish b false
      notThereAll b count ws
    | .err => .ok []
    | .ub => .ub

end SR
end Dw
