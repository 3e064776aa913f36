import Verif.Deadwood.StrModel
/-!
# Replies made from the cache, and what clients get when the time is up

Source: `/repo/deadwood-github/src/DwUdpSocket.c` and `DwSocket.c`.
-/

namespace Dw
namespace Reply

/-- `make_dns_header`, DwUdpSocket.c:446-486.  The numbers are not negative here; the test
for negative ones is in the callers.  `flags` is the 16 bits (the C code passes them as a
signed number and back). -/
def makeHeader (id flags an ns ar : Nat) (junk : List UInt8) : Res DwStr := do
  let s ← DwStr.create 515 junk
  let s ← s.pushU16 id
  let s ← s.pushU16 flags
  let s ← s.pushU16 1
  let s ← s.pushU16 an
  let s ← s.pushU16 ns
  s.pushU16 ar

/-- A number popped from a string; -1 (and the string as before) when it is too short. -/
def pop (s : DwStr) (f : DwStr → Res (Nat × DwStr)) : Res (Int × DwStr) :=
  match f s with
  | .ok (n, s) => .ok (n, s)
  | .err => .ok (-1, s)
  | .ub => .ub

/-- Header, question, class (DwUdpSocket.c:526-529). -/
def withQuestion (q : DwStr) (id flags : Nat) (an ns ar : Int) (junk : List UInt8) : Res DwStr :=
  if an < 0 ∨ ns < 0 ∨ ar < 0 then .err
  else do
    let out ← makeHeader id flags an.toNat ns.toNat ar.toNat junk
    let out ← DwStr.append q out
    out.pushU16 1

/-- `make_dns_packet`, DwUdpSocket.c:491-542.  The second result is what the caller's
`answer` looks like afterwards.  `none` is the null pointer. -/
def makePacket (q answer : DwStr) (id : Nat) (junk : List UInt8) : Res (Option DwStr × DwStr) := do
  let (kind, answer) ← pop answer DwStr.popU8
  if kind = 3 ∨ kind = 4 then
    match withQuestion q id (if kind = 3 then 0x8380 else 0x8383) 0 0 0 junk with
    | .ok out => .ok (some out, answer)
    | .err => .ok (none, answer)
    | .ub => .ub
  else do
    let (ar, answer) ← pop answer DwStr.popU16
    let (ns, answer) ← pop answer DwStr.popU16
    let (an, answer) ← pop answer DwStr.popU16
    if kind = 0 ∨ kind = 1 ∨ kind = 2 then
      match (withQuestion q id (if kind = 1 then 0x8183 else 0x8180) an ns ar junk).bind
          (fun out => DwStr.append answer out) with
      | .ok out => .ok (some out, answer)
      | .err => .ok (none, answer)
      | .ub => .ub
    else .ok (none, answer)

/-- A client waiting for a question (`local_T`): its ID, whether it is not a client but
Deadwood itself (`glueless_type`), its TCP connection (`tcp_num`), whether its UDP socket is
still noted (`from_socket`) and whether its address is (`ip.len` of 4 or 16). -/
structure Client where
  id : Nat
  inner : Bool
  tcp : Option Nat
  sock : Bool
  addr : Bool
deriving DecidableEq, Repr

/-- Something that reaches a client. -/
inductive Out where
  | udp (client : Nat) (bytes : List UInt8)
  | tcp (slot : Nat) (bytes : List UInt8)
  | closed (slot : Nat)
deriving DecidableEq, Repr

/-- `forward_remote_reply`, DwUdpSocket.c:885-925. -/
def forward (bytes : List UInt8) (cs : List Client) (n : Nat) : Res (List Out × List Client) :=
  match cs[n]? with
  | none => .ub
  | some c =>
    if !c.sock || c.inner || !c.addr then .ok ([], cs)
    else .ok ([.udp n bytes], cs.set n { c with sock := false })

/-- `server_fail_noreply`, DwUdpSocket.c:1413-1447.  `listen` is `tcp_listen`. -/
def serverFail (q : DwStr) (listen : Bool) (junk : List UInt8) (cs : List Client) (n : Nat) :
    Res (List Out × List Client) :=
  match cs[n]? with
  | none => .ub
  | some c =>
    if c.inner then .ok ([], cs)
    else
      match withQuestion q c.id 0x8182 0 0 0 junk with
      | .ub => .ub
      | .err => .ok ([], cs)
      | .ok p =>
        match c.tcp with
        | none => forward p.contents cs 0
        | some t => .ok (if listen then [.tcp t p.contents] else [], cs)

/-- The loop at DwSocket.c:1184-1193, from client `n` on. -/
def failFrom (q : DwStr) (noreply listen : Bool) (junk : List UInt8) :
    (left n : Nat) → List Client → Res (List Out × List Client)
  | 0, _, cs => .ok ([], cs)
  | left + 1, n, cs => do
    let (o, cs) ← (if noreply then serverFail q listen junk cs n
      else match cs[n]? with
        | none => .ub
        | some c => match c.tcp with
          | none => .ok ([], cs)
          | some t => .ok ([.closed t], cs))
    let (os, cs) ← failFrom q noreply listen junk left (n + 1) cs
    .ok (o ++ os, cs)

/-- The loop of `handle_resurrections`, DwSocket.c:1109-1132.  The first result tells
whether every client was served. -/
def resurrectFrom (q : DwStr) (junk : List UInt8) :
    (left n : Nat) → (value : DwStr) → List Client → Res (Bool × List Out × List Client)
  | 0, _, _, cs => .ok (true, [], cs)
  | left + 1, n, v, cs =>
    match cs[n]? with
    | none => .ub
    | some c =>
      if c.inner then resurrectFrom q junk left (n + 1) v cs
      else do
        let (p, v) ← makePacket q v c.id junk
        match p with
        | none => .ok (false, [], cs)
        | some p => do
          let (o, cs) ← (match c.tcp with
            | none => forward p.contents cs n
            | some t => .ok ([.tcp t p.contents], cs))
          let (b, os, cs) ← resurrectFrom q junk left (n + 1) v cs
          .ok (b, o ++ os, cs)

/-- `handle_expired` once no retry is left, DwSocket.c:1179-1193.  `old` is the expired
element found in the cache, if `resurrections` is 1 and there is one. -/
def expired (q : DwStr) (old : Option DwStr) (noreply listen : Bool) (junk : List UInt8)
    (cs : List Client) : Res (List Out) := do
  let (done, os, cs) ← (match old with
    | none => .ok (false, [], cs)
    | some v => resurrectFrom q junk cs.length 0 v cs)
  if done then .ok os
  else do
    let (os', _) ← failFrom q noreply listen junk cs.length 0 cs
    .ok (os ++ os')

end Reply
end Dw
