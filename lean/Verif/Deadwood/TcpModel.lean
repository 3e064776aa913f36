import Verif.Deadwood.StrModel
/-!
# TCP connections

Source: `/repo/deadwood-github/src/DwTcpSocket.c` and `DwSocket.h:188-207`.  `recv` and `send`
return what the operating system decides; times are counted in 1/256 seconds.
`malloc` is taken to succeed.
-/

namespace Dw
namespace Tcp

/-- `tcp_pend_T`, DwSocket.h:188-197.  The slot is in use (`local` is a socket); `buf` is the
whole allocated block. -/
structure Conn where
  buf : Option (List UInt8)
  wanted : Nat
  got : Nat
  sent : Nat
  state : Nat
  die : Nat
deriving DecidableEq, Repr

/-- A block from `malloc` with arbitrary contents. -/
def malloc (n : Nat) (junk : List UInt8) : List UInt8 := (junk ++ List.replicate n 0).take n

/-- `memcpy` of `l` to offset `o` of a block. -/
def blit (b : List UInt8) (o : Nat) (l : List UInt8) : Res (List UInt8) :=
  if o + l.length ≤ b.length then .ok (b.take o ++ l ++ b.drop (o + l.length)) else .ub

/-- `local_tcp_accept` once the client is let in, DwTcpSocket.c:179-189; `limit` is
`timeout_seconds_tcp << 8`. -/
def accept (now limit : Nat) (junk : List UInt8) : Conn :=
  ⟨some (malloc 3 junk), 2, 0, 0, 0, now + limit⟩

/-- What `recv` returns: -1, or some bytes (none at all at the end of the stream). -/
abbrev Recv := Option (List UInt8)

/-- `tcp_get_wanted`, DwTcpSocket.c:194-217. -/
def getWanted (r : Recv) (now limit : Nat) (c : Conn) : Res Conn :=
  if c.got < c.wanted ∧ c.state = 0 then
    match r with
    | none => .ok c
    | some l =>
      if c.wanted - c.got < l.length then .ok c
      else
        match c.buf with
        | none => .ub
        | some b => do
          let b ← blit b c.got l
          .ok { c with buf := some b, got := c.got + l.length, die := now + limit }
  else .ok c

/-- The length from its two bytes, DwTcpSocket.c:232-234: the buffer is of type `char`, which
`signed` says is signed.  Shifting a negative number to the left is undefined. -/
def lenOf (signed : Bool) (b0 b1 : UInt8) : Res Int :=
  if signed then
    if 128 ≤ b0.toNat then .ub
    else if 128 ≤ b1.toNat then .ok ((b1.toNat : Int) - 256)
    else .ok ((b0.toNat : Int) * 256 + b1.toNat)
  else .ok ((b0.toNat : Int) * 256 + b1.toNat)

/-- What is next for a connection: more to read, closed, or a query for `tcp_to_udp`. -/
inductive Next where
  | wait (c : Conn)
  | closed
  | query (c : Conn) (bytes : List UInt8)
deriving DecidableEq, Repr

/-- `tcp_process_data`, DwTcpSocket.c:221-250. -/
def processData (signed : Bool) (now limit : Nat) (junk : List UInt8) (c : Conn) : Res Next :=
  match c.buf with
  | none => .ok (.wait c)
  | some b =>
    if c.wanted ≠ c.got ∨ c.state ≠ 0 then .ok (.wait c)
    else if c.wanted = 2 then
      match b[0]?, b[1]? with
      | some b0, some b1 => do
        let w ← lenOf signed b0 b1
        if w < 12 then .ok .closed
        else .ok (.wait { c with got := 0, wanted := w.toNat, buf := some (malloc (w.toNat + 1) junk),
                                 die := now + limit })
      | _, _ => .ub
    else if 12 ≤ c.wanted then
      if c.wanted ≤ b.length then .ok (.query c (b.take c.wanted)) else .ub
    else .ok (.wait c)

/-- What happens to a client's stream in one turn of the main loop: nothing is there, up to
`n` bytes are there, or the client has closed its side. -/
inductive Ev where
  | again
  | give (n : Nat)
  | eof
deriving DecidableEq, Repr

/-- `recv` of at most `toget` bytes of a stream: what it returns and what is left. -/
def recv (ev : Ev) (toget : Nat) (stream : List UInt8) : Recv × List UInt8 :=
  match ev with
  | .again => (none, stream)
  | .give n =>
    if min n (min toget stream.length) = 0 then (none, stream)
    else (some (stream.take (min n toget)), stream.drop (min n toget))
  | .eof => (some [], stream)

/-- One turn for a connection that is being read, `tcp_handle_all` (DwTcpSocket.c:577-587):
`tcp_get_wanted` then `tcp_process_data`. -/
def turn (signed : Bool) (limit : Nat) (junk : List UInt8) (ev : Ev) (now : Nat) (c : Conn)
    (stream : List UInt8) : Res (Next × List UInt8) := do
  let (r, stream') := if c.got < c.wanted ∧ c.state = 0 then recv ev (c.wanted - c.got) stream
    else (none, stream)
  let c ← getWanted r now limit c
  let n ← processData signed now limit junk c
  .ok (n, stream')

/-- Turns at the given times, until the connection is closed or a query was read. -/
def run (signed : Bool) (limit : Nat) (junk : List UInt8) :
    List (Ev × Nat) → Conn → List UInt8 → Res (Next × List UInt8)
  | [], c, s => .ok (.wait c, s)
  | (ev, now) :: evs, c, s => do
    let (n, s) ← turn signed limit junk ev now c s
    match n with
    | .wait c => run signed limit junk evs c s
    | n => .ok (n, s)

/-- The test of `kill_tcp_expired`, DwTcpSocket.c:593. -/
def expired (now : Nat) (c : Conn) : Bool := decide (0 < c.die ∧ c.die < now)

/-- `tcp_return_reply`, DwTcpSocket.c:304-318. -/
def returnReply (now limit : Nat) (packet : List UInt8) (c : Conn) : Conn :=
  { c with
    state := 2
    buf := some ([UInt8.ofNat (packet.length / 256), UInt8.ofNat packet.length] ++ packet ++ [0])
    wanted := packet.length + 2
    got := 0
    die := now + limit }

/-- `tcp_send_wanted`, DwTcpSocket.c:322-342.  `acc` is how much the operating system takes,
or none for -1.  The result is the bytes sent and the connection, if it is still there. -/
def sendWanted (acc : Option Nat) (now limit : Nat) (c : Conn) : Res (List UInt8 × Option Conn) :=
  if c.state ≠ 2 then .ok ([], some c)
  else if c.got < c.wanted then
    match acc with
    | none => .ok ([], some c)
    | some n =>
      match c.buf with
      | none => .ub
      | some b =>
        if c.wanted ≤ b.length then
          let k := min n (c.wanted - c.got)
          .ok ((b.drop c.got).take k, some { c with got := c.got + k, die := now + limit })
        else .ub
  else .ok ([], none)

/-- Sending over many turns. -/
def sendRun (limit : Nat) : List (Option Nat × Nat) → Conn → Res (List UInt8 × Option Conn)
  | [], c => .ok ([], some c)
  | (a, now) :: as, c => do
    let (o, c) ← sendWanted a now limit c
    match c with
    | none => .ok (o, none)
    | some c => do
      let (os, c) ← sendRun limit as c
      .ok (o ++ os, c)

/-- The upstream length in state 5, `tcp_get_upstream_len` (DwTcpSocket.c:497-514), once both
bytes are there: the connection that waits for the message. -/
def startForward (b0 b1 : UInt8) (now limit : Nat) (junk : List UInt8) (c : Conn) : Conn :=
  let w := b0.toNat * 256 + b1.toNat
  { c with
    wanted := w
    buf := some (UInt8.ofNat (w / 256) :: UInt8.ofNat w :: malloc (w + 1) junk)
    die := now + limit
    state := 6
    got := 0 }

/-- `tcp_downstream_forward`, DwTcpSocket.c:519-574, in state 6: `r` is what `recv` returns
from upstream, `acc` how much of the data the client's connection takes (none for -1). -/
def forward (r : Recv) (acc : Option Nat) (now limit : Nat) (c : Conn) :
    Res (List UInt8 × Option Conn) :=
  if c.state ≠ 6 then .ok ([], some c)
  else
    match c.buf with
    | none => .ok ([], none)
    | some b =>
      if c.wanted ≤ c.got ∨ c.wanted + 2 ≤ c.sent then .ok ([], none)
      else
        match r with
        | none => .ok ([], some c)
        | some [] => .ok ([], some c)
        | some l =>
          if c.wanted - c.got < l.length then .ub
          else do
            let b ← blit b (2 + c.got) l
            let die := if l.length ≠ c.wanted - c.got then now + limit else c.die
            let c := { c with buf := some b, got := c.got + l.length, die := die }
            match acc with
            | none => .ok ([], some c)
            | some 0 => .ok ([], some c)
            | some (n + 1) =>
              if b.length < c.got + 2 then .ub
              else
                let k := min (n + 1) (c.got + 2 - c.sent)
                let o := (b.drop c.sent).take k
                if k ≠ l.length then
                  .ok (o, some { c with die := now + limit, sent := c.sent + k })
                else if c.wanted = c.got then .ok (o, none)
                else .ok (o, some { c with sent := c.sent + k })

/-- Forwarding over many turns: at each the upstream stream gives up to a number of bytes and
the client takes up to a number of bytes. -/
def forwardRun (limit : Nat) :
    List (Nat × Option Nat × Nat) → Conn → List UInt8 → Res (List UInt8 × Option Conn)
  | [], c, _ => .ok ([], some c)
  | (n, acc, now) :: es, c, s => do
    let r := recv (.give n) (c.wanted - c.got) s
    let (o, c) ← forward r.1 acc now limit c
    match c with
    | none => .ok (o, none)
    | some c => do
      let (os, c) ← forwardRun limit es c r.2
      .ok (o ++ os, c)

end Tcp
end Dw
