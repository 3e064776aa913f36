import Verif.Deadwood.RemoteModel
import Verif.Deadwood.DissectModel
import Verif.Deadwood.DnsStrModel
import Verif.Deadwood.CompModel
/-!
# Model: what is done with a reply off the wire

`cache_dns_reply` of DwUdpSocket.c.
-/

namespace Dw
namespace Incoming
open DwStr Dissect

/-- What is done with a reply: something is put in the cache or looked up next, or it had a blocked address (-2: the
client is told that the name has no such records). -/
inductive Received where
  | step (s : Step)
  | blocked
deriving Repr, DecidableEq

/-- The string object around the received bytes, DwStr.c:1032-1038. -/
def hack (packet : List UInt8) (count : Nat) : DwStr := ⟨count, count + 1, packet.take (count + 3)⟩

/-- How long the answer may be kept, DwUdpSocket.c:959-984; `answer` is the packet behind the question, `decomp` the same
with names written out.  A null pointer for the question was handled before. -/
def replyTtl (cfg : Times) (answer decomp : DwStr) : Res Int := do
  let ancount ← answer.cachepacketToAncount
  let ancount := if ancount = 0 then 32 else ancount
  let ttl : Int ← match answer.getADnsttl ancount 0 31536000 with
    | .ok t => .ok (t : Int)
    | .err => if decomp.len = 7 then .ok 30 else .err
    | .ub => .ub
  let ttl := if ttl < 30 then 30 else ttl
  let ttl := if ttl > cfg.max then cfg.max else ttl
  .ok (if ttl < cfg.min then cfg.min else ttl)

/-- `cache_dns_reply`, DwUdpSocket.c:929-1008, for a packet that is not truncated: the first `count` bytes of `packet`
were received, from the servers `ns`.  `filter` and `blocked` are the configuration of `dwc_has_bad_ip`.  `err` is a return
of -1.  (The same memory contents `junk` are used for all strings that are made.) -/
def cacheDnsReply (cfg : Times) (filter : Bool) (blocked : List UInt8 → Bool) (ns : DwStr) (up : Bool)
    (packet : List UInt8) (count : Nat) (junk : List UInt8) : Res Received := do
  let question ← match Remote.question packet count with
    | .ok q => Res.ok (some q)
    | .err => Res.ok none
    | .ub => Res.ub
  let rcode ← rawPeek packet 3
  let rcode := rcode.toNat % 16
  if rcode = 2 then .err
  else do
    let answer ← packetToCache (hack packet count) (if rcode = 3 then 1 else 0) junk
    match question with
    | none => .err
    | some q => do
      let question := Remote.dstr q
      let decomp ← decompress question answer junk
      let bad ← hasBadIp filter blocked decomp junk
      if bad then .ok .blocked
      else do
        let ttl ← replyTtl cfg answer decomp
        let st ← cacheReply cfg ns up question decomp ttl junk
        .ok (.step st)

end Incoming
end Dw
