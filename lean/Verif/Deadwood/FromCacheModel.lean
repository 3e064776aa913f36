import Verif.Deadwood.HashModel
import Verif.Deadwood.DnsStrModel
import Verif.Deadwood.CompModel
import Verif.Deadwood.ReplyModel
import Verif.Deadwood.SynthReplyModel
/-!
# Answering a client from the cache

Source: `dwc_process` in `/repo/deadwood-github/src/DwDnsStr.c` and `get_reply_from_cache` in
`/repo/deadwood-github/src/DwUdpSocket.c`.

Both functions work on the cache with the calls of `HOp` only.  They are written as programs that
make such calls, so that they can be run on the hash (`Hash.step`).  A string fetched from the cache
is modelled with its contents and one byte of free room; none of the functions used here writes
behind the contents of such a string.  All blocks of memory are filled with the same `junk` when
they are allocated.  Logging is not modelled.
-/

namespace Dw
namespace FromCache

/-- A computation with calls on the cache. -/
inductive Prog (α : Type) where
  | ret (a : α)
  /-- undefined behaviour -/
  | ub
  | call (op : HOp) (k : HOut → Prog α)

namespace Prog

/-- One after the other. -/
def bind {α β : Type} : Prog α → (α → Prog β) → Prog β
  | ret a, f => f a
  | ub, _ => ub
  | call op k, f => call op (fun o => (k o).bind f)

/-- The program run on the hash. -/
def run (hf : List UInt8 → Nat) {α : Type} : Prog α → Hash → Res (α × Hash)
  | ret a, h => .ok (a, h)
  | ub, _ => .ub
  | call op k, h => match h.step hf op with
    | .ok (o, h') => (k o).run hf h'
    | .err => .err
    | .ub => .ub

end Prog

/-- A step that does not involve the cache; `none` is a failure the caller sees. -/
def attempt {α β : Type} (r : Res α) (k : Option α → Prog β) : Prog β :=
  match r with
  | .ok a => k (some a)
  | .err => k none
  | .ub => .ub

/-- `dwh_get(cache, key, resurrect, 1)`. -/
def look {β : Type} (now : Int) (key : List UInt8) (anyAge : Bool) (k : Option (List UInt8) → Prog β) :
    Prog β :=
  .call (.look now key anyAge) fun
    | .val v => k v
    | .code _ => .ub

/-- `dwh_get_ttl(cache, key)`. -/
def ttl {β : Type} (now : Int) (key : List UInt8) (k : Int → Prog β) : Prog β :=
  .call (.ttl now key) fun
    | .code t => k t
    | .val _ => .ub

/-- `dwh_add(cache, key, value, -2, 1)`; the return value is not looked at. -/
def again {β : Type} (now : Int) (key value : List UInt8) (k : Prog β) : Prog β :=
  .call (.put now key value (-2)) fun _ => k

/-- `dwh_zap(cache, key, 0, 1)`; the return value is not looked at. -/
def drop {β : Type} (key : List UInt8) (k : Prog β) : Prog β := .call (.drop key) fun _ => k

/-- The copy `dwh_get` returns. -/
def fetched (v : List UInt8) : DwStr := ⟨v.length, v.length + 1, v ++ [0, 0, 0]⟩

/-- The parameters: `key_n[DWM_N_ttl_age]`, `key_n[DWM_N_max_ar_chain]`, `key_n[DWM_N_reject_mx]`,
`key_n[DWM_N_tcp_listen]`; and what fresh memory holds. -/
structure Cfg where
  age : Int
  chain : Int
  rejectMx : Int
  listen : Int
  junk : List UInt8

/-- The rotation in `dwc_process`, DwDnsStr.c:508-523. -/
def turn (cfg : Cfg) (now : Int) (key : List UInt8) (action : Nat) : Prog Unit :=
  if cfg.chain = 1 ∧ action % 2 = 1 then
    look now key false fun
    | none => .ret ()
    | some v => attempt ((fetched v).rrRotate cfg.junk) fun
      | none => .ret ()
      | some w => ttl now key fun t =>
        if t = -1 then .ret () else again now key w.contents (.ret ())
  else .ret ()

/-- `dwc_process`, DwDnsStr.c:479-530. -/
def process (cfg : Cfg) (now : Int) (key : List UInt8) (action : Nat) : Prog Unit :=
  look now key false fun
  | none => .ret ()
  | some v => attempt ((fetched v).fetchU8 (-1)) fun kind =>
    if kind = some 24 then .ret ()
    else if cfg.age = 1 ∧ action / 2 % 2 = 1 then
      ttl now key fun t =>
        if t = -1 then .ret ()
        else attempt ((fetched v).ttlAge t cfg.junk) fun
          | none => .ret ()
          | some w => again now key w.contents (turn cfg now key action)
    else turn cfg now key action

/-- What a client asked: the question (name and type) as it was written, its ID, whether there is an
address to send to (`client != 0`), whether expired entries will do (`resurrect`), the TCP connection
(`tcp_num != -1`), and the packet with its length (`orig_packet`). -/
structure Ask where
  query : List UInt8
  id : Nat
  client : Bool
  resurrect : Bool
  tcp : Option Nat
  packet : Option (List UInt8 × Nat)

/-- Something sent to the client. -/
inductive Sent where
  | udp (bytes : List UInt8)
  | tcp (slot : Nat) (bytes : List UInt8)
  /-- the answer for names with a block-list entry -/
  | synth (cells : SR.Cells)
deriving DecidableEq

/-- Return value, and what was sent. -/
structure Outcome where
  code : Int
  sent : Option Sent
deriving DecidableEq

/-- Nothing was found or could be sent. -/
def fail : Outcome := ⟨-1, none⟩

/-- The answer for names with a block-list entry, DwUdpSocket.c:604-630. -/
def refuse (a : Ask) : Prog Outcome :=
  match a.tcp, a.packet with
  | none, some (packet, len) => attempt (SR.blocklist packet len) fun
    | some cells => .ret ⟨1, some (.synth cells)⟩
    | none => .ub
  | _, _ => .ret ⟨2, none⟩

/-- From the compressed answer on, DwUdpSocket.c:643-663. -/
def deliver (cfg : Cfg) (a : Ask) (key : List UInt8) (comp : DwStr) : Prog Outcome :=
  if comp.len = 7 then drop key (.ret fail)
  else attempt (Reply.makePacket (fetched a.query) comp a.id cfg.junk) fun
    | some (some p, _) => .ret ⟨1, match a.tcp with
      | none => some (.udp p.contents)
      | some t => if cfg.listen = 1 then some (.tcp t p.contents) else none⟩
    | _ => .ret fail

/-- From the lookup on, for a question that is not blocked, DwUdpSocket.c:591-663.  `query` is the
lower-cased question.  (The test for `client == 0` at 634 can not succeed.) -/
def found (cfg : Cfg) (now : Int) (a : Ask) (query : DwStr) : Prog Outcome :=
  (process cfg now query.contents 3).bind fun _ =>
  look now query.contents a.resurrect fun
  | none => .ret fail
  | some v => attempt ((fetched v).fetchU8 (-1)) fun kind =>
    if kind = some 24 then refuse a
    else if kind ≠ some 3 ∧ kind ≠ some 4 then
      attempt (DwStr.compress query (fetched v) cfg.junk) fun
      | none => .ret fail
      | some comp => deliver cfg a query.contents comp
    else drop query.contents (attempt ((fetched v).copy cfg.junk) fun
      | none => .ret fail
      | some comp => deliver cfg a query.contents comp)

/-- `get_reply_from_cache`, DwUdpSocket.c:545-676.  The return value of `dwc_lower_case` is not looked
at. -/
def reply (cfg : Cfg) (now : Int) (a : Ask) : Prog Outcome :=
  if !a.client then .ret fail
  else attempt ((fetched a.query).lowerCase) fun q =>
    let query := q.getD (fetched a.query)
    attempt (query.fetchU16 (-1)) fun type =>
    if type = some 15 ∧ cfg.rejectMx ≠ 0 then .ret ⟨1, none⟩
    else if type = some 28 then
      attempt (query.putU16 1 (-3)) fun
      | none => .ret fail
      | some query => look now query.contents a.resurrect fun v =>
        attempt (match v with
          | some v => (fetched v).fetchU8 (-1)
          | none => .err) fun kind =>
        attempt (query.putU16 28 (-3)) fun
        | none => .ret fail
        | some query => if kind = some 24 then refuse a else found cfg now a query
    else found cfg now a query

/-- What happens to the cache: a client asks, or some other part of Deadwood makes a call. -/
inductive Event where
  | ask (now : Int) (a : Ask)
  | op (o : HOp)

/-- Events one after the other, with what the clients got. -/
def session (hf : List UInt8 → Nat) (cfg : Cfg) : List Event → Hash → Res (List Outcome × Hash)
  | [], h => .ok ([], h)
  | .ask now a :: es, h => do
    let (o, h) ← (reply cfg now a).run hf h
    let (os, h) ← session hf cfg es h
    .ok (o :: os, h)
  | .op o :: es, h => do
    let (_, h) ← h.step hf o
    session hf cfg es h

end FromCache
end Dw
