import Verif.Deadwood.IncomingModel
import Verif.Deadwood.AliasModel
import Verif.Deadwood.NsModel
import Verif.Spec.Packed
/-!
# Model: requests from the first question to the last reply

Source: `/repo/deadwood-github/src`: `get_upstream_ns` and `handle_expired` (DwSocket.c), `make_remote_connection`,
`get_remote_udp_packet` and `send_reply_from_cache` (DwUdpSocket.c), `dwx_ns_getip`, `dwx_handle_ns_refer`,
`dwx_do_glueless_new`, `dwx_glueless_done`, `dwx_handle_cname_refer`, `dwx_incomplete_cname_done`, `dwx_cname_in_cache` and
`dwx_cached_cname_done` (DwRecurse.c).

The table `rem` of requests and the cache, over any sequence of events.  The cache is a list of keys and values, of which
those that are configured are never replaced (DwHash.c:642-645); that the hash is such a map is the matter of other
files.  What is done is done in the order of the code, except that a request which is started for another one sends its
packet in an event of its own.  Whatever the operating system or the limits on recursion
may refuse is refused by `able`.  Not in the code are `Sock.list` and the list in `Role.glue`, which say which list of
servers a server was taken from, and `heard` and `judged`.
-/

namespace Dw
namespace Trust
open DwStr Dissect Incoming Ns
open Acl (rd wr)
open Spec (be16)

/-- The configuration: times, filters, `truncation_hack`, `ns_glueless_type`. -/
structure Cfg where
  times : Times
  filter : Bool
  blocked : List UInt8 → Bool
  hack : Bool
  glueType : Nat

/-- An element of the cache. -/
structure Entry where
  key : List UInt8
  value : List UInt8
  fixed : Bool
deriving DecidableEq, Repr

/-- `dwh_get`. -/
def get (c : List Entry) (key : List UInt8) : Option (List UInt8) := (c.find? fun e => e.key == key).map Entry.value

/-- `dwh_add`. -/
def put (c : List Entry) (key value : List UInt8) : List Entry :=
  if c.any fun e => e.key == key && e.fixed then c else ⟨key, value, false⟩ :: c.filter fun e => e.key != key

/-- An open socket: the ID of the question, the address, and the list of servers it was taken from. -/
structure Sock where
  id : Nat
  ip : List UInt8
  list : List UInt8
deriving DecidableEq, Repr

/-- What a request is for (`glueless_type` and `glueless_conn`): clients only; the address of a server of the list `list` of the
request `parent` (1); the name an alias leads to, for `parent` (2), or for a client that asked `oquery` (3). -/
inductive Role where
  | client
  | glue (parent : Nat) (list : List UInt8)
  | link (parent : Nat)
  | seen (oquery action : List UInt8)
deriving DecidableEq, Repr

/-- `remote_T`, DwSocket.h:156-175. -/
structure Slot where
  query : List UInt8
  sock : Option Sock
  ns : Option (List UInt8)
  up : Bool
  current : Option Nat
  child : Option Nat
  locals : Nat
  role : Role
deriving DecidableEq, Repr

/-- `reset_rem` (DwSocket.c:114-152) and the new question. -/
def Slot.fresh (query : List UInt8) (role : Role) : Slot := ⟨query, none, none, false, none, none, 1, role⟩

/-- The state: cache and requests.  Not in the code: the messages that were taken, with the list of servers that the
sender was taken from, and the lists that say what zone they were judged by. -/
structure State where
  cache : List Entry
  slots : Nat → Option Slot
  heard : List (List UInt8 × List UInt8)
  judged : List (List UInt8)

/-- Change one request. -/
def State.set (s : State) (b : Nat) (sl : Option Slot) : State := { s with slots := fun i => if i = b then sl else s.slots i }

/-- What comes from outside when a packet is to be sent: the ID, the random numbers of each attempt, the free place
`find_free_remote` finds, and whether it can be sent. -/
structure Wire where
  id : Nat
  tries : List (List Nat × Nat)
  free : Nat
  able : Bool
deriving Inhabited

/-! ### Whom to ask -/

/-- The loop of `get_upstream_ns`, DwSocket.c:1014-1027. -/
def climb (c : List Entry) (junk : List UInt8) : Nat → DwStr → Res (Option (List UInt8))
  | 0, _ => .ok none
  | n + 1, r =>
    match get c r.contents with
    | some v => .ok (some v)
    | none =>
      match dnslabelChop r junk with
      | .ok q => (q.copy junk).bind (climb c junk n)
      | .err => .ok none
      | .ub => .ub

/-- `get_upstream_ns`, DwSocket.c:1003-1040: the list and whether it is one of upstream servers (22). -/
def upstreamNs (c : List Entry) (query junk : List UInt8) : Res (Option (List UInt8 × Bool)) := do
  let r ← (Remote.dstr query).copy junk
  let (_, r) ← r.popU16
  let r ← pushU16 65395 r
  match ← climb c junk 260 r with
  | none => .ok none
  | some v => .ok (some (v, v.getLast? == some 22))

/-- A name in lower case, `dwc_lower_case`. -/
def lowerBytes (n : List UInt8) : Res (List UInt8) :=
  match (Remote.dstr n).lowerCase with
  | .ok s => .ok s.contents
  | .err => .ok n
  | .ub => .ub

/-- The loop of `dwx_get_rr_from_answer`, DwRecurse.c:2679-2697: where the records with addresses are. -/
def addrLoop : Nat → DwStr → List Nat → Res (Option (DwStr × List Nat))
  | 0, a, st => .ok (some (a, st))
  | n + 1, a, st =>
    match a.popU16 with
    | .err => .ok none
    | .ub => .ub
    | .ok (z, a) =>
      match a.popU16 with
      | .err => .ok none
      | .ub => .ub
      | .ok (_, a) =>
        match a.fetchU16 z with
        | .ok t => addrLoop n a (if t = 1 ∨ t = 28 then st ++ [z] else st)
        | .err => addrLoop n a st
        | .ub => .ub

/-- `dwx_get_rr_from_answer`, DwRecurse.c:2659-2712: an address out of an answer.  `rnd` is the random number. -/
def fromAnswer (answer : DwStr) (rnd : Nat) : Res (Option (List UInt8)) :=
  match answer.fetchU8 (-1) with
  | .ub => .ub
  | .err => .ok none
  | .ok k =>
    if k ≠ 0 then .ok none
    else
      match (do
        let (_, a) ← popU16 { answer with len := answer.len - 1 }
        let (_, a) ← a.popU16
        a.popU16 : Res (Nat × DwStr)) with
      | .ub => .ub
      | .err => .ok none
      | .ok (ancount, a) => do
        match ← addrLoop (min ancount 16) a [] with
        | none => .ok none
        | some (a, st) =>
          match st[rnd % st.length]? with
          | none => .ok none
          | some z =>
            match a.fetchU16 z with
            | .ok 1 => do
              let b0 ← rawPeek a.buf (z + 10)
              let b1 ← rawPeek a.buf (z + 11)
              let b2 ← rawPeek a.buf (z + 12)
              let b3 ← rawPeek a.buf (z + 13)
              .ok (some [b0, b1, b2, b3])
            | .ub => .ub
            | _ => .ok none

/-- Whom `dwx_ns_getip` finds: an address, or a name whose address is to be asked for first. -/
inductive Found where
  | nobody
  | ip (a : List UInt8)
  | name (query : List UInt8)
deriving DecidableEq, Repr

/-- `dwx_ns_getip_ipv4` and `dwx_ns_getip_ipv6`, DwRecurse.c:2607-2653: `n` bytes behind the type. -/
def entryAddr (list : DwStr) (offset n : Nat) : Res Found :=
  match (List.range n).foldl (fun r i => r.bind fun a => (list.fetchU8 (offset + 1 + i : Nat)).bind fun x => .ok (a ++ [UInt8.ofNat x]))
      (Res.ok []) with
  | .ok a => .ok (.ip a)
  | .err => .ok .nobody
  | .ub => .ub

/-- `dwx_ns_getip_glueless`, DwRecurse.c:2718-2760. -/
def entryName (cfg : Cfg) (c : List Entry) (list : DwStr) (offset rnd : Nat) : Res Found := do
  let type := if cfg.glueType = 1 ∨ cfg.glueType = 28 ∨ cfg.glueType = 255 then cfg.glueType else 1
  match getDname (list.buf.drop 3) offset 256 with
  | .ub => .ub
  | .err => .ok .nobody
  | .ok (n, _) => do
    let n ← lowerBytes n
    let cached ← match get c (n ++ be16 type) with
      | none => Res.ok none
      | some v => fromAnswer (Remote.dstr v) rnd
    match cached with
    | some a => .ok (.ip a)
    | none => .ok (.name (n ++ be16 cfg.glueType))

/-- `dwx_ns_getip`, DwRecurse.c:2831-2873.  (Where the entry cannot be read, the place in the list stays.) -/
def getAddr (cfg : Cfg) (c : List Entry) (list : DwStr) (current : Option Nat) (rnd : List Nat × Nat) :
    Res (Found × Option Nat) :=
  match nsGetip list current rnd.1 with
  | .ub => .ub
  | .err => .ok (.nobody, current)
  | .ok ((_, offset, type), current) => do
    let f ← if type = 1 then entryAddr list offset 4
      else if type = 28 then entryAddr list offset 16
      else if type = 2 then entryName cfg c list offset rnd.2
      else Res.ok .nobody
    .ok (f, current)

/-- The attempts of `make_remote_connection`, DwUdpSocket.c:213-224. -/
def findAddr (cfg : Cfg) (c : List Entry) (list : DwStr) : List (List Nat × Nat) → Option Nat → Res (Found × Option Nat)
  | [], current => .ok (.nobody, current)
  | r :: rs, current => do
    let (f, current) ← getAddr cfg c list current r
    if f = .nobody then findAddr cfg c list rs current else .ok (f, current)

/-- The list of servers of a request, which is looked up if there is none yet, `get_upstream_ip`, DwSocket.c:1044-1057. -/
def whom (s : State) (sl : Slot) (junk : List UInt8) : Res (Option (List UInt8 × Bool)) :=
  match sl.ns with
  | some l => .ok (some (l, sl.up))
  | none => (upstreamNs s.cache sl.query junk).bind fun o => .ok (o.map fun x => (x.1, sl.up || x.2))

/-- `make_remote_connection` (DwUdpSocket.c:188-259) with `dwx_do_ns_glueless` and
`dwx_do_glueless_new` (DwRecurse.c:2976-3125). -/
def connect (cfg : Cfg) (s : State) (b : Nat) (w : Wire) (junk : List UInt8) : Res State :=
  match s.slots b with
  | none => .ok s
  | some sl => do
    match ← whom s sl junk with
    | none => .ok s
    | some (l, up) => do
      let (f, current) ← findAddr cfg s.cache (Remote.dstr l) (w.tries.take 7) sl.current
      let sl : Slot := { sl with ns := some l, up := up, current := current }
      match f with
      | .nobody => .ok (s.set b (some sl))
      | .ip a => .ok (s.set b (some (if w.able then { sl with sock := some ⟨w.id, a, l⟩ } else sl)))
      | .name q =>
        if w.able ∧ w.free ≠ b ∧ s.slots w.free = none then
          .ok ((s.set b (some { sl with child := some w.free })).set w.free (some (.fresh q (.glue b l))))
        else .ok (s.set b (some sl))

/-! ### What is done with replies -/

/-- The key of the aliases of a name: `dw_put_u16(...,65394,-3)`, DwRecurse.c:3240-3244. -/
def aliasKey (query : List UInt8) : List UInt8 := query.take (query.length - 2) ++ be16 65394

/-- All that is put in the cache. -/
def putAll (c : List Entry) (ps : List Put) : List Entry := ps.foldl (fun c p => put c p.key p.value) c

/-- `dwx_handle_ns_refer`, DwRecurse.c:1762-1822 and 1737-1755, after the list `l` has been put in the cache: it is whom
to ask next.  If there was no place for it in the cache, the socket is left as it is. -/
def refer (cfg : Cfg) (s : State) (b : Nat) (sl : Slot) (l : List UInt8) (kept : Bool) (w : Wire) (junk : List UInt8) : Res State :=
  if kept then connect cfg (s.set b (some { sl with ns := some l, sock := none })) b w junk
  else .ok (s.set b (some { sl with ns := some l }))

/-- `dwx_handle_cname_refer`, DwRecurse.c:2274-2302, after the aliases have been put in the cache: `q` is where they lead. -/
def follow (cfg : Cfg) (s : State) (b : Nat) (sl : Slot) (action q : List UInt8) (most : Int) (w : Wire) (junk : List UInt8) : Res State :=
  match get s.cache q with
  | some v =>
    match Alias.makeReply cfg.times (Remote.dstr sl.query) (Remote.dstr action) (Remote.dstr v) most junk with
    | .ok p => .ok ({ s with cache := put s.cache p.key p.value }.set b none)
    | .err => .ok s
    | .ub => .ub
  | none =>
    if w.able ∧ w.free ≠ b ∧ s.slots w.free = none then
      .ok ((s.set b (some { sl with child := some w.free })).set w.free (some (.fresh q (.link b))))
    else .ok s

/-- `get_rem_udp_packet_core`, DwUdpSocket.c:1227-1360, with TCP off, up to where the client is answered, for a packet from a
server of the list `from_`: the state, the packet afterwards, and whether to go on with the next client. -/
def pass (cfg : Cfg) (s : State) (b : Nat) (sl : Slot) (from_ a : List UInt8) (count : Nat) (most : Int) (w : Wire) (junk : List UInt8) :
    Res (State × List UInt8 × Bool) := do
  match ← Remote.salvage a count cfg.hack with
  | none => .ok (s, a, false)
  | some (a, k) => do
    let f ← rd a 2
    if f &&& 2 ≠ 0 then .ok (s, a, false)
    else
      match sl.ns with
      | none => .ok (s, a, false)
      | some l =>
        match cacheDnsReply cfg.times cfg.filter cfg.blocked (Remote.dstr l) sl.up a k junk with
        | .ub => .ub
        | .err => .ok (s, a, false)
        | .ok .blocked => .ok (s.set b none, a, false)
        | .ok (.step st) => do
          let s : State := ⟨putAll s.cache st.puts, s.slots, (from_, a.take k) :: s.heard, l :: s.judged⟩
          match st.ns, st.follow, st.puts with
          | some l', _, ps => (refer cfg s b sl l' (!ps.isEmpty) w junk).bind fun s => .ok (s, a, true)
          | none, some q, [p] => (follow cfg s b sl p.value q most w junk).bind fun s => .ok (s, a, true)
          | _, _, _ => .ok (s, a, true)

/-- The loop over the clients, DwUdpSocket.c:1395-1402. -/
def passes (cfg : Cfg) (b : Nat) (from_ : List UInt8) (count : Nat) (junk : List UInt8) :
    Nat → State → List UInt8 → List (Wire × Int) → Res State
  | 0, s, _, _ => .ok s
  | n + 1, s, a, ws =>
    match s.slots b with
    | none => .ok s
    | some sl => do
      let (s, a, go) ← pass cfg s b sl from_ a count (ws.headD default).2 (ws.headD default).1 junk
      if go then passes cfg b from_ count junk n s a ws.tail else .ok s

/-- `get_remote_udp_packet`, DwUdpSocket.c:1363-1402: the first `count` bytes of `packet` came in on the socket of `b`. -/
def receive (cfg : Cfg) (s : State) (b : Nat) (packet : List UInt8) (count : Nat) (ws : List (Wire × Int)) (junk : List UInt8) : Res State :=
  match s.slots b with
  | none => .ok s
  | some sl =>
    match sl.sock with
    | none => .ok s
    | some k =>
      if count < 12 ∨ count > 512 then .ok s
      else do
        let f ← rd packet 2
        let a ← wr packet 2 (f ||| 0x80)
        let v ← Remote.verify ⟨k.id, sl.query⟩ a count
        if v ≠ true then .ok s else passes cfg b k.list count junk sl.locals s a ws

/-- What becomes of the request that `b` was for, once there is an answer for `b`, DwUdpSocket.c:1183-1197:
`dwx_glueless_done` (DwRecurse.c:3131-3195), `dwx_incomplete_cname_done` (3223-3265) and
`dwx_send_glueless_cname_upstream` (2117-2140), of which only the first looks whether `parent` still waits for `b`, and
`dwx_cached_cname_done` (3375-3400). -/
def finish (cfg : Cfg) (s : State) (b : Nat) (w : Wire) (junk : List UInt8) : Res State :=
  match s.slots b with
  | none => .ok s
  | some sl =>
    match get s.cache sl.query with
    | none => .ok s
    | some v =>
      match sl.role with
      | .client => .ok s
      | .glue parent list =>
        match s.slots parent with
        | none => .ok s
        | some p =>
          if p.child ≠ some b then .ok s
          else do
            match ← fromAnswer (Remote.dstr v) (w.tries.headD default).2 with
            | none => .ok s
            | some ip => .ok (s.set parent (some (if w.able then { p with sock := some ⟨w.id, ip, list⟩ } else p)))
      | .link parent =>
        match s.slots parent with
        | none => .ok s
        | some p =>
          match get s.cache (aliasKey p.query) with
          | none => .ok s
          | some action => join p.query action v
      | .seen oquery action => join oquery action v
where
  /-- `dwx_make_cname_reply` -/
  join (query action v : List UInt8) : Res State :=
    match Alias.makeReply cfg.times (Remote.dstr query) (Remote.dstr action) (Remote.dstr v) 0 junk with
    | .ok p => .ok { s with cache := put s.cache p.key p.value }
    | .err => .ok s
    | .ub => .ub

/-- The name that aliases lead to, DwRecurse.c:3289-3306. -/
def leadsTo (action : List UInt8) : Res (Option (List UInt8)) :=
  match (Remote.dstr action).fetchU16 (-2) with
  | .ub => .ub
  | .err => at_ 1
  | .ok n => at_ (n + 2)
where
  /-- `dw_get_dname` -/
  at_ (offset : Nat) : Res (Option (List UInt8)) :=
    match getDname (Remote.dstr action).buf offset 260 with
    | .ub => .ub
    | .err => .ok none
    | .ok (n, _) => (lowerBytes n).bind fun n => .ok (some n)

/-- What happens: a new question, one whose aliases are known (`dwx_cname_in_cache`, DwRecurse.c:3274-3372), or one more
client with the same question; the question of `b` is sent, for the first time or again (`handle_expired`,
DwSocket.c:1149-1180); a packet comes in; an answer is passed on; a request ends; an entry of the cache ends. -/
inductive Ev where
  | start (b : Nat) (query : List UInt8)
  | seen (b : Nat) (query : List UInt8)
  | merge (b : Nat)
  | send (b : Nat) (w : Wire)
  | receive (b : Nat) (packet : List UInt8) (count : Nat) (ws : List (Wire × Int))
  | finish (b : Nat) (w : Wire)
  | drop (b : Nat)
  | lapse (key : List UInt8)

/-- One event. -/
def step (cfg : Cfg) (junk : List UInt8) (s : State) : Ev → Res State
  | .start b query => if s.slots b = none then .ok (s.set b (some (.fresh query .client))) else .ok s
  | .seen b query =>
    if s.slots b = none ∧ 3 ≤ query.length then
      match get s.cache (aliasKey query) with
      | none => .ok s
      | some action => do
        match ← leadsTo action with
        | none => .ok s
        | some n => .ok (s.set b (some (.fresh (n ++ query.drop (query.length - 2)) (.seen query action))))
    else .ok s
  | .merge b =>
    match s.slots b with
    | none => .ok s
    | some sl => .ok (s.set b (some { sl with locals := sl.locals + 1 }))
  | .send b w =>
    match s.slots b with
    | none => .ok s
    | some sl => connect cfg (s.set b (some { sl with sock := none })) b w junk
  | .receive b packet count ws => receive cfg s b packet count ws junk
  | .finish b w => finish cfg s b w junk
  | .drop b => .ok (s.set b none)
  | .lapse key => .ok { s with cache := s.cache.filter fun e => e.key != key || e.fixed }

/-- Any sequence of events. -/
def run (cfg : Cfg) (junk : List UInt8) : State → List Ev → Res State
  | s, [] => .ok s
  | s, e :: es => (step cfg junk s e).bind fun s => run cfg junk s es

/-- At the beginning the cache has the configured servers and nothing else. -/
def State.init (conf : List (List (List UInt8) × List UInt8)) : State :=
  ⟨conf.map fun c => ⟨Spec.encName c.1 ++ be16 65395, c.2, true⟩, fun _ => none, [], []⟩

end Trust
end Dw
