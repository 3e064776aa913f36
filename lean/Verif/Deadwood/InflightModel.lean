/-!
# The table of pending requests and the in-flight index

Source: `/repo/deadwood-github/src/DwSocket.c`, `DwUdpSocket.c` and `DwRecurse.c`.

What a socket call does and what a name server list says come in as a `Net`.  The in-flight
index is the hash `inflight`, taken here as a map whose entries may lapse at any time
(they last 120 seconds and the hash may evict them); the hash itself is C15-C18.
The depth counters are C32.  Times are in 1/256 seconds.
-/

namespace Dw
namespace Infl

/-- A pending request (`remote_T`, DwSocket.h:140-175): is there a socket, is the array of
clients allocated, the question, the questions of the clients (one for each `local`; requests
of Deadwood itself have none), `die` and `retries`. -/
structure Slot where
  sock : Bool
  loc : Bool
  query : Option (List UInt8)
  clients : List (List UInt8)
  die : Nat
  retries : Nat
deriving DecidableEq, Repr

/-- The table and the index. -/
structure Table where
  slots : List Slot
  index : List (List UInt8 × Nat)
deriving DecidableEq, Repr

/-- Configuration: `num_retries`, `max_inflights`, `timeout_seconds << 8`. -/
structure Cfg where
  retries : Nat
  maxInfl : Nat
  limit : Nat
deriving DecidableEq, Repr

/-- What comes of trying to reach a server for a question: no server could be reached, the
question was sent, the name server's address has to be found first but the request is too
deep already, or a new request for that name is started. -/
inductive Net where
  | fail
  | ok
  | stop
  | refer (name : List UInt8) (net : Net)
deriving DecidableEq, Repr

/-- An empty place. -/
def Slot.empty (cfg : Cfg) : Slot := ⟨false, false, none, [], 0, cfg.retries⟩

/-- The test of `find_free_remote`, DwSocket.c:994-995. -/
def Slot.free (s : Slot) : Bool := !s.sock && !s.loc

/-- `find_free_remote`, DwSocket.c:991-1000. -/
def findFree (t : Table) : Option Nat := t.slots.findIdx? Slot.free

/-- `dwh_get(inflight, ...)`. -/
def look (t : Table) (q : List UInt8) : Option Nat := (t.index.find? (·.1 == q)).map (·.2)

/-- `dwh_zap(inflight, ...)`, and an entry that lapses. -/
def unlist (t : Table) (q : List UInt8) : Table := { t with index := t.index.filter (·.1 != q) }

/-- Change one place. -/
def setSlot (t : Table) (b : Nat) (s : Slot) : Table := { t with slots := t.slots.set b s }

/-- `reset_rem`, DwSocket.c:114-152, with `zap_inflight`, DwUdpSocket.c:332-336. -/
def reset (cfg : Cfg) (t : Table) (b : Nat) : Table :=
  match t.slots[b]? with
  | none => t
  | some s =>
    let t := match s.query with
      | none => t
      | some q => if 1 < cfg.maxInfl then unlist t q else t
    setSlot t b (Slot.empty cfg)

/-- `find_inflight_query`, DwUdpSocket.c:291-330. -/
def findInflight (cfg : Cfg) (t : Table) (q : List UInt8) : Option Nat × Table :=
  if cfg.maxInfl < 2 then (none, t)
  else
    match look t q with
    | none => (none, t)
    | some b =>
      match t.slots[b]? with
      | none => (none, t)
      | some s =>
        if !s.sock then (none, t)
        else if s.query = some q then (some b, t)
        else (none, unlist t q)

/-- `make_remote_connection` (DwUdpSocket.c:188-259) for place `b`, with
`dwx_do_ns_glueless` and `dwx_do_glueless_new` (DwRecurse.c:2977-3130): a request for the
address of a name server takes another place; that place is given back at once if no question
could be sent. -/
def connect (cfg : Cfg) (now : Nat) : Net → Nat → Table → Table
  | .fail, _, t => t
  | .stop, _, t => t
  | .ok, b, t =>
    match t.slots[b]? with
    | none => t
    | some s => setSlot t b { s with sock := true }
  | .refer name net, b, t =>
    match findFree t with
    | none => t
    | some c =>
      let t := reset cfg t c
      let t := setSlot t c { Slot.empty cfg with query := some name, loc := true }
      let t := connect cfg now net c t
      let t := match t.slots[b]? with
        | none => t
        | some s => setSlot t b { s with die := now + 16 * cfg.limit }
      match t.slots[c]? with
      | none => t
      | some s =>
        if s.sock then setSlot t c { s with die := now + cfg.limit }
        else reset cfg t c

/-- A client joins place `b` (DwUdpSocket.c:416-443). -/
def join (cfg : Cfg) (now : Nat) (t : Table) (b : Nat) (q : List UInt8) : Table :=
  match t.slots[b]? with
  | none => t
  | some s => setSlot t b { s with clients := s.clients ++ [q], die := now + cfg.limit }

/-- `num_alloc`, DwUdpSocket.c:386-392. -/
def numAlloc (cfg : Cfg) : Nat :=
  (if cfg.maxInfl < 1 then 1 else if 32000 < cfg.maxInfl then 32000 else cfg.maxInfl) + 1

/-- Note the question in the index unless it is there (DwUdpSocket.c:361-371).  The number
of the place is kept in 16 bits. -/
def enlist (cfg : Cfg) (t : Table) (b : Nat) (q : List UInt8) : Table :=
  if 1 < cfg.maxInfl ∧ look t q = none then { t with index := (q, b % 65536) :: t.index } else t

/-- `forward_local_udp_packet`, DwUdpSocket.c:379-444, with `make_new_udp_connect`
(339-374): a client asks `q`.  The first result tells where the client is waiting. -/
def arrive (cfg : Cfg) (now : Nat) (q : List UInt8) (net : Net) (t : Table) : Option Nat × Table :=
  match findInflight cfg t q with
  | (some b, t) =>
    match t.slots[b]? with
    | none => (none, t)
    | some s =>
      if numAlloc cfg - 2 ≤ s.clients.length then (none, t)
      else (some b, join cfg now t b q)
  | (none, t) =>
    match findFree t with
    | none => (none, t)
    | some b =>
      let t := reset cfg t b
      let t := setSlot t b { Slot.empty cfg with query := some q, loc := true }
      let t := connect cfg now net b t
      match net with
      | .ok => (some b, join cfg now (enlist cfg t b q) b q)
      | .fail => (none, reset cfg t b)
      | _ => (none, t)

/-- `handle_expired` and `kill_expired` for one place, DwSocket.c:1150-1216.  Answers to
clients are C43. -/
def expire (cfg : Cfg) (now : Nat) (net : Net) (b : Nat) (t : Table) : Table :=
  match t.slots[b]? with
  | none => t
  | some s =>
    if 0 < s.die ∧ s.die < now then
      if 0 < s.retries then
        let t := setSlot t b { s with retries := s.retries - 1, sock := false }
        let t := connect cfg now net b t
        match t.slots[b]? with
        | none => t
        | some s => setSlot t b { s with die := now + cfg.limit }
      else reset cfg t b
    else t

/-- Things that happen. -/
inductive Ev where
  /-- A client asks. -/
  | arrive (now : Nat) (q : List UInt8) (net : Net)
  /-- A request gets its answer and is given up (DwUdpSocket.c:1398-1407). -/
  | done (b : Nat)
  /-- A request goes on with another server after a referral, or once the address of the
  server is known (`dwx_handle_ns_refer`, `dwx_glueless_done`). -/
  | next (now : Nat) (b : Nat) (net : Net)
  /-- A turn of the main loop looks at the time for one place. -/
  | expire (now : Nat) (b : Nat) (net : Net)
  /-- An entry of the index lapses. -/
  | lapse (q : List UInt8)
deriving DecidableEq, Repr

/-- One event. -/
def step (cfg : Cfg) (t : Table) : Ev → Table
  | .arrive now q net => (arrive cfg now q net t).2
  | .done b =>
    match t.slots[b]? with
    | none => t
    | some s => if s.sock then reset cfg t b else t
  | .next now b net =>
    match t.slots[b]? with
    | none => t
    | some s => if 0 < s.die then connect cfg now net b t else t
  | .expire now b net => expire cfg now net b t
  | .lapse q => unlist t q

/-- Many events. -/
def run (cfg : Cfg) (t : Table) (es : List Ev) : Table := es.foldl (step cfg) t

/-- The table at the start (`init_b_remote`, DwSocket.c:155-170). -/
def start (cfg : Cfg) (n : Nat) : Table := ⟨List.replicate n (Slot.empty cfg), []⟩

end Infl
end Dw
