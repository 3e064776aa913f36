/-!
# Sub-queries: the depth count and who gets their results

Source: `/repo/deadwood-github/src/DwRecurse.c` (`dwx_do_glueless_new`, `dwx_glueless_done`,
`dwx_do_cname_glueless`, `dwx_incomplete_cname_done`, `dwx_make_cname_reply`,
`dwx_send_glueless_cname_upstream`), `DwUdpSocket.c` (`make_remote_connection`,
`send_reply_from_cache`, `forward_local_udp_packet`) and `DwSocket.c` (`reset_rem`,
`find_free_remote`).

Only what these functions do to the places for pending requests is modelled.  What servers
answer and whether a socket can be had are inputs.  The questions themselves and the packets
are left out; copying strings is taken to succeed.
-/

namespace Dw
namespace Depth

/-- What the world answers when a request tries to reach a server: nothing works, the server
is sent the question, or the server's address has to be found first (and what happens to that
sub-query). -/
inductive Net where
  | fail
  | ok
  | refer (net : Net)
deriving DecidableEq, Repr

/-- A place for a pending request (`remote_T` and its `local[0]`, DwSocket.h:140-175).
The last five fields are not in the code.  They number the requests in the order of their
start (`serial`), and record which request a sub-query was started for (`wanted`), how many
requests lie between this one and a client's (`gen`), how many sub-queries were started for
it (`kids`) and how often it was about to contact a server (`tries`). -/
structure Rem where
  /-- `local` is allocated (then `query` is there too) -/
  used : Bool
  /-- `socket` is valid -/
  sock : Bool
  /-- `recurse_depth` -/
  depth : Nat
  /-- `num_locals > 0` -/
  linked : Bool
  /-- `local[0]->glueless_type` -/
  kind : Nat
  /-- `local[0]->glueless_conn`; `none` is -1 -/
  parent : Option Nat
  /-- `child_id`; `none` is -1 -/
  child : Option Nat
  serial : Nat
  wanted : Nat
  gen : Nat
  kids : Nat
  tries : Nat
deriving DecidableEq, Repr

/-- After `reset_rem`, DwSocket.c:114-152. -/
def Rem.empty : Rem := ⟨false, false, 0, false, 0, none, none, 0, 0, 0, 0, 0⟩

/-- All places, the number of the next request, and a record of results handed over:
`true` for the direct hand-over of a sub-query, `false` for one further up a chain of CNAMEs;
the serial number of the request the sub-query was started for; that of the request that got
the result. -/
structure S where
  size : Nat
  t : Nat → Rem
  next : Nat
  log : List (Bool × Nat × Nat)

/-- Change one place. -/
def upd (t : Nat → Rem) (n : Nat) (r : Rem) : Nat → Rem := fun m => if m = n then r else t m

/-- `recurse_depth++`.  The field is 8 bits wide; `work_bounded` shows that is enough. -/
def bump (t : Nat → Rem) (n : Nat) : Nat → Rem := upd t n { t n with depth := (t n).depth + 1 }

/-- The loop that makes the ancestors aware of a new query, DwRecurse.c:3001-3029.  `fuel` is
120 minus its counter, `new` the request the query is for, `here` the variable
`this_recurse_depth`.  `false`: the function returns from inside the loop. -/
def bubble (new : Nat) : (fuel : Nat) → (conn here : Nat) → (Nat → Rem) → (Nat → Rem) × Bool
  | 0, _, _, t => (t, true)
  | fuel + 1, conn, here, t =>
    if (t conn).linked && (t conn).used then
      match (t conn).parent with
      | none => (t, true)
      | some p =>
        if (t p).depth > 83 then (t, false)
        else
          let t := bump t p
          if (t p).depth < here then
            bubble new fuel p here (upd t p { t p with depth := here })
          else
            bubble new fuel p (t p).depth (upd t new { t new with depth := (t p).depth })
    else (t, true)

/-- `find_free_remote`, DwSocket.c:991-1000. -/
def findFree (s : S) : Option Nat :=
  (List.range s.size).find? fun n => !(s.t n).used && !(s.t n).sock

/-- `dwx_do_glueless_new`, DwRecurse.c:2977-3088, for request `n` and a sub-query of kind `kind`;
`conn` is the call of `make_remote_connection` for the sub-query. -/
def gluelessNew (kind : Nat) (conn : Nat → S → S) (n : Nat) (s : S) : S :=
  if (s.t n).depth ≥ 83 then s
  else
    let t := bump s.t n
    match bubble n 120 n (t n).depth t with
    | (t, false) => { s with t := t }
    | (t, true) =>
      let s := { s with t := t }
      match findFree s with
      | none => s
      | some c =>
        let r := s.t n
        let t := upd s.t n { r with kids := r.kids + 1 }
        let t := upd t c { Rem.empty with
          used := true, depth := r.depth + 1, serial := s.next, wanted := r.serial, gen := r.gen + 1 }
        let s := conn c { s with t := t, next := s.next + 1 }
        let t := upd s.t n { s.t n with child := some c }
        let t :=
          if (t c).sock then upd t c { t c with linked := true, kind := kind, parent := some n }
          else upd t c Rem.empty
        { s with t := t }

/-- `make_remote_connection`, DwUdpSocket.c:188-259, for request `n`. -/
def makeConn : Net → Nat → S → S
  | net, n, s =>
    if (s.t n).depth > 83 then s
    else
      let t := bump s.t n
      let t := upd t n { t n with tries := (t n).tries + 1 }
      let s := { s with t := t }
      match net with
      | .fail => s
      | .ok => { s with t := upd t n { t n with sock := true } }
      | .refer net => gluelessNew 1 (makeConn net) n s

/-- `reset_rem`, DwSocket.c:114-152. -/
def free (n : Nat) (s : S) : S := { s with t := upd s.t n Rem.empty }

/-- `dwx_glueless_done`, DwRecurse.c:3131-3195.  `sent`: an address was found and the question
could be sent there.  A free place has no question to send. -/
def gluelessDone (sent : Bool) (n : Nat) (s : S) : S :=
  if (s.t n).depth > 83 then s
  else
    let t := bump s.t n
    if sent && (t n).used then
      { s with t := upd t n { t n with sock := true, tries := (t n).tries + 1 } }
    else { s with t := t }

/-- `dwx_make_cname_reply` (DwRecurse.c:2142-2230) together with
`dwx_send_glueless_cname_upstream` (2117-2140) for request `n`.  One input for each level:
could a reply be made from what is in the cache. -/
def cnameReply : List Bool → Nat → S → S
  | [], _, s => s
  | ok :: oks, n, s =>
    if ok && (s.t n).linked && (s.t n).used then
      let s :=
        match (s.t n).kind, (s.t n).parent with
        | 2, some q =>
          if (s.t q).used then
            cnameReply oks q { s with log := (false, (s.t n).wanted, (s.t q).serial) :: s.log }
          else s
        | _, _ => s
      free n s
    else s

/-- `send_reply_from_cache` (DwUdpSocket.c:1172-1223) and `dwx_incomplete_cname_done`
(DwRecurse.c:3223-3263) for a request whose answer is in the cache; then the request is over. -/
def answered (n : Nat) (oks : List Bool) (s : S) : S :=
  let s :=
    match (s.t n).linked, (s.t n).parent with
    | true, some p =>
      if (s.t p).child = some n then
        let log := (true, (s.t n).wanted, (s.t p).serial) :: s.log
        if (s.t n).kind = 1 then gluelessDone (oks.headD false) p { s with log := log }
        else if (s.t n).kind = 2 then cnameReply (oks.take 33) p { s with log := log }
        else s
      else s
    | _, _ => s
  free n s

/-- What happens to the requests. -/
inductive Ev where
  /-- a client's question gets a place of its own (`forward_local_udp_packet`,
  DwUdpSocket.c:379-444) -/
  | arrive (net : Net)
  /-- as before, for a question whose CNAME is known (`dwx_cname_in_cache`,
  DwRecurse.c:3275-3373) -/
  | arriveCname (net : Net)
  /-- a request goes on to another server: after a time-out or a referral -/
  | again (n : Nat) (net : Net)
  /-- a reply was a CNAME whose target has to be looked up (`dwx_do_cname_glueless`,
  DwRecurse.c:3198-3219) -/
  | cname (n : Nat) (net : Net)
  /-- a reply was a CNAME whose target is in the cache (DwRecurse.c:2290-2299) -/
  | cnameCached (n : Nat) (oks : List Bool)
  /-- the answer came -/
  | answered (n : Nat) (oks : List Bool)
  /-- the request is given up -/
  | expire (n : Nat)
deriving DecidableEq, Repr

/-- A new request of a client in the free place `b`. -/
def newRequest (b : Nat) (linked : Bool) (s : S) : S :=
  { s with
    t := upd s.t b { Rem.empty with used := true, linked := linked, serial := s.next, wanted := s.next }
    next := s.next + 1 }

/-- One event.  Only requests that are there go on. -/
def step (s : S) : Ev → S
  | .arrive net =>
    match findFree s with
    | none => s
    | some b =>
      let s := makeConn net b (newRequest b false s)
      match net with
      | .fail => free b s
      | .ok => { s with t := upd s.t b { s.t b with linked := true } }
      | .refer _ => s
  | .arriveCname net =>
    match findFree s with
    | none => s
    | some b => makeConn net b (newRequest b true s)
  | .again n net => if (s.t n).used then makeConn net n s else s
  | .cname n net => if (s.t n).used then gluelessNew 2 (makeConn net) n s else s
  | .cnameCached n oks => if (s.t n).used then cnameReply (oks.take 33) n s else s
  | .answered n oks => if (s.t n).used then answered n oks s else s
  | .expire n => free n s

def run (s : S) (es : List Ev) : S := es.foldl step s

/-- At the start all places are free. -/
def start (size : Nat) : S := ⟨size, fun _ => Rem.empty, 0, []⟩

end Depth
end Dw
