import Verif.Co.TextModel
/-!
# coLunacyDNS: questions, the script, replies

Source: `/repo/coLunacyDNS/coLunacyDNS.c`.  The Lua interpreter with the operator's script is a parameter
(`Script`): what it does with a question and with what it is told is not restricted.  `inet_addr` is a parameter,
too.  Time is not modelled: a timeout may come at any time.  `select` is modelled as events in any order.  Logging and
the debugging entry `rawpacket` are not modelled.  What fresh memory holds, random numbers and whether a packet could be sent
come with every event.
-/

namespace Co
open Dw (Res)

/-! ## What goes between the server and the script -/

/-- Who sent a question: 4 bytes of IPv4 or 16 of IPv6 address, and the port. -/
structure Client where
  ip : List UInt8
  port : Nat
deriving DecidableEq

/-- The table `processQuery` is given, coLunacyDNS.c:1926-1951. -/
structure Query where
  name : List UInt8
  qtype : Nat
  fromIp : List UInt8
  v6 : Bool
deriving DecidableEq

/-- The table `processQuery` gives back, coLunacyDNS.c:1186-1248, 1280-1302: `none` if an entry is missing or has the wrong type.
(Numbers are Lua doubles; C makes integers of them, here they are integers.) -/
structure Ret where
  aa : Option Int
  ra : Option Int
  ttl : Option Int
  type : Option (List UInt8)
  data : Option (List UInt8)
deriving DecidableEq

/-- The table given to `coDNS.solve`, coLunacyDNS.c:1525-1568.  `upstream` is the entry of the table or the global
variable. -/
structure Ask where
  type : Option (List UInt8)
  upstream : Option (List UInt8)
  name : Option (List UInt8)
deriving DecidableEq

/-- What `coDNS.solve` gives back: an error, or `answer` and `status`. -/
inductive Told
  | error (why : String)
  | answer (text : List UInt8) (status : Nat)
deriving DecidableEq

/-- What a run of the script comes to: it returns (`none`: something that is no table), it calls `coDNS.solve` (`none`: with something
that is no table), it stops with an error. -/
inductive Step (Co : Type)
  | done (r : Option Ret)
  | solve (a : Option Ask) (co : Co)
  | broke

/-- The interpreter with the script: its global state, its suspended co-routines. -/
structure Script where
  St : Type
  Co : Type
  start : St → Query → St × Step Co
  resume : St → Co → Told → St × Step Co

/-- What leaves the server. -/
inductive Out
  | reply (to : Client) (bytes : List UInt8)
  | ask (upstream : UInt32) (bytes : List UInt8)
deriving DecidableEq

/-! ## Replies to clients -/

/-- Memory is read. -/
def peek (buf : List UInt8) (i : Nat) : Res UInt8 :=
  match buf[i]? with
  | some b => .ok b
  | none => .ub

/-- Bytes are written one after the other. -/
def pokes : List UInt8 → Nat → List UInt8 → Res (List UInt8)
  | buf, _, [] => .ok buf
  | buf, i, b :: bs => do
    let buf ← poke buf i b
    pokes buf (i + 1) bs

/-- The first bytes are sent. -/
def front (buf : List UInt8) (n : Nat) : Res (List UInt8) := if n ≤ buf.length then .ok (buf.take n) else .ub

/-- An integer in network order. -/
def bytes4 (v : UInt32) : List UInt8 := [(v >>> 24).toUInt8, (v >>> 16).toUInt8, (v >>> 8).toUInt8, v.toUInt8]

/-- `IPv4answer`, coLunacyDNS.c:525-526. -/
def v4Answer (ip : List UInt8) : List UInt8 := [192, 12, 0, 1, 0, 1, 0, 0, 0, 0, 0, 4] ++ ip

/-- `IPv6answer`, coLunacyDNS.c:529-531. -/
def v6Answer (ip : List UInt8) : List UInt8 := [192, 12, 0, 28, 0, 1, 0, 0, 0, 0, 0, 16] ++ ip

/-- `not_there`, coLunacyDNS.c:534-542: with the zero byte at the end of the string. -/
def notThere : List UInt8 :=
  [192, 12, 0, 6, 0, 1, 0, 0, 0, 0, 0, 28, 1, 122, 192, 12, 1, 121, 192, 12,
   0, 0, 0, 1, 0, 0, 0, 1, 0, 0, 0, 1, 0, 0, 0, 1, 0, 0, 0, 1, 0]

/-- `AnyAnswer`, coLunacyDNS.c:545-546: with the zero byte at the end of the string. -/
def anyAnswer : List UInt8 :=
  [192, 12, 0, 13, 0, 1, 0, 0, 0, 0, 0, 9, 7, 82, 70, 67, 56, 52, 56, 50, 0, 0]

/-- The time to live, coLunacyDNS.c:1223-1235. -/
def clampTtl : Option Int → Nat
  | none => 0
  | some t => if 7777777 < t then 7777777 else t.toNat

/-- The bits AA and RA, coLunacyDNS.c:1188-1219. -/
def setBits (r : Ret) (buf : List UInt8) : Res (List UInt8) := do
  let a ← peek buf 2
  let buf ← poke buf 2 ((a &&& 0xfb) ||| (if r.aa = some 1 then 4 else 0))
  let b ← peek buf 3
  poke buf 3 ((b &&& 0x7f) ||| (if r.ra = some 1 then 0x80 else 0))

/-- A record is put behind the question, with the time to live, and all is sent, coLunacyDNS.c:1266-1276, 1310-1323, 1334-1350. -/
def withRecord (buf : List UInt8) (qLen : Nat) (record : List UInt8) (ttl : Nat) : Res (List UInt8) := do
  let buf ← pokes buf (17 + qLen) record
  let buf ← poke buf (qLen + 26) (UInt8.ofNat ttl)
  let buf ← poke buf (qLen + 25) (UInt8.ofNat (ttl / 256))
  let buf ← poke buf (qLen + 24) (UInt8.ofNat (ttl / 65536))
  front buf (17 + qLen + record.length)

/-- A text of the program. -/
def txt (s : String) : List UInt8 := s.toUTF8.toList

/-- `endThread`, coLunacyDNS.c:1160-1362: what is sent to the client, if something is.  `inet` is `inet_addr` followed by
`ntohl`. -/
def endThread (inet : List UInt8 → UInt32) (buf : List UInt8) (qLen : Nat) (ret : Option Ret) : Res (Option (List UInt8)) :=
  match ret with
  | none => .ok none
  | some r => do
    let buf ← setBits r buf
    let ttl := clampTtl r.ttl
    if r.type = some (txt "serverFail") then
      let a ← peek buf 2
      let buf ← poke buf 2 (a ||| 0x80)
      let b ← peek buf 3
      let buf ← poke buf 3 ((b &&& 0xf0) ||| 2)
      let buf ← poke buf 7 0
      let out ← front buf (17 + qLen)
      .ok (some out)
    else if r.type = some (txt "notThere") then
      let out ← withRecord buf qLen notThere ttl
      .ok (some out)
    else if r.type = some (txt "A") then
      match r.data with
      | none => .ok none
      | some d =>
        let out ← withRecord buf qLen (v4Answer (bytes4 (inet d))) ttl
        if inet d = 0xffffffff then .ok none else .ok (some out)
    else if r.type = some (txt "ip6") then
      match r.data with
      | none => .ok none
      | some d =>
        match ip6Parse d with
        | none => .ok none
        | some ip =>
          let out ← withRecord buf qLen (v6Answer ip) ttl
          .ok (some out)
    else .ok none

/-! ## Questions to other servers -/

/-- A question that waits for another server, coLunacyDNS.c:109-125.  `open` is false if nothing could be sent (`NO_REPLY`). -/
structure Wait (Co : Type) where
  co : Co
  qLen : Nat
  buf : List UInt8
  client : Client
  name : List UInt8
  id : UInt16
  type : UInt8
  alive : Bool

/-- The server: the interpreter, the 512 places for waiting questions, the highest place used so far. -/
structure Server (L : Script) where
  lua : L.St
  slots : List (Option (Wait L.Co))
  top : Nat

/-- Chance: what fresh memory holds, random bits, the random identification, whether sending worked. -/
structure Luck where
  junk : List UInt8
  bits : Nat → Bool
  id : UInt16
  sent : Bool

/-- `sendDNSpacket`, coLunacyDNS.c:1371-1390: the packet. -/
def askPacket (id : UInt16) (name : List UInt8) (type : UInt8) : List UInt8 :=
  [UInt8.ofNat (id.toNat / 256), UInt8.ofNat id.toNat, 1, 0, 0, 1, 0, 0, 0, 0, 0, 0] ++ name ++ [0, type, 0, 1]

/-- The search for a place, coLunacyDNS.c:1587-1594: `none` if there is none. -/
def findSlot {α : Type} (slots : List (Option α)) : Nat → Nat → Res (Option Nat)
  | 0, _ => .ok none
  | n + 1, a =>
    match slots[a]? with
    | none => .ub
    | some none => .ok (some a)
    | some (some _) => findSlot slots n (a + 1)

/-- What `newDNS` comes to: 2 with the error, 0, 1. -/
inductive New (L : Script)
  | bad (why : String)
  | busy
  | started (s : Server L) (out : List Out)

/-- `newDNS`, coLunacyDNS.c:1518-1624. -/
def newDNS {L : Script} (inet : List UInt8 → UInt32) (s : Server L) (c : Client) (buf : List UInt8) (qLen : Nat)
    (ask : Option Ask) (co : L.Co) (luck : Luck) : Res (New L) :=
  match ask with
  | none => .ok (.bad "ERROR: coDNS.solve must be given a table")
  | some t =>
    match t.type with
    | none => .ok (.bad "ERROR: coDNS.solve table needs 'type' to be string")
    | some ty =>
      if ty ≠ txt "A" ∧ ty ≠ txt "ip6" then .ok (.bad "ERROR: coDNS.solve table needs 'type' to be 'A' or 'ip6'")
      else
        match t.upstream with
        | none => .ok (.bad "ERROR: 'upstreamIp4' not set")
        | some up =>
          match t.name with
          | none => .ok (.bad "ERROR: coDNS.solve table needs 'name' to be string")
          | some z => do
            match ← human2DNS luck.bits luck.junk z with
            | none => .ok (.bad "ERROR: coDNS.solve bad query")
            | some (name, _) =>
              match ← findSlot s.slots (s.top + 2) 0 with
              | none => .ok .busy
              | some a =>
                let type : UInt8 := if ty = txt "A" then 1 else 28
                .ok (.started
                  { s with top := max s.top a, slots := s.slots.set a (some ⟨co, qLen, buf, c, name, luck.id, type, luck.sent⟩) }
                  (if luck.sent then [.ask (inet up) (askPacket luck.id name type)] else []))

/-- The end of a question: coLunacyDNS.c:1979-1982, 1821-1827. -/
def finish {L : Script} (inet : List UInt8 → UInt32) (s : Server L) (c : Client) (buf : List UInt8) (qLen : Nat)
    (step : Step L.Co) : Res (Server L × List Out) :=
  match step with
  | .done r => do
    match ← endThread inet buf qLen r with
    | some bytes => .ok (s, [.reply c bytes])
    | none => .ok (s, [])
  | _ => .ok (s, [])

/-- What happens after the script ran, coLunacyDNS.c:1953-2010 and 1792-1849. -/
def drive {L : Script} (inet : List UInt8 → UInt32) (s : Server L) (c : Client) (buf : List UInt8) (qLen : Nat)
    (step : Step L.Co) (luck : Luck) : Res (Server L × List Out) :=
  match step with
  | .solve ask co => do
    match ← newDNS inet s c buf qLen ask co luck with
    | .started s out => .ok (s, out)
    | .busy =>
      let (lua, step) := L.resume s.lua co (.error "ERROR: Server too busy")
      finish inet { s with lua := lua } c buf qLen step
    | .bad why =>
      let (lua, step) := L.resume s.lua co (.error why)
      finish inet { s with lua := lua } c buf qLen step
  | step => finish inet s c buf qLen step

/-! ## Questions of clients -/

/-- A number in decimal (`%d`). -/
def dec (n : Nat) : List UInt8 := (Nat.toDigits 10 n).map fun c => UInt8.ofNat c.toNat

/-- An IPv4 address as text, coLunacyDNS.c:1734-1741 and 1860-1863. -/
def ip4Show (b : List UInt8) : List UInt8 :=
  dec (b.getD 0 0).toNat ++ [46] ++ dec (b.getD 1 0).toNat ++ [46] ++ dec (b.getD 2 0).toNat ++ [46] ++ dec (b.getD 3 0).toNat

/-- The header of the reply, coLunacyDNS.c:1876-1882. -/
def prepare (len : Nat) (buf : List UInt8) : Res (List UInt8) := do
  if len ≤ 12 then .ok buf
  else if (← peek buf 5) ≠ 1 then .ok buf
  else
    let a ← peek buf 2
    let buf ← poke buf 2 (a ||| 0x80)
    let b ← peek buf 7
    let buf ← poke buf 7 (b + 1)
    poke buf 11 0

/-- Memory of `n` bytes that starts with `bytes`; the rest is what was there before. -/
def fill (n : Nat) (bytes junk : List UInt8) : List UInt8 := (bytes.take n ++ junk ++ List.replicate n 0).take n

/-- A packet of a client, coLunacyDNS.c:2097-2133 and `processQueryC`, coLunacyDNS.c:1853-2015. -/
def question {L : Script} (inet : List UInt8 → UInt32) (s : Server L) (c : Client) (pkt junk : List UInt8) (luck : Luck) :
    Res (Server L × List Out) := do
  let pkt := pkt.take 255
  let buf := fill 500 pkt junk
  if pkt.length < 3 then .ok (s, [])
  else if (← peek buf 2) &&& 0x80 ≠ 0 then .ok (s, [])
  else
    let buf ← prepare pkt.length buf
    match ← human buf 12 490 with
    | none => .ok (s, [])
    | some (qLen, name) =>
      if qLen = 0 then .ok (s, [])
      else
        let hi ← peek buf (13 + qLen)
        let lo ← peek buf (14 + qLen)
        let qtype := hi.toNat * 256 + lo.toNat
        if qtype = 255 ∨ qtype = 13 then
          let buf ← pokes buf (17 + qLen) anyAnswer
          let out ← front buf (17 + qLen + 22)
          .ok (s, if c.ip.length = 4 then [.reply c out] else [])
        else
          let v6 := c.ip.length ≠ 4
          let (lua, step) := L.start s.lua ⟨name, qtype, if v6 then ip6Show c.ip else ip4Show c.ip, v6⟩
          drive inet { s with lua := lua } c buf qLen step luck

/-! ## Replies of other servers -/

/-- What was found in a reply. -/
inductive Found
  | nothing
  | v4 (ip : List UInt8)
  | v6 (ip : List UInt8)
deriving DecidableEq

/-- Several bytes are read. -/
def peeks (buf : List UInt8) (i n : Nat) : Res (List UInt8) := if i + n ≤ buf.length then .ok ((buf.drop i).take n) else .ub

/-- The search for an address in a reply, coLunacyDNS.c:1668-1723.  `first` is the question. -/
def scan (buf : List UInt8) (place : Nat) (first : Bool) : Res Found :=
  if place < 450 then do
    match ← human buf place (500 - place) with
    | none => .ok .nothing
    | some (len, _) =>
      let p := place + len
      let t1 ← peek buf (p + 1)
      let t2 ← peek buf (p + 2)
      if first then scan buf (p + 5) false
      else
        let qtype := t1.toNat * 256 + t2.toNat
        let r1 ← peek buf (p + 9)
        let r2 ← peek buf (p + 10)
        let rdlength := r1.toNat * 256 + r2.toNat
        if qtype = 1 ∧ rdlength = 4 then
          let ip ← peeks buf (p + 11) 4
          if ip = [0, 0, 0, 0] then scan buf (p + 11 + rdlength) false else .ok (.v4 ip)
        else if qtype = 28 ∧ rdlength = 16 then
          let ip ← peeks buf (p + 11) 16
          .ok (.v6 ip)
        else scan buf (p + 11 + rdlength) false
  else .ok .nothing
termination_by 450 - place

/-- The name in the reply is the one asked for, coLunacyDNS.c:1657-1664.  The bytes of the reply are `unsigned char`, those of the
name `char`, so on machines where that is signed a byte from 128 on is never the same. -/
def sameName (buf : List UInt8) (name : List UInt8) : Bool :=
  (List.range name.length).all fun a => buf[12 + a]? == some (name.getD a 0) && name.getD a 0 < 128

/-- What the script is told about a reply, coLunacyDNS.c:1626-1790.  `data` is `none` if `recv` fails. -/
def hear (name : List UInt8) (id : UInt16) (data : Option (List UInt8)) (junk : List UInt8) : Res Told :=
  match data with
  | none => .ok (.answer (txt "DNS connect error") 0)
  | some d =>
    let d := d.take 514
    let buf := fill 514 d junk
    if d.length ≤ 12 then .ok (.answer (txt "DNS answer not seen") 0)
    else if buf.take 2 ≠ [UInt8.ofNat (id.toNat / 256), UInt8.ofNat id.toNat] then .ok (.answer (txt "DNS answer not seen") 0)
    else if !sameName buf name then .ok (.answer (txt "DNS answer not seen") 0)
    else do
      match ← scan buf 12 true with
      | .nothing => .ok (.answer (txt "DNS answer not seen") 0)
      | .v6 ip => .ok (.answer (ip6Show ip) 28)
      | .v4 ip =>
        if ip.take 2 = [0, 0] then
          .ok (.answer (txt "DNS answer not seen") ((ip.getD 2 0).toNat * 256 + (ip.getD 3 0).toNat))
        else .ok (.answer (ip4Show ip) 1)

/-- `resumeThread`, coLunacyDNS.c:1626-1850, with what the script is told. -/
def resumeThread {L : Script} (inet : List UInt8 → UInt32) (s : Server L) (n : Nat) (w : Wait L.Co) (told : Told) (luck : Luck) :
    Res (Server L × List Out) :=
  let (lua, step) := L.resume s.lua w.co told
  drive inet { s with lua := lua, slots := s.slots.set n none } w.client w.buf w.qLen step luck

/-! ## The server -/

/-- What can happen. -/
inductive Event
  | packet (c : Client) (pkt junk : List UInt8) (luck : Luck)
  | heard (n : Nat) (data : Option (List UInt8)) (junk : List UInt8) (luck : Luck)
  | timeout (n : Nat) (luck : Luck)

/-- One round of the loop of `runServer`, coLunacyDNS.c:2018-2136. -/
def step {L : Script} (inet : List UInt8 → UInt32) (s : Server L) : Event → Res (Server L × List Out)
  | .packet c pkt junk luck => question inet s c pkt junk luck
  | .heard n data junk luck =>
    match s.slots[n]? with
    | some (some w) =>
      if w.alive then do
        let told ← hear w.name w.id data junk
        resumeThread inet s n w told luck
      else .ok (s, [])
    | _ => .ok (s, [])
  | .timeout n luck =>
    match s.slots[n]? with
    | some (some w) => resumeThread inet s n w (.answer (txt "DNS connect error") 0) luck
    | _ => .ok (s, [])

/-- The server after the start, coLunacyDNS.c:1090-1092. -/
def fresh (L : Script) (lua : L.St) : Server L := ⟨lua, List.replicate 512 none, 0⟩

/-- Any events one after the other: all that leaves the server. -/
def run {L : Script} (inet : List UInt8 → UInt32) : Server L → List Event → Res (Server L × List Out)
  | s, [] => .ok (s, [])
  | s, e :: es => do
    let (s, o) ← step inet s e
    let (s, os) ← run inet s es
    .ok (s, o ++ os)

end Co
