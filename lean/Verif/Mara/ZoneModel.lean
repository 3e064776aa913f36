import Verif.Deadwood.StrModel
/-!
# Model: what is done with the records of a zone file, parse/Csv2_database.c

The records come from the parser of zone files one by one.  The server itself has methods 1 and 3, method 2
is the zone transfer server, which collects records in the buffer.  The zone is given by its name in the form of
the protocol (`csv2_zone_to_udpzone`, Csv2_database.c:300-324), which has at most 125 bytes if the method is 2.
Memory is taken to be available, and
the number of records not to overflow an `int`.
-/

namespace Mara
namespace Zf

open Dw (Res)

/-- A record: `csv2_rr`, Csv2_database.h; the name is as in the protocol, a star is a `_`. -/
structure Rr where
  query : List UInt8
  type : Nat
  ttl : Int
  data : List UInt8
deriving DecidableEq

/-- What does not change while a zone is read. -/
structure Env where
  zone : List UInt8
  /-- `add_method`: 3 for the default zone file, 2 for the zone transfer server, 1 for others -/
  method : Nat
  /-- `soa_serial` -/
  serial : Nat
  /-- `show_synth_soa_origin` -/
  origin : Option (List UInt8)
  /-- `get_synthip_list`, up to the entry 255.255.255.255 -/
  ips : List Nat

/-- `csv2_add_state`, with the records handed on so far (`out`). -/
structure St where
  rrnum : Nat
  inNs : Bool
  nses : Bool
  buffer : List Rr
  out : List Rr
deriving DecidableEq

/-- `csv2_init_add_state`, Csv2_database.c:105-147. -/
def St.init : St := ⟨0, true, false, [], []⟩

def u32 (n : Nat) : List UInt8 :=
  [UInt8.ofNat (n / 16777216), UInt8.ofNat (n / 65536), UInt8.ofNat (n / 256), UInt8.ofNat n]

/-- A letter of `csv2_add_rr_w`, Csv2_database.c:1286-1292. -/
def lowByte (c : UInt8) : UInt8 := if c ≥ 65 ∧ c ≤ 90 then c + 32 else c

/-- `csv2_add_rr_bighash`, Csv2_database.c:351-417.  The type must fit in 16 bits (`js_adduint16`), and the
string for the name of the zone has 128 bytes (:305, :406). -/
def handOn (env : Env) (st : St) (query : List UInt8) (type : Nat) (ttl : Int) (data : List UInt8) : Bool × St :=
  let ttl := if ttl < 60 then 60 else ttl
  let ttl := if ttl > 63072000 then 63072000 else ttl
  if type > 65535 then (false, st)
  else if env.zone.length > 125 then (false, st)
  else (true, { st with out := st.out ++ [⟨query, type, ttl, data⟩] })

/-- `csv2_push_buffer`, Csv2_database.c:874-926. -/
def push (st : St) (rr : Rr) : Bool × St :=
  if st.buffer.length ≥ 66 then (false, st) else (true, { st with buffer := st.buffer ++ [rr] })

/-- `csv2_add_rr_zoneserver`, Csv2_database.c:425-470: a star is written as in the protocol. -/
def toServer (st : St) (query : List UInt8) (type : Nat) (ttl : Int) (data : List UInt8) : Bool × St :=
  if type = 6 then (true, st)
  else match query with
    | c :: r => if c = 95 then push st ⟨1 :: 42 :: r, type, ttl, data⟩ else push st ⟨c :: r, type, ttl, data⟩
    | [] => push st ⟨[], type, ttl, data⟩

/-- What is done with a record, by method, Csv2_database.c:1328-1350. -/
def process (env : Env) (st : St) (query : List UInt8) (type : Nat) (ttl : Int) (data : List UInt8) : Bool × St :=
  if env.method = 2 then toServer st query type ttl data else handOn env st query type ttl data

/-- The digits of a number from the right, Csv2_database.c:1155-1160. -/
def digits : Nat → Nat → List UInt8
  | 0, _ => []
  | c + 1, b => digits c (b / 10) ++ [UInt8.ofNat (48 + b % 10)]

/-- One number of an address as a label, Csv2_database.c:1131-1163. -/
def octet (b : UInt8) : List UInt8 :=
  let c := 1 + (if b.toNat > 99 then 1 else 0) + (if b.toNat > 9 then 1 else 0)
  UInt8.ofNat c :: digits c b.toNat

/-- `csv2_make_ptr_query`, Csv2_database.c:1118-1186.  The result always fits in the 31 bytes. -/
def makePtr (ip : List UInt8) : Option (List UInt8) :=
  if ip.length ≠ 4 then none
  else some (ip.reverse.flatMap octet ++ [7, 105, 110, 45, 97, 100, 100, 114, 4, 97, 114, 112, 97, 0])

/-- A hexadecimal digit, Csv2_database.c:1217-1219. -/
def nibble (b : Nat) : UInt8 := if b > 9 then UInt8.ofNat (b + 87) else UInt8.ofNat (b + 48)

/-- `csv2_make_ptr6_query`, Csv2_database.c:1194-1256. -/
def makePtr6 (ip : List UInt8) : Option (List UInt8) :=
  if ip.length ≠ 16 then none
  else some (ip.reverse.flatMap (fun a => [1, nibble (a.toNat % 16), 1, nibble (a.toNat / 16)]) ++
    [3, 105, 112, 54, 4, 97, 114, 112, 97, 0])

/-- `csv2_add_rr_w`, Csv2_database.c:1261-1353.  A reverse name that cannot be made is a null pointer that is
looked at (`.ub`). -/
def addW (env : Env) (st : St) (rr : Rr) : Res (Bool × St) :=
  let cq := rr.query.map lowByte
  if rr.type = 65765 then
    if env.method = 3 then .ok (false, st)
    else match makePtr rr.data with
      | none => .ub
      | some pq =>
        let (_, st) := process env st (pq.map lowByte) 12 rr.ttl cq
        .ok (process env st cq 1 rr.ttl rr.data)
  else if rr.type = 65766 then
    if env.method = 3 then .ok (false, st)
    else match makePtr6 rr.data with
      | none => .ub
      | some pq =>
        let (_, st) := process env st (pq.map lowByte) 12 rr.ttl cq
        .ok (process env st cq 28 rr.ttl rr.data)
  else .ok (process env st cq rr.type rr.ttl rr.data)

/-- `csv2_synthesize_soa`, Csv2_database.c:500-602.  The data have at most 255 bytes; nothing can be put in
front of the name of the root (`hname_2rfc1035` refuses two dots). -/
def synthSoa (env : Env) (st : St) : Bool × St :=
  let first := env.origin.getD env.zone
  if first.length ≥ 256 ∨ env.zone = [0] then (false, st)
  else
    let data := first ++ [10, 104, 111, 115, 116, 109, 97, 115, 116, 101, 114] ++ env.zone ++
      u32 env.serial ++ u32 7200 ++ u32 3600 ++ u32 604800 ++ u32 3600
    if data.length ≥ 256 then (false, st)
    else push st ⟨env.zone, 6, 86400, data⟩

/-- The name of `csv2_synth_ip`, Csv2_database.c:609-657. -/
def synthName (env : Env) (ip : Nat) : Option (List UInt8) :=
  if env.zone = [0] then none
  else some ([17, 115, 121, 110, 116, 104, 45, 105, 112, 45] ++
    (u32 ip).flatMap (fun b => [nibble (b.toNat / 16), nibble (b.toNat % 16)]) ++ env.zone)

/-- `csv2_make_synth_ns`, Csv2_database.c:687-711. -/
def makeSynthNs (env : Env) (st : St) (ip : Nat) : Res St :=
  match synthName env ip with
  | none => .ok st
  | some n => do
    let (_, st) ← addW env st ⟨env.zone, 2, 86400, n⟩
    .ok st

/-- `csv2_synth_ip` with the record, Csv2_database.c:609-684. -/
def makeSynthIp (env : Env) (st : St) (ip : Nat) : Res St :=
  match synthName env ip with
  | none => .ok st
  | some n => do
    let (_, st) ← addW env st ⟨n, 1, 86400, u32 ip⟩
    .ok st

/-- `csv2_is_private_ip`, Csv2_database.c:716-721. -/
def isPrivate (ip : Nat) : Bool :=
  ip / 2 ^ 24 = 0x7f || ip / 2 ^ 24 = 0x0a || ip / 2 ^ 20 = 0xac1 || ip / 2 ^ 16 = 0xc0a8

/-- `csv2_is_localhost_ip`, Csv2_database.c:726-728. -/
def isLocalhost (ip : Nat) : Bool := ip / 2 ^ 24 = 0x7f

/-- The records of `csv2_synthesize_ns`. -/
def synthAll (env : Env) (ips : List Nat) (st : St) : Res St := do
  let st ← ips.foldlM (makeSynthNs env) st
  ips.foldlM (makeSynthIp env) st

/-- `csv2_synthesize_ns`, Csv2_database.c:732-838. -/
def synthNs (env : Env) (st : St) : Res St :=
  if env.ips.any (· = 0) then .ok st
  else if env.ips.any (!isPrivate ·) then synthAll env (env.ips.filter (!isPrivate ·)) st
  else if env.ips.any (!isLocalhost ·) then synthAll env (env.ips.filter (!isLocalhost ·)) st
  else synthAll env env.ips st

/-- `csv2_pop_buffer`, Csv2_database.c:963-990. -/
def pop (env : Env) (st : St) : Res (Bool × St) :=
  match st.buffer with
  | [] => .ok (false, st)
  | rr :: rest => do
    let (ok, st) ← if env.method ≠ 2 then addW env st rr else .ok (true, st)
    .ok (ok, if ok then { st with buffer := rest } else st)

/-- `csv2_add_soa`, Csv2_database.c:993-1002. -/
def addSoa (env : Env) (st : St) : Res (Bool × St) :=
  if st.inNs = false then .ok (false, st)
  else match st.buffer with
    | [] => .ok (false, st)
    | rr :: _ => if rr.type ≠ 6 then .ok (false, st) else pop env { st with inNs := false }

/-- The rest of `csv2_add_rr` once the SOA record has been seen to, Csv2_database.c:1050-1108. -/
def addRest (env : Env) (st : St) (rr : Rr) : Res (Bool × St) :=
  let top := rr.query = env.zone
  let st := if st.nses = false ∧ st.inNs = true ∧ rr.type = 2 ∧ top then { st with nses := true } else st
  if st.inNs = false ∧ rr.type = 2 ∧ top then .ok (false, st)
  else if st.inNs = false ∧ rr.type = 2 ∧ env.method = 3 then .ok (false, st)
  else if rr.type = 5 ∧ env.method = 3 then .ok (false, st)
  else if st.inNs = true ∧ (rr.type ≠ 2 ∨ ¬ top) then do
    let st ← if st.nses = false ∧ env.method ≠ 3 then synthNs env st else .ok st
    if st.nses = false ∧ env.method = 3 then .ok (false, st)
    else do
      let (_, st) ← if env.method ≠ 2 then addSoa env st else .ok (true, st)
      addW env { st with inNs := false } rr
  else addW env st rr

/-- `csv2_add_rr`, Csv2_database.c:1024-1110. -/
def addRr (env : Env) (st : St) (rr : Rr) : Res (Bool × St) :=
  let st := { st with rrnum := st.rrnum + 1 }
  if st.rrnum = 1 ∧ rr.type ≠ 6 ∧ env.method ≠ 3 then addRest env (synthSoa env st).2 rr
  else if st.rrnum = 1 ∧ rr.type ≠ 6 ∧ env.method = 3 then .ok (false, st)
  else if st.rrnum = 1 then .ok (push st ⟨rr.query, 6, rr.ttl, rr.data⟩)
  else if rr.type = 6 then .ok (false, st)
  else addRest env st rr

/-- The records of a file, one after the other; the results are not looked at (Csv2_parse.c:1683, :1850). -/
def addAll (env : Env) : List Rr → St → Res St
  | [], st => .ok st
  | rr :: l, st => do
    let (_, st) ← addRr env st rr
    addAll env l st

/-- `csv2_parse_zone`, Csv2_main.c:611-658, for the records which the parser finds. -/
def readZone (env : Env) (rrs : List Rr) : Res (List Rr) := do
  let st ← addAll env rrs St.init
  if st.inNs then do
    let (_, st) ← addSoa env st
    .ok st.out
  else .ok st.out

end Zf
end Mara
