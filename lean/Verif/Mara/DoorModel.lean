import Verif.Mara.AclModel
import Verif.Mara.FetchModel
import Verif.Mara.ServeModel
/-!
# The zone server: what becomes of a connection

Source: `/repo/tcp/zoneserver.c`, with `AUTHONLY`.  What a client sends is a list of bytes; if there are fewer than the
server waits for, the client has closed the connection (or the process is ended by the alarm).  Memory is available.
Zones in the old format (`csv1`) are left out: `Config.zones` does not have them.
-/

namespace Mara
namespace Door

open Dw (Res)
open Csv2 (add16)

/-- What is to be done for the client. -/
inductive Task
  | close
  | forward (data : List UInt8)
  | transfer (zone : List UInt8) (soaQ : Bool) (hd : Reply.Hdr)

/-- `'A'` to `'Z'` become lower case, zoneserver.c:728-733. -/
def lowAscii (c : UInt8) : UInt8 := if 65 ≤ c ∧ c ≤ 90 then c + 32 else c

/-- The query from the connection, zoneserver.c:626-650. -/
def getQuery : List UInt8 → Option (List UInt8)
  | a :: b :: l =>
    let length := a.toNat * 256 + b.toNat
    if length > 380 then none
    else if l.length < length then none
    else some (l.take length)
  | _ => none

/-- The name of the zone as it is in the mararc file, zoneserver.c:719-738; `junk` is a byte that may be read behind the
name. -/
def zoneName (junk : UInt8) (name : List UInt8) : Option (List UInt8) :=
  if name.length ≥ 260 then none
  else (Fetch.hname junk 65 (name.map lowAscii)).map List.tail

/-- Forward, or close the connection (zoneserver.c:669-675, 692-696, 710-716). -/
def orForward (perms : Nat) (data : List UInt8) : Task := if perms &&& 2 = 2 then .forward data else .close

/-- `serve_zone`, zoneserver.c:598-752, up to the search for the zone.  The strings have room for 853 bytes, the string for
the data of a record for 4512. -/
def serveZone (junk : UInt8) (perms : Nat) (input : List UInt8) : Task :=
  match getQuery input with
  | none => .close
  | some q =>
    match Decomp.decompress q 853 4512 with
    | .ok data =>
      match Reply.readHdr data with
      | none => .close
      | some hd =>
        if hd.qr then .close
        else if perms &&& 1 ≠ 1 then orForward perms data
        else
          match Lookup.dlabel data 12 256 0 with
          | none => .close
          | some len =>
            if data.length < 14 + len then .close
            else if data.getD (12 + len) 0 ≠ 0 then orForward perms data
            else
              let t := data.getD (13 + len) 0
              if t = 6 ∨ t = 251 ∨ t = 252 then
                match zoneName junk ((data.drop 12).take len) with
                | none => .close
                | some z => .transfer z (t = 6) hd
              else orForward perms data
    | _ => .close

/-- The question for the other server, zoneserver.c:441-488; `sid` is a number of 16 bits.  If the length of the name
cannot be found, it is -1 (`JS_ERROR`). -/
def udpQuery (sid perms : Nat) (data : List UInt8) : Option (List UInt8) :=
  let h := Reply.makeHdr { id := sid, qr := false, opcode := 0, aa := false, tc := false, rd := perms &&& 4 = 4, ra := false, z := 0, rcode := 0,
                           qd := 1, an := 0, ns := 0, ar := 0 }
  let len : Nat := match Lookup.dlabel data 12 256 0 with | some n => n + 2 | none => 1
  if data.length ≤ 12 then none
  else if data.length < 12 + len then none
  else (Csv2.jsAppend 12345 h ((data.drop 12).take len)).bind fun o => add16 12345 o 1

/-- What the client gets, zoneserver.c:541-584: `data` is its question, `reply` what was received by UDP (at most 4100
bytes). -/
def relay (sid : Nat) (data reply : List UInt8) : Option (List UInt8) :=
  match Decomp.decompress (reply.take 4100) 12345 4512 with
  | .ok (a :: b :: out) =>
    if a.toNat * 256 + b.toNat ≠ sid then none
    else some (Serve.framed (data.getD 0 0 :: data.getD 1 0 :: out))
  | _ => none

/-- What the server has, as far as it matters here: the lists of clients, the zones (the text of the file, and what is
needed to make up records), whether there is another server for questions. -/
structure Config where
  transferAcl : List Acl.Pair
  convertAcl : List Acl.Pair
  recursiveAcl : List Acl.Pair
  zones : List UInt8 → Option (Zf.Env × List UInt8)
  files : List UInt8 → Option (List UInt8)
  mode : Nat
  /-- `udp_forward_server`, zoneserver.c:80 -/
  server : UInt32

/-- What happens: the question sent to the other server, and what is sent to the client. -/
structure Done where
  asked : Option (List UInt8)
  sent : List (List UInt8)
deriving DecidableEq

/-- A connection: the address of the client, what it sends, a random number, and what the other server does (nothing, or
a reply). -/
def session (cfg : Config) (ip : UInt32) (input : List UInt8) (junk : UInt8) (sid : Nat) (other : List UInt8 → Option (List UInt8)) :
    Res (Option Done) :=
  match Acl.gettcp ip cfg.transferAcl cfg.convertAcl cfg.recursiveAcl with
  | none => .ok (some ⟨none, []⟩)
  | some perms =>
    match serveZone junk perms input with
    | .close => .ok (some ⟨none, []⟩)
    | .forward data =>
      if cfg.server = 0xffffffff ∨ cfg.server = 0 then .ok (some ⟨none, []⟩)
      else
        match udpQuery sid perms data with
        | none => .ok (some ⟨none, []⟩)
        | some q => .ok (some ⟨some q, ((other q).bind (relay sid data)).toList⟩)
    | .transfer zone soaQ hd =>
      match cfg.zones zone with
      | none => .ok (some ⟨none, []⟩)
      | some (env, text) =>
        match Serve.serve cfg.files cfg.mode env zone hd soaQ text with
        | .ok none => .ok none
        | .ok (some (ms, _)) => .ok (some ⟨none, ms⟩)
        | .err => .err
        | .ub => .ub

/-! ## Random numbers

`srng`, zoneserver.c:128-252.  The static variables are `Rng`; `prng_seed` is on the stack (line 132), and what it has at
the start of a call is `stack`.  The cipher (`rijndael-api-fst.c`) is a parameter: key and block give a block.  The time
is given as the block it makes. -/

structure Rng where
  /-- `srng_place`, zoneserver.c:70. -/
  place : Nat
  inBlock : List UInt8
  outBlock : List UInt8

/-- The process number is put into the last four bytes of the seed, zoneserver.c:210-219. -/
def mixPid (pid : UInt32) (seed : List UInt8) : List UInt8 :=
  seed.take 12 ++ [seed.getD 12 0 ^^^ (pid >>> 24).toUInt8, seed.getD 13 0 ^^^ (pid >>> 16).toUInt8,
    seed.getD 14 0 ^^^ (pid >>> 8).toUInt8, seed.getD 15 0 ^^^ pid.toUInt8]

/-- Two bytes of the block. -/
def outAt (b : List UInt8) (i : Nat) : Nat := (b.getD i 0).toNat * 256 + (b.getD (i + 1) 0).toNat

/-- One call, zoneserver.c:142-248: the file is read into the array of the first call (line 188); `none` if the program ends. -/
def srng (cipher : List UInt8 → List UInt8 → List UInt8) (time file : List UInt8) (pid : UInt32) (stack : List UInt8) (r : Rng) : Option (Rng × Nat) :=
  if r.place = 0 then
    let _seed := file.take 16 ++ stack.drop (file.take 16).length
    some ({ r with place := 1, inBlock := time }, 0)
  else if r.place = 1 then
    let seed := mixPid pid stack
    let out := cipher (seed.take 16) r.inBlock
    some ({ r with place := 2, outBlock := out }, outAt out 0)
  else if r.place < 14 then some ({ r with place := r.place + 2 }, outAt r.outBlock r.place)
  else none

/-- Calls one after another; each has its own stack. -/
def srngs (cipher : List UInt8 → List UInt8 → List UInt8) (time file : List UInt8) (pid : UInt32) : List (List UInt8) → Rng → Option (List Nat)
  | [], _ => some []
  | stack :: more, r =>
    match srng cipher time file pid stack r with
    | none => none
    | some (r, n) => (srngs cipher time file pid more r).map (n :: ·)

end Door
end Mara
