import Verif.Mara.Csv2Model
import Verif.Mara.ReplyModel
/-!
# The zone transfer server

Source: `/repo/parse/Csv2_main.c`, `csv2_parse_zone_zoneserver` and what it calls.  The zone file is given by its text.  The
result is what is written to the connection, one list of bytes for the two writes of a message, and whether the function
says that it was successful.  Writing never fails; if the client asks for the SOA record, its second query arrives
(Csv2_main.c:484-508, which does not look at it).  `none` is something that is left out: what the model of the parser
leaves out, and mistakes in the file before the first loop is over, after which the second loop reads on if the mistake
was not one that closes the file.
-/

namespace Mara
namespace Serve

open Dw (Res)
open Csv2 (jsAppend add16 add32 Ps Stream Entry)
open Zf (Env St)

/-- `csv2_append_rr`, Csv2_main.c:138-161; the string has room for 2048 bytes.  Whether there is room for the TTL is not
looked at. -/
def appendRr (o : List UInt8) (r : Zf.Rr) : Option (List UInt8) := do
  let o ← jsAppend 2048 o r.query
  let o ← add16 2048 o r.type
  let o ← add16 2048 o 1
  let o := (add32 2048 o (r.ttl % 4294967296).toNat).getD o
  let o ← add16 2048 o r.data.length
  jsAppend 2048 o r.data

/-- The header of a message, Csv2_main.c:179-209. -/
def head (hd : Reply.Hdr) (ns : Nat) : List UInt8 :=
  Reply.makeHdr { hd with qr := true, aa := true, tc := false, ra := false, z := 0, rcode := 0, qd := 1, an := 1, ns := ns, ar := 0 }

/-- The length and the message, Csv2_main.c:334-350. -/
def framed (o : List UInt8) : List UInt8 := UInt8.ofNat (o.length / 256) :: UInt8.ofNat o.length :: o

/-- Records one after the other. -/
def appendRrs : List Zf.Rr → List UInt8 → Option (List UInt8)
  | [], o => some o
  | r :: l, o => (appendRr o r).bind (appendRrs l)

/-- `csv2_tcp_spit_data` for the SOA record and the name servers that come right after it in the buffer (type 1),
Csv2_main.c:172-361. -/
def spitSoa (hd : Reply.Hdr) (zone : List UInt8) (buffer : List Zf.Rr) : Option (List UInt8) :=
  match buffer with
  | [] => none
  | r :: l => do
    let ns := l.takeWhile fun x => x.type = 2
    let o ← jsAppend 2048 (head hd ns.length) zone
    let o ← add16 2048 o 6
    let o ← add16 2048 o 1
    let o ← appendRr o r
    let o ← appendRrs ns o
    some (framed o)

/-- `csv2_tcp_spit_data` for one record of the zone (types `RR_AXFR` and 4), Csv2_main.c:172-361. -/
def spit (hd : Reply.Hdr) (soa r : Zf.Rr) : Option (List UInt8) := do
  let o ← jsAppend 2048 (head hd 0) soa.query
  let o ← add16 2048 o 252
  let o ← add16 2048 o 1
  let o ← appendRr o r
  some (framed o)

/-- `csv2_tcp_spit_buffer`, Csv2_main.c:371-385: the messages, and whether all records could be sent. -/
def spitAll (hd : Reply.Hdr) (soa : Zf.Rr) : List Zf.Rr → List (List UInt8) × Bool
  | [] => ([], true)
  | r :: l =>
    match spit hd soa r with
    | none => ([], false)
    | some m => (m :: (spitAll hd soa l).1, (spitAll hd soa l).2)

/-- What one call of `csv2_read_rr` finds: a record, the end of the file, a mistake, or something left out. -/
inductive Got
  | rr (e : Entry) | stop | bad | other

/-- `csv2_read_rr`, Csv2_parse.c:1366-1855, with the slash commands before the record; `fuel` is for these. -/
def next (files : List UInt8 → Option (List UInt8)) : (fuel : Nat) → Ps → Stream → Res (Got × Ps × Stream)
  | 0, p, s => .ok (.other, p, s)
  | fuel + 1, p, s =>
    match Csv2.readRr files p s with
    | .ub => .ub
    | .err => .err
    | .ok (.done, s) => .ok (.stop, p, s)
    | .ok (.stop, s) => .ok (.bad, p, s)
    | .ok (.other, s) => .ok (.other, p, s)
    | .ok (.again p, s) => next files fuel p s
    | .ok (.found e, s) => .ok (.rr e, p, s)

/-- `csv2_add_rr` for what has been read; a wrong address is a null pointer that is looked at (`csv2_copy_js`). -/
def addEntry (env : Env) (st : St) (e : Entry) : Res St :=
  match e.data with
  | none => .ub
  | some d => do
    let (_, st) ← Zf.addRr env st ⟨e.name, e.type, e.ttl, d⟩
    .ok st

variable {R : Type} (read : R → Res (Got × R))

/-- The first loop, Csv2_main.c:463-473. -/
def firstLoop (env : Env) : Nat → St → R → Res (Option (St × R))
  | 0, st, r => .ok (some (st, r))
  | n + 1, st, r =>
    if st.inNs = false then .ok (some (st, r))
    else do
      let (g, r) ← read r
      match g with
      | .other => .ok none
      | .bad => .ok none
      | .stop => .ok (some (st, r))
      | .rr e => do
        let st ← addEntry env st e
        firstLoop env n st r

/-- Up to 20 records, Csv2_main.c:533-539; also whether the last call of `csv2_read_rr` found one. -/
def batch (env : Env) : Nat → St → R → Res (Option (St × R × Bool))
  | 0, st, r => .ok (some (st, r, true))
  | n + 1, st, r => do
    let (g, r) ← read r
    match g with
    | .other => .ok none
    | .stop => .ok (some (st, r, false))
    | .bad => .ok (some (st, r, false))
    | .rr e => do
      let st ← addEntry env st e
      batch env n st r

/-- The last SOA record, Csv2_main.c:554-562. -/
def lastSoa (hd : Reply.Hdr) (soa : Zf.Rr) : List (List UInt8) × Bool :=
  match spit hd soa soa with
  | none => ([], false)
  | some m => ([m], true)

/-- The second loop and the last SOA record, Csv2_main.c:529-562. -/
def batches (env : Env) (hd : Reply.Hdr) (soa : Zf.Rr) : Nat → St → R → Res (Option (List (List UInt8) × Bool))
  | 0, _, _ => .ok (some (lastSoa hd soa))
  | n + 1, st, r => do
    match ← batch read env 20 st r with
    | none => .ok none
    | some (st, r, more) =>
      let (ms, b) := spitAll hd soa st.buffer
      if b = false then .ok (some (ms, false))
      else if more = false then .ok (some (ms ++ (lastSoa hd soa).1, (lastSoa hd soa).2))
      else do
        match ← batches env hd soa n { st with buffer := [] } r with
        | none => .ok none
        | some (l, b) => .ok (some (ms ++ l, b))

/-- `csv2_parse_zone_zoneserver`, Csv2_main.c:399-564, from the first loop on; `soaQ` is that the client has asked for the
SOA record.  An empty buffer is a null pointer that is looked at (`copy_csv2_rr`, Csv2_database.c:844-868). -/
def transfer (env : Env) (hd : Reply.Hdr) (soaQ : Bool) (r : R) : Res (Option (List (List UInt8) × Bool)) := do
  match ← firstLoop read env 29 St.init r with
  | none => .ok none
  | some (st, r) =>
    match (if soaQ then (spitSoa hd env.zone st.buffer).map fun m => [m] else some []) with
    | none => .ok (some ([], false))
    | some first =>
      match st.buffer with
      | [] => .ub
      | soa :: l =>
        let (ms, b) := spitAll hd soa (soa :: l)
        if b = false then .ok (some (first ++ ms, false))
        else do
          match ← batches read env hd soa 100000 { st with buffer := [] } r with
          | none => .ok none
          | some (l, b) => .ok (some (first ++ ms ++ l, b))

/-- The transfer of a zone file with the text `text`. -/
def serve (files : List UInt8 → Option (List UInt8)) (mode : Nat) (env : Env) (zone : List UInt8) (hd : Reply.Hdr) (soaQ : Bool)
    (text : List UInt8) : Res (Option (List (List UInt8) × Bool)) :=
  transfer (fun r => next files (text.length + 1) r.1 r.2) env hd soaQ
    (({ origin := zone, serial := env.serial } : Ps), Stream.start mode text)

end Serve
end Mara
