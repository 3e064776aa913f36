import Verif.Mara.Csv2Model
import Verif.Mara.DecompModel
import Verif.Mara.ReplyModel
import Verif.Spec.ZoneFile
/-!
# fetchzone

Source: `/repo/tcp/fetchzone.c` (what comes after the query has been sent), `/repo/dns/Queries.c` (reading of records and
translation of names), `/repo/parse/Csv2_esc_txt.c` and `/repo/libs/JsStrOS.c` (printing).  The input is the messages
that the server sends, without their two bytes of length; all bytes of a message arrive.  The result is what is
printed and the exit code.  The alarm after five minutes is not modelled, allocations succeed, and shifts into the
sign bit do what they do with gcc.
-/

namespace Mara
namespace Fetch

open Spec (ascii)

/-! ## Printing -/

/-- The digits of `%u` and `%x`; `f` is more than the number of digits. -/
def digits (base : Nat) : (f n : Nat) → List UInt8
  | 0, _ => []
  | f + 1, n =>
    let d := UInt8.ofNat (if n % base < 10 then 48 + n % base else 87 + n % base)
    if n < base then [d] else digits base f (n / base) ++ [d]

/-- `%u`, and `%d` for numbers that are not negative. -/
def dec (n : Nat) : List UInt8 := digits 10 20 n

/-- `%d` for an `int` with these 32 bits. -/
def signed (n : Nat) : List UInt8 := if n < 2147483648 then dec n else 45 :: dec (4294967296 - n)

/-- `%x` -/
def hex (n : Nat) : List UInt8 := digits 16 20 n

/-- One digit of `%02x`. -/
def nibble (n : Nat) : UInt8 := UInt8.ofNat (if n < 10 then 48 + n else 87 + n)

/-- `\x%02x` -/
def hexEsc (c : UInt8) : List UInt8 := [92, 120, nibble (c.toNat / 16), nibble (c.toNat % 16)]

/-- The loop of `escape_stdout_csv2`, Csv2_esc_txt.c:39-71; `q` is `inquote`. -/
def escLoop (q : Bool) : List UInt8 → List UInt8
  | [] => if q then [39] else []
  | c :: r =>
    if c < 32 ∨ c > 122 ∨ c = 35 then (if q then [39] else []) ++ hexEsc c ++ escLoop false r
    else if c = 39 then (if q then [39, 92, 39, 39] else [92, 39]) ++ escLoop q r
    else (if q then [] else [39]) ++ c :: escLoop true r

/-- `escape_stdout_csv2`, Csv2_esc_txt.c:27-74. -/
def escape (l : List UInt8) : List UInt8 := escLoop false l

/-- Bytes that `safe_esc_stdout` prints as they are, JsStrOS.c:409-411. -/
def isSafe (c : UInt8) : Bool :=
  (65 ≤ c ∧ c ≤ 90) ∨ (97 ≤ c ∧ c ≤ 122) ∨ c = 45 ∨ c = 95 ∨ c > 127 ∨ c = 46 ∨ c = 64 ∨ (48 ≤ c ∧ c ≤ 57)

def safeChar (c : UInt8) : List UInt8 := if isSafe c then [c] else hexEsc c

/-- `safe_esc_stdout`, JsStrOS.c:392-425: spaces and stars are for the first place only. -/
def safeEsc : List UInt8 → List UInt8
  | [] => []
  | c :: r => (if c = 32 then [32] else if c = 42 ∧ r.length + 1 > 2 ∧ r.head? = some 46 then [42] else safeChar c) ++ r.flatMap safeChar

/-! ## Names -/

/-- The loop of `hname_translate` (Queries.c:429-448) and of `email_translate` (:484-505): `sep` is what the next length
becomes.  One byte behind the string, `junk`, may be read. -/
def trLoop (junk : UInt8) : (n : Nat) → (sep : UInt8) → (counter : Nat) → (toread : UInt8) → List UInt8 → Option (List UInt8)
  | 0, _, _, _, _ => none
  | n + 1, sep, counter, toread, l =>
    if counter < 256 ∧ toread > 0 then
      if toread > 63 then none
      else
        let counter := counter + (toread.toNat + 1)
        if counter > l.length then none
        else trLoop junk n 46 counter (l.getD counter junk) (l.set counter sep)
    else some l

/-- `hname_translate`, Queries.c:356-452; the first byte becomes `first`. -/
def hname (junk first : UInt8) : List UInt8 → Option (List UInt8)
  | [] => none
  | [0] => some [first, 46]
  | c :: r => trLoop junk 257 46 0 c (first :: r)

/-- `email_translate`, Queries.c:460-506. -/
def email (junk : UInt8) : List UInt8 → Option (List UInt8)
  | [] => none
  | c :: r => trLoop junk 257 64 0 c (124 :: r)

/-- How many bytes a name has, from the loop of `read_rr_h`, Queries.c:720-741 and 758-761.  A byte behind the
message may be read; whatever it is, there is an error later. -/
def nameLen (l : List UInt8) (off : Nat) : (n counter : Nat) → Option Nat
  | 0, _ => none
  | n + 1, k =>
    if k ≥ 256 then none
    else match l[off + k]? with
      | none => none
      | some c =>
        if c > 63 then none
        else if c = 0 then some (k + 1)
        else if k + (c.toNat + 1) ≤ 257 ∧ off + k + (c.toNat + 1) ≤ l.length then nameLen l off n (k + (c.toNat + 1))
        else none

def num (l : List UInt8) : Nat := l.foldl (fun v c => v * 256 + c.toNat) 0

/-- What `read_rr_h` finds; `next` is the place of the data. -/
structure Rr where
  name : List UInt8
  type : Nat
  ttl : Nat
  rdlen : Nat
  next : Nat
deriving DecidableEq

/-- `read_rr_h`, Queries.c:697-764. -/
def readRr (l : List UInt8) (off : Nat) : Option Rr :=
  match nameLen l off 256 0 with
  | none => none
  | some k =>
    let r := l.drop (off + k)
    if k + off + 10 ≤ l.length then
      some ⟨(l.drop off).take k, num (r.take 2), num ((r.drop 4).take 4), num ((r.drop 8).take 2), off + k + 10⟩
    else none

/-- One of the names that `read_soa` copies, Queries.c:797-822: the name, and the place behind it.  Names of 256 bytes
are cut. -/
def soaName (l : List UInt8) (off : Nat) : (n counter : Nat) → Option (List UInt8 × Nat)
  | 0, _ => none
  | n + 1, k =>
    if k = 256 then some ((l.drop off).take k ++ [0], off + k + 1)
    else if k > 256 then none
    else match l[off + k]? with
      | none => none
      | some c =>
        if c > 63 then none
        else if c = 0 then some ((l.drop off).take k ++ [0], off + k + 1)
        else if k + (c.toNat + 1) ≤ 257 ∧ off + k + (c.toNat + 1) ≤ l.length then soaName l off n (k + (c.toNat + 1))
        else none

/-- `rr_soa` -/
structure Soa where
  mname : List UInt8
  rname : List UInt8
  serial : Nat
  refresh : Nat
  retry : Nat
  expire : Nat
  minimum : Nat
deriving DecidableEq

/-- `read_soa` at the beginning of a string, Queries.c:773-870. -/
def readSoa (l : List UInt8) : Option Soa :=
  match soaName l 0 256 0 with
  | none => none
  | some (m, o) =>
    match soaName l o 256 0 with
    | none => none
    | some (r, o) =>
      if o + 20 > l.length then none
      else
        let f := fun i => num ((l.drop (o + i)).take 4)
        some ⟨m, r, f 0, f 4, f 8, f 12, f 16⟩

/-- `fold_case`, libtcp.c:144-168: the last letter stays as it is. -/
def foldCase (l : List UInt8) : List UInt8 := (l.take (l.length - 2)).map Spec.lower ++ l.drop (l.length - 2)

/-- `bobbit_label`, bobbit.c:30-60, for a string that has room left. -/
def bobbit (l : List UInt8) : List UInt8 :=
  match l with
  | [] => l
  | c :: r => if c = 95 then r else if c.toNat + 1 > l.length ∨ c > 63 then l else if c = 0 then l else l.drop (c.toNat + 1)

/-- Is the name in the zone?  fetchzone.c:265-280. -/
def inZone (zone : List UInt8) : (n : Nat) → List UInt8 → Bool
  | 0, _ => false
  | n + 1, l => if l = zone then true else if l.length > zone.length then inZone zone n (bobbit l) else false

/-! ## The zone transfer -/

/-- How the program goes on: with the number of SOA records seen, or not. -/
inductive End
  | more (soa : Nat)
  | exit (code : Nat)
deriving DecidableEq

/-- What is printed, and how the program goes on. -/
abbrev Out := List UInt8 × End

/-- `harderror`, fetchzone.c:48-51. -/
def fatal (why : String) : Out := (ascii "\n# Fatal error: " ++ ascii why ++ [10], .exit 3)

/-- The beginning of a line: the name without its first byte, and the TTL. -/
def opening (name : List UInt8) (ttl : Nat) : List UInt8 := safeEsc name.tail ++ ascii " +" ++ dec ttl

/-- A record of any type, fetchzone.c:431-446. -/
def raw (junk : UInt8) (rr : Rr) (d : List UInt8) (soa : Nat) : Out :=
  match hname junk 65 rr.name with
  | none => fatal "Hname problem"
  | some n => (opening n rr.ttl ++ ascii " raw " ++ dec rr.type ++ [32] ++ escape d ++ ascii " ~ \n", .more soa)

/-- A SOA record, fetchzone.c:288-319.  Once the name has been translated, the way to `failover` ends with an error:
the first byte is no longer the length of a label. -/
def soaLine (junk : UInt8) (rr : Rr) (d : List UInt8) (soa : Nat) : Out :=
  if soa + 1 > 1 then (ascii "# Second SOA received, exiting\n", .exit 0)
  else
    match readSoa d with
    | none => raw junk rr d (soa + 1)
    | some s =>
      match hname junk 83 rr.name, hname junk 65 s.mname, email junk s.rname with
      | some n, some m, some r =>
        (opening n rr.ttl ++ ascii " soa" ++ safeEsc (32 :: m.tail) ++ safeEsc (32 :: r.tail) ++ [32] ++ dec s.serial ++ [32] ++
          signed s.refresh ++ [32] ++ signed s.retry ++ [32] ++ signed s.expire ++ [32] ++ dec s.minimum ++ ascii " ~ \n", .more (soa + 1))
      | _, _, _ => fatal "Hname problem"

/-- An address, fetchzone.c:320-333. -/
def aLine (junk : UInt8) (rr : Rr) (d : List UInt8) (soa : Nat) : Out :=
  match d with
  | [a, b, c, e] =>
    match hname junk 65 rr.name with
    | none => fatal "Problem translating A record name"
    | some n =>
      (opening n rr.ttl ++ ascii " a " ++ dec a.toNat ++ [46] ++ dec b.toNat ++ [46] ++ dec c.toNat ++ [46] ++ dec e.toNat ++
        ascii " ~ \n", .more soa)
  | _ => raw junk rr d soa

/-- The groups of an IPv6 address. -/
def groups : List UInt8 → List UInt8
  | a :: b :: r => hex (a.toNat * 256 + b.toNat) ++ 58 :: groups r
  | _ => []

/-- An IPv6 address, fetchzone.c:334-351. -/
def aaaaLine (junk : UInt8) (rr : Rr) (d : List UInt8) (soa : Nat) : Out :=
  if d.length ≠ 16 then raw junk rr d soa
  else
    match hname junk 85 rr.name with
    | none => fatal "Problem translating A record name"
    | some n => (opening n rr.ttl ++ ascii " aaaa " ++ groups d ++ ascii " ~ \n", .more soa)

/-- A MX record, fetchzone.c:352-380. -/
def mxLine (junk : UInt8) (rr : Rr) (d : List UInt8) (soa : Nat) : Out :=
  match d with
  | a :: b :: x :: r =>
    match L.substr d 2 (d.length - 2) 512 with
    | none => raw junk rr d soa
    | some _ =>
      match hname junk 64 rr.name, hname junk 64 (x :: r) with
      | some n, some m =>
        (opening n rr.ttl ++ ascii " mx " ++ dec (a.toNat * 256 + b.toNat) ++ safeEsc (32 :: m.tail) ++ ascii " ~ \n", .more soa)
      | _, _ => fatal "Hname problem"
  | _ => raw junk rr d soa

/-- A text, fetchzone.c:381-400. -/
def txtLine (junk : UInt8) (rr : Rr) (d : List UInt8) (soa : Nat) : Out :=
  match d with
  | [] => raw junk rr d soa
  | c :: r =>
    if c.toNat ≠ r.length then raw junk rr d soa
    else
      match hname junk 84 rr.name with
      | none => fatal "Hname problem"
      | some n => (opening n rr.ttl ++ ascii " txt " ++ escape r ++ ascii " ~ \n", .more soa)

/-- A record with a name as its data, fetchzone.c:401-430; `w` is its type. -/
def nameLine (junk : UInt8) (w : String) (rr : Rr) (d : List UInt8) (soa : Nat) : Out :=
  match hname junk 65 rr.name, hname junk 65 d with
  | some n, some m => (opening n rr.ttl ++ ascii w ++ safeEsc (32 :: m.tail) ++ ascii " ~ \n", .more soa)
  | _, _ => fatal "Hname problem"

/-- The line for a record with the data `d`, fetchzone.c:287-446. -/
def line (junk : UInt8) (rr : Rr) (d : List UInt8) (soa : Nat) : Out :=
  match rr.type with
  | 6 => soaLine junk rr d soa
  | 1 => aLine junk rr d soa
  | 28 => aaaaLine junk rr d soa
  | 15 => mxLine junk rr d soa
  | 16 => txtLine junk rr d soa
  | 2 => nameLine junk " ns" rr d soa
  | 12 => nameLine junk " ptr" rr d soa
  | 5 => nameLine junk " cname" rr d soa
  | _ => raw junk rr d soa

/-- What is printed before records that are not in the zone, fetchzone.c:281-282. -/
def warning : List UInt8 := ascii "# Disabled out-of-bailiwick record follows\n# "

/-- `x`, and what comes after it unless the program has ended. -/
def andThen (x : Out) (f : Nat → Out) : Out :=
  match x.2 with
  | .exit n => (x.1, .exit n)
  | .more n => let y := f n; (x.1 ++ y.1, y.2)

/-- The loop over the answers of a message, fetchzone.c:255-449; `junk` is what is behind the end of a string with
these data. -/
def answers (zone : List UInt8) (junk : List UInt8 → UInt8) (l : List UInt8) : (n place soa : Nat) → Out
  | 0, _, soa => ([], .more soa)
  | n + 1, place, soa =>
    match readRr l place with
    | none => fatal "Fatal error running read_rr_h"
    | some rr =>
      let rr := { rr with name := foldCase rr.name }
      let pre := if inZone zone (rr.name.length + 1) rr.name then [] else warning
      match L.substr l rr.next rr.rdlen (rr.rdlen + 7) with
      | none => (pre ++ (fatal "Problem getting rddata").1, .exit 3)
      | some d =>
        andThen (pre ++ (line (junk d) rr d soa).1, (line (junk d) rr d soa).2) (answers zone junk l n (rr.next + rr.rdlen))

/-- What an error code says, fetchzone.c:223-238. -/
def rcodeText (n : Nat) : String :=
  match n with
  | 1 => "Format error"
  | 2 => "Server failure"
  | 3 => "Name error"
  | 4 => "Not implemented"
  | 5 => "Refused"
  | _ => "Rcode > 5"

/-- One message, fetchzone.c:197-451; `rm` is as in `Decomp.decompress`, which is never undefined. -/
def message (zone : List UInt8) (junk : List UInt8 → UInt8) (rm : Nat) (c : List UInt8) (soa : Nat) : Out :=
  if c.length < 12 then fatal "Response from server is not long enough to hold header"
  else
    match Decomp.decompress c ((c.length + 7) * 4) rm with
    | .ok l =>
      match Reply.readHdr l with
      | none => fatal "Could not read header from server"
      | some h =>
        if h.rcode ≠ 0 then fatal (rcodeText h.rcode)
        else if h.qd > 0 then
          match Lookup.dlabel l 12 256 0 with
          | none => fatal "Invalid dlabel in question"
          | some k => answers zone junk l h.an (12 + k + 4) soa
        else answers zone junk l h.an 12 soa
    | _ => fatal "Fatal error performing decompression"

/-- The loop over the messages, fetchzone.c:195-454. -/
def messages (zone : List UInt8) (junk : List UInt8 → UInt8) (rm : Nat) : List (List UInt8) → (soa : Nat) → Out
  | [], _ => ([], .exit 0)
  | c :: r, soa => andThen (message zone junk rm c soa) (messages zone junk rm r)

/-- The name of the zone that is asked for, from the first argument, fetchzone.c:151-167. -/
def zoneWire (arg : List UInt8) : Option (List UInt8) :=
  if arg.length + 1 ≥ 128 then none
  else
    let t := if arg.getLast? = some 46 then arg else arg ++ [46]
    if t.length + 1 ≥ 128 then none else if t = [46] then some [0] else Csv2.wireLoop t []

/-- fetchzone, once it is connected to the server. -/
def fetch (arg : List UInt8) (junk : List UInt8 → UInt8) (rm : Nat) (ms : List (List UInt8)) : Out :=
  match zoneWire arg with
  | none => fatal "Invalid form of zone name"
  | some z => messages z junk rm ms 0

end Fetch
end Mara
