import Verif.Mara.CompModel
/-!
# Decompression of messages

Source: `/repo/dns/Decompress.c` (`decompress_data` and what it calls; `decomp_get_label` and the table of
descriptions are in `Mara/CompModel`).  Strings are their contents; the size of the output string is the
parameter `um`, the size of the string for the data of a record is the parameter `rm` (4512 with `AUTHONLY`, 512
without).  Messages for the log are left out, allocations succeed, and `decomp_init` has been called.
-/

namespace Mara
namespace Decomp

open Dw (Res)
open Comp (Field fields getLabel)

/-- `decomp_append_bytes`, Decompress.c:271-296, for a string of size `max`. -/
def appendBytes (c : List UInt8) (max : Nat) (out : List UInt8) (off len : Nat) : Res (List UInt8) :=
  if c.length < off + len then .err
  else if off ≥ c.length then .err
  else if len + out.length ≥ max then .err
  else .ok (out ++ (c.drop off).take len)

/-- `decomp_append_dlabel`, Decompress.c:202-245: the output, and the length of the name where it stands. -/
def appendName (c : List UInt8) (max : Nat) (out : List UInt8) (off : Nat) : Res (List UInt8 × Nat) :=
  if off ≥ c.length then .err
  else
    match getLabel c 255 off [] with
    | none => .err
    | some l =>
      match Lookup.dlabel c off 256 0 with
      | none => .err
      | some len => if l.length + out.length ≥ max then .err else .ok (out ++ l, len)

/-- The two bytes of `js_readuint16`, JsStr.c:1052-1068. -/
def read16 (c : List UInt8) (off : Nat) : Res Nat :=
  match c[off]?, c[off + 1]? with
  | some a, some b => .ok (a.toNat * 256 + b.toNat)
  | _, _ => .err

/-- The loop of `decomp_get_rddata`, Decompress.c:845-906: the data and the place behind them, `total` is counted
from the start.  Three bytes behind the end of a string are allocated (`js_create`); a length read there, whatever
it is, makes `decomp_append_bytes` fail. -/
def runFields (c : List UInt8) (rm rdlen : Nat) : List Field → (out : List UInt8) → (off total : Nat) → Res (List UInt8 × Nat)
  | [], out, _, total => .ok (out, total)
  | .fixed n :: fs, out, off, total => do
    let out ← appendBytes c rm out off n
    runFields c rm rdlen fs out (off + n) (total + n)
  | .name :: fs, out, off, total => do
    let (out, len) ← appendName c rm out off
    runFields c rm rdlen fs out (off + len) (total + len)
  | .text :: fs, out, off, total =>
    match c[off]? with
    | none => if off ≤ c.length + 2 then .err else .ub
    | some b => do
      let out ← appendBytes c rm out off (b.toNat + 1)
      runFields c rm rdlen fs out (off + (b.toNat + 1)) (total + (b.toNat + 1))
  | .rest :: _, out, off, total =>
    if rdlen ≤ total then .ok (out, total)
    else do
      let out ← appendBytes c rm out off (rdlen - total)
      .ok (out, rdlen)

/-- `decomp_get_rddata`, Decompress.c:823-915. -/
def rddata (c : List UInt8) (rm off type rdlen : Nat) : Res (List UInt8) :=
  match fields type with
  | none => if rdlen = 0 then .ok [] else appendBytes c rm [] off rdlen
  | some (fs, _) => do
    let (out, total) ← runFields c rm rdlen fs [] off 0
    if rdlen ≠ total then .err else .ok out

/-- The body of the loop over the records, Decompress.c:991-1029: the output, and the place of the next record. -/
def record (c : List UInt8) (um rm : Nat) (out : List UInt8) (off : Nat) : Res (List UInt8 × Nat) := do
  let (out, len) ← appendName c um out off
  let off := off + len
  if len < 1 then .err
  else do
    let type ← read16 c off
    let out ← appendBytes c um out off 8
    let rdlen ← read16 c (off + 8)
    let d ← rddata c rm (off + 10) type rdlen
    if out.length + 2 ≥ um then .err
    else if d.length + (out.length + 2) ≥ um then .err
    else .ok (out ++ [UInt8.ofNat (d.length / 256), UInt8.ofNat d.length] ++ d, off + 10 + rdlen)

/-- The loop over the records. -/
def records (c : List UInt8) (um rm : Nat) : (n : Nat) → (out : List UInt8) → (off : Nat) → Res (List UInt8)
  | 0, out, _ => .ok out
  | n + 1, out, off => do
    let (out, off) ← record c um rm out off
    records c um rm n out off

/-- `decomp_get_question`, Decompress.c:453-481. -/
def question (c : List UInt8) (um : Nat) (out : List UInt8) : Res (List UInt8 × Nat) := do
  let (out, len) ← appendName c um out 12
  if len < 1 then .err
  else do
    let out ← appendBytes c um out (12 + len) 4
    .ok (out, len + 4)

/-- `decomp_decompress_packet`, Decompress.c:934-1033, with `decomp_get_header` (385-434). -/
def decompress (c : List UInt8) (um rm : Nat) : Res (List UInt8) :=
  if c.length < 12 then .err
  else do
    let qd ← read16 c 4
    let an ← read16 c 6
    let ns ← read16 c 8
    let ar ← read16 c 10
    if qd > 1 then .err
    else do
      let out ← appendBytes c um [] 0 12
      if qd = 0 then records c um rm (an + ns + ar) out 12
      else do
        let (out, len) ← question c um out
        records c um rm (an + ns + ar) out (12 + len)

end Decomp
end Mara
