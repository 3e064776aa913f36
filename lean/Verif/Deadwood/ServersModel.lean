import Verif.Deadwood.AclModel
import Verif.Deadwood.AliasModel
import Verif.Spec.Net
/-!
# Model of `dwx_ns_convert`, DwRecurse.c:2409-2606

How a line of `root_servers` or `upstream_servers` becomes the list of servers kept in the cache.  `inet_pton` is
the parameter `t` (see `Spec.AddrText`), as for access lists.
-/

namespace Dw
namespace Conf
open DwStr Spec

/-- `dwx_zap_whitespace`, DwRecurse.c:2484-2501, on the bytes before the terminating null. -/
def zapBlank : (n : Nat) → List UInt8 → List UInt8
  | 0, c => c
  | _ + 1, [] => []
  | n + 1, x :: c => if x = 32 ∨ x = 9 then [] else x :: zapBlank n c

/-- `dwx_ns_convert_1ip`, DwRecurse.c:2413-2426: the address; `[]` stands for the length zero.  `inet_pton` on a null
pointer is undefined. -/
def oneIp (t : AddrText) : Option (List UInt8) → Res (List UInt8)
  | none => .ub
  | some c =>
    match t.v4 c with
    | some a => .ok a
    | none =>
      match t.v6 c with
      | some a => .ok a
      | none => .ok []

/-- `dwx_ns_convert_number`, DwRecurse.c:2430-2437. -/
def number (n : Nat) : Res Nat := if n = 4 then .ok 1 else if n = 16 then .ok 28 else .err

/-- The loop of `dwx_ns_add_1record`, DwRecurse.c:2447-2451. -/
def putBytes : List UInt8 → DwStr → Res DwStr
  | [], out => .ok out
  | x :: a, out => do
    let out ← out.putU8 x.toNat (-1)
    putBytes a out

/-- `dwx_ns_add_1record`, DwRecurse.c:2440-2453. -/
def addRecord (out : DwStr) (a : List UInt8) : Res DwStr := do
  let num ← number a.length
  let out ← out.putU8 num (-1)
  putBytes a out

/-- `dwx_ns_convert_init`, DwRecurse.c:2456-2481. -/
def convertInit (bailiwick : Option DwStr) (junk : List UInt8) : Res DwStr :=
  match bailiwick with
  | none => do
    let out ← create 256 junk
    out.putU8 0 (-1)
  | some b => do
    let (dname, _) ← getDname b.buf 0 260
    if dname.length > 256 then .err
    else (Alias.nameOf 260 dname junk).substr 0 (-1) 256 junk

/-- The first loop of `dwx_ns_convert_mangle`, DwRecurse.c:2519-2532: the string made and the offsets noted. -/
def addLoop (t : AddrText) (junk : List UInt8) : (n : Nat) → DwStr → DwStr → List Nat → Res (DwStr × List Nat)
  | 0, _, out, offsets => .ok (out, offsets)
  | n + 1, mangle, out, offsets => do
    let (c, mangle) ← Acl.popLastItem mangle junk
    let a ← oneIp t (c.map (zapBlank 512))
    if a = [] then .ok (out, offsets)
    else do
      let o := out.len % 65536
      let out ← addRecord out a
      addLoop t junk n mangle out (offsets ++ [o])

/-- The second loop of `dwx_ns_convert_mangle`, DwRecurse.c:2535-2539.  (There are never more than 30 offsets, so the
limit of 31 is not modelled.) -/
def putOffsets : List Nat → DwStr → Res DwStr
  | [], out => .ok out
  | o :: os, out => do
    let out ← out.putU16 o (-1)
    putOffsets os out

/-- `dwx_ns_convert_mangle`, DwRecurse.c:2505-2560. -/
def convertMangle (t : AddrText) (mangle : DwStr) (upstream : Bool) (b : Option DwStr) (junk : List UInt8) : Res DwStr := do
  let out ← convertInit b junk
  let (out, offsets) ← addLoop t junk 30 mangle out []
  let out ← putOffsets offsets out
  let out ← out.putU8 offsets.length (-1)
  out.putU8 (if upstream then 22 else 16) (-1)

/-- `dwx_ns_convert`, DwRecurse.c:2573-2606. -/
def nsConvert (t : AddrText) (line : DwStr) (upstream : Bool) (bailiwick : Option DwStr) (junk : List UInt8) : Res DwStr := do
  let mangle ← line.copy junk
  convertMangle t mangle upstream bailiwick junk

/-- The check of `process_root_upstream_servers`, DwSocket.c:547-551: whether Deadwood goes on with what the line was
made into (otherwise it stops with "Please fix this line"). -/
def accepted (r : Res DwStr) : Bool :=
  match r with
  | .ok v => ¬ v.len < 4
  | _ => false

end Conf
end Dw
