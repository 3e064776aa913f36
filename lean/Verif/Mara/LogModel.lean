import Verif.Mara.FetchModel
import Verif.Mara.DecompModel
import Verif.Mara.LookupModel
import Verif.Spec.Names

/-!
# Model: what MaraDNS writes to its log about a packet

`show_esc_stdout` (libs/JsStrOS.c) and the main loop of server/MaraDNS.c (4643-4724), up to the call of `proc_query`,
for clients with IPv4 addresses.  The time stamp is given.
-/

namespace Mara
namespace Log

open Dw (Res)
open Spec (ascii)

/-- One byte, JsStrOS.c:370-379. -/
def escByte (c : UInt8) : List UInt8 :=
  if c < 32 ∨ c > 126 then [92, UInt8.ofNat (48 + c.toNat / 64), UInt8.ofNat (48 + c.toNat / 8 % 8), UInt8.ofNat (48 + c.toNat % 8)]
  else if c = 92 ∨ c = 37 then [92, c]
  else [c]

/-- `show_esc_stdout`, JsStrOS.c:359-384. -/
def showEsc (l : List UInt8) : List UInt8 := l.flatMap escByte

/-- `debug_show_ip`, MaraDNS.c:203-208. -/
def showIp (a b c d : UInt8) : List UInt8 :=
  Fetch.dec a.toNat ++ 46 :: (Fetch.dec b.toNat ++ 46 :: (Fetch.dec c.toNat ++ 46 :: Fetch.dec d.toNat))

/-- The letter for a type, Queries.c:380-414; -1 (no type there) is none of them. -/
def letter (t : Option Nat) : UInt8 :=
  match t with
  | some 1 => 65
  | some 2 => 78
  | some 5 => 67
  | some 6 => 83
  | some 12 => 80
  | some 15 => 64
  | some 16 => 84
  | some 255 => 90
  | _ => 85

/-- What the loop of `hname_translate`, Queries.c:428-449, leaves in the string, whether it succeeds or not. -/
def left (junk : UInt8) : (n : Nat) → (counter : Nat) → (toread : UInt8) → List UInt8 → List UInt8
  | 0, _, _, l => l
  | n + 1, counter, toread, l =>
    if counter < 256 ∧ toread > 0 then
      if toread > 63 then l
      else
        let counter := counter + (toread.toNat + 1)
        if counter > l.length then l
        else left junk n counter (l.getD counter junk) (l.set counter 46)
    else l

/-- What `hname_translate`, Queries.c:356-452, leaves in the string. -/
def shown (junk first : UInt8) : List UInt8 → List UInt8
  | [] => []
  | [0] => [first, 46]
  | c :: r => left junk 257 0 c (first :: r)

/-- `js_readuint16`, JsStr.c, for the type of the question. -/
def typeAt (u : List UInt8) (i : Nat) : Option Nat :=
  match u[i]?, u[i + 1]? with
  | some a, some b => some (a.toNat * 256 + b.toNat)
  | _, _ => none

/-- The line for a question, MaraDNS.c:4691-4724. -/
def queryLine (stamp ip : List UInt8) (junk : UInt8) (u : List UInt8) : List UInt8 :=
  match Lookup.dlabel u 12 256 0 with
  | none => []
  | some k => stamp ++ (ascii "Query from: " ++ (ip ++ 32 :: (shown junk (letter (typeAt u (12 + k))) ((u.drop 12).take k) ++ [10])))

/-- What is written when a packet arrives, MaraDNS.c:4643-4724.  The string for the decompressed packet has 768 bytes
(:3864). -/
def packetLog (level : Nat) (stamp ip : List UInt8) (junk : UInt8) (raw : List UInt8) : Res (List UInt8) :=
  let got := if level ≥ 3 then stamp ++ ascii " Log: Message received, processing\n" else []
  match Decomp.decompress raw 768 4512 with
  | .ub => .ub
  | .err => .ok (got ++ if level ≥ 4 then stamp ++ (ascii "Query from " ++ (ip ++ (ascii "has decompression error: " ++ (showEsc raw ++ [10])))) else [])
  | .ok u => .ok (got ++ ((if level ≥ 5 then stamp ++ (ascii "Decompressed packet: " ++ (showEsc u ++ [10])) else []) ++
      if level ≥ 3 ∧ u.length > 12 then queryLine stamp ip junk u else []))

/-- What is written about a packet that is refused, MaraDNS.c:522-531 with `zjlog` (:314-332). -/
def badLog (stamp ip raw : List UInt8) : List UInt8 :=
  stamp ++ (ascii " Log: Bad query received: " ++ (showEsc raw ++ 10 :: (ascii "From IP: " ++ (ip ++ [10]))))

end Log
end Mara
