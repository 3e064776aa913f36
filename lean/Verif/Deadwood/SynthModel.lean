import Verif.Deadwood.AclModel
/-!
# Records made from the configuration

Source: `/repo/deadwood-github/src/DwSocket.c`.
-/

namespace Dw
namespace Synth
open DwStr Acl Spec

/-- `make_synth_record`, DwSocket.c:579-611.  The test `== 1` of one of the calls (it
should be `== -1`) is modelled as ignoring the error. -/
def makeSynthRecord (rawname rec : DwStr) (type : Nat) (ttl : Int) (junk : List UInt8) : Res DwStr := do
  let out ← create (rawname.len + rec.len + 35) junk
  let ttl : Int := if ttl < 0 then 0 else if ttl > 65535 then 65535 else ttl
  let out ← append rawname out
  let out ← pushU16 type out
  let out ← pushU16 1 out
  let out ← pushU16 0 out
  let out ← pushU16 ttl.toNat out
  let out ← pushU16 rec.len out
  let out ← append rec out
  let out ← pushU16 0 out
  let out ← pushIgn rawname.len out
  let out ← pushU16 1 out
  let out ← pushU16 0 out
  let out ← pushU16 0 out
  addchar 0 out

/-- `make_synth_ip4`, DwSocket.c:615-630.  `ip->len` is set before the address is
written. -/
def makeSynthIp4 (t : AddrText) (rawname : DwStr) (ipv4 : List UInt8) (ttl : Int) (junk junk2 : List UInt8) : Res DwStr := do
  let ip ← create 18 junk
  match t.v4 (cstr ipv4) with
  | none => .err
  | some a =>
    if a.length ≤ ip.buf.length then
      makeSynthRecord rawname { ip with len := 4, buf := a ++ ip.buf.drop a.length } 1 ttl junk2
    else .ub

/-- The value of a character in `make_synth_ip6`, DwSocket.c:649-661: `none` for a
syntax error, `some none` for a separator. -/
def ip6Char (n : UInt8) : Option (Option Nat) :=
  if 48 ≤ n ∧ n ≤ 57 then some (some (n.toNat - 48))
  else if n = 95 then some (some 0)
  else if 97 ≤ n ∧ n ≤ 102 then some (some (10 + (n.toNat - 97)))
  else if 65 ≤ n ∧ n ≤ 70 then some (some (10 + (n.toNat - 65)))
  else if n = 45 ∨ n = 32 then some none
  else none

/-- The loop of `make_synth_ip6`, DwSocket.c:646-673, over the remaining characters;
`ip` is the block of the address being written, `l` the number of digits so far. -/
def ip6Loop : (text : List UInt8) → (ip : List UInt8) → (l : Nat) → Res (List UInt8 × Nat)
  | [], ip, l => .ok (ip, l)
  | n :: text, ip, l =>
    match ip6Char n with
    | none => .err
    | some none => ip6Loop text ip l
    | some (some v) => do
      let ev := l % 2 = 0
      let v := if ev then v * 16 else v
      let ip ← (if ev then wr ip (l / 2) 0 else .ok ip)
      if l < 32 then do
        let x ← rd ip (l / 2)
        let ip ← wr ip (l / 2) (x ||| UInt8.ofNat v)
        ip6Loop text ip (l + 1)
      else .err

/-- `make_synth_ip6`, DwSocket.c:635-683. -/
def makeSynthIp6 (rawname ipv6 : DwStr) (ttl : Int) (junk junk2 : List UInt8) : Res DwStr := do
  let ip ← create 18 junk
  if ipv6.len < 32 ∨ ipv6.len > 64 then .err
  else do
    let (b, l) ← ip6Loop ipv6.contents ip.buf 0
    if l ≠ 32 then .err
    else makeSynthRecord rawname { ip with len := 16, buf := b } 28 ttl junk2

end Synth
end Dw
