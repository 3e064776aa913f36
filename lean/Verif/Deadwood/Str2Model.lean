import Verif.Deadwood.StrModel

/-!
# Deadwood strings, text and DNS helpers

Source: `/repo/deadwood-github/src/DwStr.c`, lines 595-1313.
-/

namespace Dw
namespace DwStr

/-- The backwards search of `dw_rfind`, DwStr.c:618-620; the argument is
`index + 1`. -/
def rfindLoop (s : DwStr) (rx : UInt8) : Nat → Res (Option Nat)
  | 0 => .ok none
  | i + 1 => do
    let x ← s.peek i
    if x = rx then .ok (some i) else rfindLoop s rx i

/-- `dw_rfind`, DwStr.c:601-628; `none` is the return value -2 (not found). -/
def rfind (s : DwStr) (rx : UInt8) : Res (Option Nat) :=
  if !s.sane then .err
  else if s.len = 0 then .ok none
  else rfindLoop s rx s.len

/-- `dw_qspop`, DwStr.c:639-680.  Returns the new string and the changed input.
The null pointer results that come from `dw_copy`/`dw_substr` are reported as
`err`. -/
def qspop (s : DwStr) (junk : List UInt8) : Res (DwStr × DwStr) :=
  if !s.sane then .err
  else do
    match ← s.rfind 44 with
    | none => do
      let out ← s.copy junk
      .ok (out, { s with len := 0 })
    | some index =>
      let len := s.len - (index + 1)
      let out ← s.substr (index + 1 : Nat) len 1 junk
      .ok (out, { s with len := s.len - (len + 1) })

/-- Leading white space loop of `dw_zap_lws` (DwStr.c:696-699) and of `dw_atoi`
(DwStr.c:744-747): `n` is `len - index`. -/
def skipWs (s : DwStr) : (n index : Nat) → Res Nat
  | 0, i => .ok i
  | n + 1, i => do
    let x ← s.peek i
    if x = 32 ∨ x = 9 then skipWs s n (i + 1) else .ok i

/-- `dw_zap_lws`, DwStr.c:688-715. -/
def zapLws (s : DwStr) (junk : List UInt8) : Res DwStr :=
  if !s.sane then .err
  else do
    let i ← s.skipWs s.len 0
    if i ≥ s.len then create 1 junk
    else s.substr i (-1) 1 junk

/-- Digit value as in `dw_atoi`, DwStr.c:753-761. -/
def digit (look : UInt8) : Option Nat :=
  if 48 ≤ look ∧ look ≤ 57 then some (look.toNat - 48)
  else if 97 ≤ look ∧ look ≤ 122 then some (look.toNat - 97 + 10)
  else if 65 ≤ look ∧ look ≤ 90 then some (look.toNat - 65 + 10)
  else none

/-- Main loop of `dw_atoi`, DwStr.c:748-768; `n` iterations left.  Signed
overflow of `out` is undefined behaviour. -/
def atoiLoop (s : DwStr) (base : Nat) : (n index out : Nat) → Res Nat
  | 0, _, _ => .err
  | n + 1, index, out =>
    if index ≥ s.len then .ok out
    else do
      let look ← s.peek index
      match digit look with
      | none => .ok out
      | some num =>
        if num ≥ base then .err
        else if out * base + num > 2147483647 then .ub
        else atoiLoop s base n (index + 1) (out * base + num)

/-- `dw_atoi`, DwStr.c:730-770 for a non-negative `index` (a negative one returns
-1); `err` is the return value -1.  The white-space loop reads `str[index]`
before checking `index < len` again, which touches at most `str[len]`, inside
the block. -/
def atoi (s : DwStr) (index base : Nat) : Res Nat :=
  if !s.sane then .err
  else if base < 2 ∨ base > 36 then .err
  else if index ≥ s.len then .err
  else do
    let _ ← s.peek s.len
    let i ← s.skipWs (s.len - index) index
    s.atoiLoop base 100 i 0

/-- Loop of `dw_filename_sanitize`, DwStr.c:1085-1091. -/
def sanitizeLoop : (n index : Nat) → DwStr → Res DwStr
  | 0, _, s => .ok s
  | n + 1, i, s => do
    let look ← s.peek i
    if (look < 97 ∨ look > 122) ∧ look ≠ 47 ∧ look ≠ 45 ∧ look ≠ 95 then do
      let s' ← s.poke i 95
      sanitizeLoop n (i + 1) s'
    else sanitizeLoop n (i + 1) s

/-- `dw_filename_sanitize`, DwStr.c:1077-1094. -/
def filenameSanitize (s : DwStr) : Res DwStr :=
  if !s.sane then .err else sanitizeLoop s.len 0 s

/-- Loop of `dw_filename_sani_two`, DwStr.c:1107-1117. -/
def saniTwoLoop : (n index : Nat) → (seenDot : Bool) → DwStr → Res DwStr
  | 0, _, _, s => .ok s
  | n + 1, i, seenDot, s => do
    let look ← s.peek i
    if look = 46 then saniTwoLoop n (i + 1) true s
    else if look = 47 ∧ seenDot = false then saniTwoLoop n (i + 1) false s
    else if (look < 97 ∨ look > 122) ∧ look ≠ 45 ∧ look ≠ 95 then do
      let s' ← s.poke i 95
      saniTwoLoop n (i + 1) seenDot s'
    else saniTwoLoop n (i + 1) seenDot s

/-- `dw_filename_sani_two`, DwStr.c:1098-1120. -/
def filenameSaniTwo (s : DwStr) : Res DwStr :=
  if !s.sane then .err else saniTwoLoop s.len 0 false s

/-- `dw_ends_in_dot`, DwStr.c:1126-1140. -/
def endsInDot (s : DwStr) : Res Bool :=
  if !s.sane then .err
  else if s.len < 1 then .ok false
  else do
    let x ← s.peek (s.len - 1)
    .ok (decide (x = 46))

/-- `if(i < out->max) *(out->str + i) = b;` as used in `dw_dnsname_convert`. -/
def pokeIf (out : DwStr) (i : Nat) (b : UInt8) : Res DwStr :=
  if i < out.max then out.poke i b else .ok out

/-- `dw_dnsname_delim_convert`, DwStr.c:1153-1175, in the loop of
`dw_dnsname_convert`, DwStr.c:1206-1211; `n` characters left, `a`, `place`,
`count` as in the code. -/
def convertLoop (inp : DwStr) : (n a place count : Nat) → DwStr → Res DwStr
  | 0, _, _, _, out => .ok out
  | n + 1, a, place, count, out => do
    let x ← inp.peek a
    if x = 46 then
      if count = 0 then .err
      else do
        let out1 ← out.pokeIf place (byte count)
        let out2 ← out1.pokeIf (a + 1) x
        convertLoop inp n (a + 1) (a + 1) 0 out2
    else do
      let out2 ← out.pokeIf (a + 1) x
      if count + 1 > 63 then .err
      else convertLoop inp n (a + 1) place (count + 1) out2

/-- `dw_dnsname_convert`, DwStr.c:1181-1227. -/
def dnsnameConvert (inp : DwStr) (junk : List UInt8) : Res DwStr :=
  if !inp.sane then .err
  else do
    if !(← inp.endsInDot) then .err
    else do
      let out0 ← create (inp.len + 4) junk
      let x ← inp.peek 0
      if x = 46 then
        if inp.len ≠ 1 then .err
        else do
          let out1 ← if out0.max > 1 then out0.poke 0 0 else .ok out0
          .ok { out1 with len := 1 }
      else do
        let out1 ← convertLoop inp inp.len 0 0 0 { out0 with len := inp.len + 1 }
        out1.pokeIf (out1.len - 1) 0

/-- Copy loop of `dw_dnslabel_chop`, DwStr.c:1262-1266; `n` = `len - a`. -/
def chopLoop (inp : DwStr) : (n a b : Nat) → DwStr → Res (Nat × DwStr)
  | 0, _, b, out => .ok (b, out)
  | n + 1, a, b, out =>
    if b < out.max then do
      let x ← inp.peek a
      let out' ← out.poke b x
      chopLoop inp n (a + 1) (b + 1) out'
    else .ok (b, out)

/-- `dw_dnslabel_chop`, DwStr.c:1236-1271. -/
def dnslabelChop (inp : DwStr) (junk : List UInt8) : Res DwStr :=
  if !inp.sane then .err
  else if inp.len < 2 then .err
  else do
    let o ← inp.peek 0
    let offset := o.toNat
    if offset < 1 ∨ offset > 63 then .err
    else if inp.len < offset then .err
    else do
      let out ← create (inp.len - offset + 1) junk
      let (b, out') ← chopLoop inp (inp.len - (offset + 1)) (offset + 1) 0 out
      .ok { out' with len := b }

/-- `dw_append` whose result code the caller ignores: failure leaves the target
as it was. -/
def appendIgn (src tgt : DwStr) : Res DwStr :=
  match append src tgt with
  | .ok t => .ok t
  | .err => .ok tgt
  | .ub => .ub

/-- `dw_rotate`, DwStr.c:1283-1313, for non-negative offsets (all callers). -/
def rotate (s : DwStr) (start pivot fin : Nat) (junk : List UInt8) : Res DwStr :=
  if start ≥ pivot ∨ pivot ≥ fin ∨ fin ≥ s.len then .err
  else do
    let p1 ← s.substr start (pivot - start : Nat) 1 junk
    let p2 ← s.substr pivot (fin - pivot : Nat) 1 junk
    let p3 ← s.substr fin (-1) 1 junk
    let s1 ← appendIgn p2 { s with len := start }
    let s2 ← appendIgn p1 s1
    appendIgn p3 s2

/-- Loop of `dw_get_dn_end`, DwStr.c:886-901; `n` iterations left. -/
def dnEndLoop (s : DwStr) : (n offset : Nat) → Res Nat
  | 0, offset => .ok (offset + 1)
  | n + 1, offset =>
    if offset + 1 > s.len then .err
    else do
      let len ← s.peek offset
      if len ≥ 192 then .ok (offset + 1 + 1)
      else if len > 63 then .err
      else if len = 0 then .ok (offset + 1)
      else dnEndLoop s n (offset + len.toNat + 1)

/-- `dw_get_dn_end`, DwStr.c:879-905, for a non-negative offset (all callers);
`err` is -1. -/
def getDnEnd (s : DwStr) (offset : Nat) : Res Nat :=
  if !s.sane then .err else dnEndLoop s 200 offset

/-- `dw_get_a_dnsttl`, DwStr.c:917-966, for a non-negative offset and `max`
(all callers); `err` is -1. -/
def getADnsttl (s : DwStr) : (depth offset max : Nat) → Res Nat
  | 0, _, max => if !s.sane then .err else .ok max
  | depth + 1, offset, max =>
    if !s.sane then .err
    else do
      let max := if max > 31536000 then 31536000 else max
      let o ← s.getDnEnd offset
      if o + 8 > s.len then .err
      else do
        let t0 ← s.peek o
        let t1 ← s.peek (o + 1)
        let type := t0.toNat * 256 + t1.toNat
        let r4 ← s.peek (o + 4)
        if r4 > 0x7f then .ok 31536000
        else do
          let r5 ← s.peek (o + 5)
          let r6 ← s.peek (o + 6)
          let r7 ← s.peek (o + 7)
          let v := ((r4.toNat * 256 + r5.toNat) * 256 + r6.toNat) * 256 + r7.toNat
          let out := if v < 60 then 60 else if v > max then max else v
          if type = 5 then do
            let o2 ← s.getDnEnd (o + 10)
            if o2 > s.len then .err
            else getADnsttl s depth o2 out
          else .ok out

/-- `dw_cachepacket_to_ancount`, DwStr.c:1002-1016. -/
def cachepacketToAncount (s : DwStr) : Res Nat :=
  if !s.sane ∨ s.len < 7 then .err
  else s.fetchU16 (s.len - 7 : Nat)

/-- A `dw_put_u16` whose result code the caller ignores. -/
def pushIgn (v : Nat) (s : DwStr) : Res DwStr :=
  match pushU16 v s with
  | .ok t => .ok t
  | .err => .ok s
  | .ub => .ub

/-- A `dw_addchar` whose result code the caller ignores. -/
def addcharIgn (b : UInt8) (s : DwStr) : Res DwStr :=
  match addchar b s with
  | .ok t => .ok t
  | .err => .ok s
  | .ub => .ub

/-- `dw_packet_to_cache`, DwStr.c:1027-1072.  `hack` is the string object the
code wraps around the received bytes (`len` = number of bytes, `max = len+1`);
its block is the caller's receive buffer, assumed here to be at least three bytes
longer than the packet. -/
def packetToCache (hack : DwStr) (type : UInt8) (junk : List UInt8) : Res DwStr := do
  let ancount ← hack.fetchU16 6
  let nscount ← hack.fetchU16 8
  let arcount ← hack.fetchU16 10
  let offset ← hack.getDnEnd 12
  let out0 ← hack.substr (offset + 4 : Nat) (-1) 7 junk
  let out1 ← pushIgn ancount out0
  let out2 ← pushIgn nscount out1
  let out3 ← pushIgn arcount out2
  addcharIgn type out3

end DwStr

/-- Read one byte of a raw C buffer of known size. -/
def rawPeek (raw : List UInt8) (i : Nat) : Res UInt8 :=
  match raw[i]? with
  | some b => .ok b
  | none => .ub

/-- Inner loop of `dw_get_dname`, DwStr.c:811-823: `len` label bytes left; `acc`
is what has been written to the output so far (`soffset = acc.length - 1`).
Writing beyond the output block (`cap + 2` bytes) is undefined behaviour. -/
def dnameLabel (raw : List UInt8) (max cap : Nat) :
    (len offset : Nat) → (acc : List UInt8) → Res (Nat × List UInt8)
  | 0, offset, acc => .ok (offset, acc)
  | len + 1, offset, acc =>
    if (offset + 1 : Int) ≥ max - 2 ∨ acc.length > 255 then .err
    else if acc.length ≥ cap + 2 then .ub
    else do
      let x ← rawPeek raw (offset + 1)
      if x < 32 then .err
      else dnameLabel raw max cap len (offset + 1) (acc ++ [x])

/-- Outer loop of `dw_get_dname`, DwStr.c:797-826; `n` iterations left,
`soffset = acc.length`.  Returns the bytes of the name and the number of labels
(`counter`, DwStr.c:827-829). -/
def dnameLoop (raw : List UInt8) (max cap : Nat) :
    (n offset : Nat) → (acc : List UInt8) → Res (List UInt8 × Nat)
  | 0, _, _ => .ub
  | n + 1, offset, acc =>
    if (offset : Int) ≥ max - 2 ∨ acc.length > 255 then .err
    else if acc.length ≥ cap + 2 then .ub
    else do
      let len ← rawPeek raw offset
      if len > 63 then .err
      else if len = 0 then .ok (acc ++ [len], 400 - (n + 1))
      else do
        let (offset', acc') ← dnameLabel raw max cap len.toNat offset (acc ++ [len])
        dnameLoop raw max cap n (offset' + 1) acc'

/-- `dw_get_dname`, DwStr.c:781-837, on a buffer whose size is at least `max`.
The result is the contents of the new string.  Running through all 400
iterations would make the code return a string with a stale last byte; it is
reported as `ub` here and proved impossible (`soffset > 255` stops earlier). -/
def getDname (raw : List UInt8) (offset max : Nat) : Res (List UInt8 × Nat) :=
  let cap := if max > 260 then max else 260
  if 134217728 ≤ cap then .err
  else dnameLoop raw max cap 400 offset []

/-- `dw_get_dname_type`, DwStr.c:846-875. -/
def getDnameType (raw : List UInt8) (offset max : Nat) : Res (List UInt8) := do
  let (out, _) ← getDname raw offset max
  let o := offset + out.length
  let t0 ← rawPeek raw o
  let t1 ← rawPeek raw (o + 1)
  if t0 = 0xff ∧ t1 &&& 0xf0 = 0x70 then .err
  else if out.length + 1 ≥ (if max > 260 then max else 260) + 2 then .ub
  else .ok (out ++ [t0, t1])

end Dw
