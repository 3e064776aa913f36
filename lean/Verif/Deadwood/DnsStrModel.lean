import Verif.Deadwood.Str2Model
/-!
# Cached answers ("DNS strings")

Source: `/repo/deadwood-github/src/DwDnsStr.c`.  A cached answer is a string
holding the uncompressed records, then for every record two 16-bit offsets
(start of the record, start of its type field), then the three record counts and
one type byte.
-/

namespace Dw

/-- `dns_string`, DwDnsStr.h:26-35.  Each list holds the pairs
`an[2*i], an[2*i+1]`; `packet` is a copy of the whole string. -/
structure DnsStr where
  packet : DwStr
  an : List (Nat × Nat)
  ns : List (Nat × Nat)
  ar : List (Nat × Nat)
  type : UInt8

namespace DwStr

/-- `dw_fetch_u16` stored in a `uint16_t`: the error value `-1` becomes 65535. -/
def fetchCell (s : DwStr) (offset : Int) : Res Nat :=
  match s.fetchU16 offset with
  | .ok v => .ok v
  | .err => .ok 65535
  | .ub => .ub

/-- `dwc_place_offsets`, DwDnsStr.c:121-143: `n` pairs are left to be read
backwards from `offset`; `acc` holds the pairs read so far. -/
def placeOffsets (s : DwStr) : (n : Nat) → (offset : Int) → List (Nat × Nat) →
    Res (Int × List (Nat × Nat))
  | 0, offset, acc => .ok (offset, acc)
  | n + 1, offset, acc => do
    let offset := offset - 2
    if offset < 0 then .err
    else do
      let b ← s.fetchCell offset
      let offset := offset - 2
      if offset < 0 then .err
      else do
        let a ← s.fetchCell offset
        placeOffsets s n offset ((a, b) :: acc)

/-- `dwc_make_dns_str`, DwDnsStr.c:146-198 (`dwc_init_dns_str`, 33-97, only
allocates and clears: allocation failure is not modelled, and the counts are
never negative because `offset >= 7` makes the three fetches succeed). -/
def makeDnsStr (s : DwStr) (junk : List UInt8) : Res DnsStr :=
  if !s.sane then .err
  else
    let offset : Int := s.len - 1
    if offset < 7 then .err
    else do
      let type ← s.peek offset.toNat
      if type ≠ 0 ∧ type ≠ 1 ∧ type ≠ 2 then .err
      else do
        let arcount ← s.fetchU16 (offset - 2)
        let nscount ← s.fetchU16 (offset - 4)
        let ancount ← s.fetchU16 (offset - 6)
        let packet ← s.copy junk
        let (o1, ar) ← s.placeOffsets arcount (offset - 6) []
        let (o2, ns) ← s.placeOffsets nscount o1 []
        let (_, an) ← s.placeOffsets ancount o2 []
        .ok { packet := packet, an := an, ns := ns, ar := ar, type := type }

/-- `dwc_get_type`, DwDnsStr.c:253-279, for an offset in the list; 65393 is the
error value. -/
def getType (packet : DwStr) (cell : Nat × Nat) : Res Nat :=
  if packet.len < cell.2 then .ok 65393
  else match packet.fetchU16 cell.2 with
    | .ok v => if 65392 ≤ v ∧ v ≤ 65407 then .ok 65393 else .ok v
    | .err => .ok 65393
    | .ub => .ub

/-- The loop of `dwc_rr_find`, DwDnsStr.c:293-298: the index after the last
record looked at. -/
def rrFindLoop (packet : DwStr) : List (Nat × Nat) → (rr : Nat) → Res Nat
  | [], rr => .ok rr
  | c :: cs, rr => do
    let t ← packet.getType c
    if t = 65393 then .err
    else if t = 5 then rrFindLoop packet cs (rr + 1)
    else .ok (rr + 1)

/-- `dwc_rr_find`, DwDnsStr.c:282-304 (`err` is `-1`, also for no answers). -/
def rrFind (look : DnsStr) : Res Nat := do
  let rr ← rrFindLoop look.packet look.an 0
  if rr = 0 then .err else .ok (rr - 1)

/-- Ignore the error return of a call that updates a string. -/
def orElse (s : DwStr) : Res DwStr → Res DwStr
  | .ok t => .ok t
  | .err => .ok s
  | .ub => .ub

/-- Conversion of a C `int` to the `uint16_t` parameter of `dw_put_u16`. -/
def u16 (i : Int) : Nat := (i % 65536).toNat

/-- The loop of `dwc_rotate_offsets`, DwDnsStr.c:339-347; `n` rounds left,
`t` is `this_rr`. -/
def rotateLoop (tbl : Nat) (startLen : Int) : (n t : Nat) → DwStr → Res DwStr
  | 0, _, s => .ok s
  | n + 1, t, s => do
    let next ← s.fetchU16 (tbl + (t + 1) * 4 : Nat)
    let nextB ← s.fetchU16 (tbl + 2 + (t + 1) * 4 : Nat)
    let s1 ← s.orElse (s.putU16 (u16 (next - startLen)) (tbl + t * 4 : Nat))
    let s2 ← s1.orElse (s1.putU16 (u16 (nextB - startLen)) (tbl + 2 + t * 4 : Nat))
    rotateLoop tbl startLen n (t + 1) s2

/-- `dwc_rotate_offsets`, DwDnsStr.c:313-355, for `first < last` (its only
caller).  `start_len`, computed in the first round of the loop, is computed
before it.  `tbl` is the C parameter `end`.  The fetches are inside the string
when the size test passes, so their error value is not modelled. -/
def rotateOffsets (s : DwStr) (tbl first last : Nat) : Res DwStr :=
  if first + 1 = last then .ok s
  else if (tbl : Int) + last * 4 ≠ s.len - 7 then .err
  else do
    let start ← s.fetchU16 (tbl + first * 4 : Nat)
    let startB ← s.fetchU16 (tbl + 2 + first * 4 : Nat)
    let next ← s.fetchU16 (tbl + (first + 1) * 4 : Nat)
    let startLen : Int := next - start
    let s1 ← rotateLoop tbl startLen (last - 1 - first) first s
    let lastAt : Int := tbl - startLen
    let s2 ← s1.orElse (s1.putU16 (u16 lastAt) (tbl + (last - 1) * 4 : Nat))
    s2.orElse (s2.putU16 (u16 (lastAt + (startB - start))) (tbl + 2 + (last - 1) * 4 : Nat))

/-- Where the answers end: DwDnsStr.c:402-412. -/
def answersEnd (len : Int) (ancount : Nat) : (ns ar : List (Nat × Nat)) → Int
  | [], [] => len - 7 - ancount * 4
  | c :: _, _ => c.1
  | [], c :: _ => c.1

/-- `dwc_rr_rotate`, DwDnsStr.c:370-436, with null `out_start` and `out_end`.
`err` is the return value -1 (the callers then drop the string, which may have
been half rotated). -/
def rrRotate (s : DwStr) (junk : List UInt8) : Res DwStr := do
  let look ← s.makeDnsStr junk
  if look.an.length = 0 then .err
  else do
    let rr ← rrFind look
    if look.an.length ≤ rr + 1 then .err
    else do
      let start := (look.an.getD rr (0, 0)).1
      let pivot := (look.an.getD (rr + 1) (0, 0)).1
      let fin := answersEnd s.len look.an.length look.ns look.ar
      if fin < 0 then .err
      else do
        let s1 ← s.rotate start pivot fin.toNat junk
        let tbl : Int := s1.len - 7 - (look.an.length + look.ns.length + look.ar.length : Nat) * 4
        rotateOffsets s1 tbl.toNat rr look.an.length

/-- `dwc_rr_rotate` with non-null `out_start` and `out_end`: where the answers
begin and end. -/
def rrExtent (s : DwStr) (junk : List UInt8) : Res (Nat × Nat) := do
  let look ← s.makeDnsStr junk
  if look.an.length = 0 then .err
  else
    let start := (look.an.getD 0 (0, 0)).1
    let fin := answersEnd s.len look.an.length look.ns look.ar
    if fin < 0 then .err else .ok (start, fin.toNat)

/-- The loop of `dwc_ttl_age`, DwDnsStr.c:463-466. -/
def ageLoop (left right : Nat) : List (Nat × Nat) → DwStr → Res DwStr
  | [], s => .ok s
  | c :: cs, s => do
    let s1 ← s.orElse (s.putU16 left (c.2 + 4 : Nat))
    let s2 ← s1.orElse (s1.putU16 right (c.2 + 6 : Nat))
    ageLoop left right cs s2

/-- `dwc_ttl_age`, DwDnsStr.c:439-476; `ttl` is non-negative or -1
(`dwh_get_ttl`). -/
def ttlAge (s : DwStr) (ttl : Int) (junk : List UInt8) : Res DwStr :=
  if ttl = -1 then .err
  else do
    let look ← s.makeDnsStr junk
    let t : Nat := if ttl < 5 then 5 else ttl.toNat
    ageLoop (t / 65536 % 32768) (t % 65536) look.an s

/-- The private ranges of `dwc_check_ip`, DwDnsStr.c:546-572, on the 32-bit
number made of the four bytes. -/
def privateIp (ipc : Nat) : Bool :=
  (ipc / 65536 == 0xc0a8) || (ipc / 1048576 == 0xac1) || (ipc / 16777216 == 0x0a) ||
  (ipc / 16777216 == 0x7f) || (ipc / 65536 == 0xa9fe) || (ipc / 16777216 == 0xe0) ||
  (ipc / 65536 == 0)

/-- `dwc_check_ip`, DwDnsStr.c:535-585; `filter` is `filter_rfc1918 == 1`,
`blocked` is membership in the block list (`dwd_fetch(..) != 0`, see
`Dw.dict_is_map`); a null block list is the constant `false`. -/
def checkIp (filter : Bool) (blocked : List UInt8 → Bool) (ip : DwStr) : Res Bool :=
  if ip.len = 4 ∧ filter = true then do
    let a ← ip.peek 0
    let b ← ip.peek 1
    let c ← ip.peek 2
    let d ← ip.peek 3
    if privateIp (a.toNat * 16777216 + b.toNat * 65536 + c.toNat * 256 + d.toNat) then .ok true
    else .ok (blocked ip.contents)
  else .ok (blocked ip.contents)

/-- The loop of `dwc_has_bad_ip`, DwDnsStr.c:605-634.  `dw_substr` failing
gives the null pointer, which `dwc_check_ip` accepts. -/
def badIpLoop (filter : Bool) (blocked : List UInt8 → Bool) (answer : DwStr) (junk : List UInt8) :
    List (Nat × Nat) → Res Bool
  | [] => .ok false
  | c :: cs => do
    let type ← match answer.fetchU16 c.2 with
      | .ok v => Res.ok (v : Int)
      | .err => Res.ok (-1)
      | .ub => Res.ub
    let n : Nat := if type = 1 then 4 else if type = 28 then 16 else 0
    if n = 0 then badIpLoop filter blocked answer junk cs
    else do
      let bad ← match answer.substr (c.2 + 10 : Nat) n 1 junk with
        | .ok ip => checkIp filter blocked ip
        | .err => Res.ok false
        | .ub => Res.ub
      if bad then .ok true else badIpLoop filter blocked answer junk cs

/-- `dwc_has_bad_ip`, DwDnsStr.c:590-640. -/
def hasBadIp (filter : Bool) (blocked : List UInt8 → Bool) (answer : DwStr) (junk : List UInt8) :
    Res Bool :=
  match answer.makeDnsStr junk with
  | .ok look => badIpLoop filter blocked answer junk look.an
  | .err => .ok false
  | .ub => .ub

/-- The loop of `dwc_lower_case`, DwDnsStr.c:652-664; `n` rounds left. -/
def lowerLoop : (n counter place : Nat) → DwStr → Res DwStr
  | 0, _, _, s => .ok s
  | n + 1, counter, place, s =>
    if counter = place then do
      let length ← s.peek place
      if length = 0 then .ok s
      else lowerLoop n (counter + 1) (place + (length.toNat + 1)) s
    else do
      let c ← s.peek counter
      if 65 ≤ c.toNat ∧ c.toNat ≤ 90 then do
        let s1 ← s.poke counter (c + 32)
        lowerLoop n (counter + 1) place s1
      else lowerLoop n (counter + 1) place s

/-- `dwc_lower_case`, DwDnsStr.c:644-668. -/
def lowerCase (s : DwStr) : Res DwStr :=
  if s.len = 0 then .err else lowerLoop s.len 0 0 s

end DwStr
end Dw
