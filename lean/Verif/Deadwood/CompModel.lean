import Verif.Deadwood.DnsStrModel
/-!
# Name compression and decompression

Source: `/repo/deadwood-github/src/DwCompress.c`.  `in` is the part of a DNS
message after the question, followed by seven bytes (three record counts and a
kind); `q` is the question (name and type, without class).
-/

namespace Dw
namespace DwStr

/-- `dw_fetch_u16` as a C number: the error is `-1`. -/
def fetchI (s : DwStr) (offset : Int) : Res Int :=
  match s.fetchU16 offset with
  | .ok v => .ok v
  | .err => .ok (-1)
  | .ub => .ub

/-- Append a substring and ignore both error returns (`dw_substr` returning null
makes `dw_append` fail). -/
def appendSub (s : DwStr) (offset amount : Int) (out : DwStr) (junk : List UInt8) : Res DwStr :=
  out.orElse (do
    let tmp ← s.substr offset amount 1 junk
    append tmp out)

/-- `dwc_decomp_offset`, DwCompress.c:36-64; the result is the C number
(`-1` error, `-2` and below question, `0` and above answer).  `offset` is
non-negative in all calls. -/
def decompOffset (s : DwStr) (offset : Nat) (qlen : Int) : Res Int :=
  if !s.sane then .ok (-1)
  else if offset > s.len then .ok (-1)
  else do
    let a ← s.peek offset
    if a < 64 then .ok offset
    else do
      let b ← s.peek (offset + 1)
      let v : Int := (a.toNat % 64 * 256 + b.toNat : Nat) - 12
      if v < qlen ∧ qlen > 0 then .ok (-2 - v)
      else
        let w := v - qlen - 2
        if w < 0 ∨ w > s.len then .ok (-1) else .ok w

/-- The loop of `dwc_decomp_dname`, DwCompress.c:110-154, with `dwc_finish_name`
(68-83): `n` rounds left.  The result is `t`, `*delta` and the output. -/
def decompLoop (inp q : DwStr) (junk : List UInt8) :
    (n : Nat) → (offset : Nat) → (t delta : Int) → (followed inQ : Bool) → DwStr →
    Res (Int × Int × DwStr)
  | 0, _, t, delta, _, _, out => .ok (t, delta, out)
  | n + 1, offset, t, delta, followed, inQ, out =>
    let s := if inQ then q else inp
    if offset + 1 > s.len then .err
    else do
      let len ← s.peek offset
      if 192 ≤ len then
        if inQ then .err
        else do
          let o ← inp.decompOffset offset q.len
          let t := if followed then t else (offset + 2 : Int)
          let delta := if followed then delta else -2
          if o = -1 then .err
          else if o < 0 then decompLoop inp q junk n (-2 - o).toNat t delta true true out
          else decompLoop inp q junk n o.toNat t delta true false out
      else if 63 < len then .err
      else if len = 0 then
        if !out.sane then .err
        else do
          let out ← out.orElse (addchar 0 out)
          .ok (if followed then t else (offset + 1 : Int), if followed then delta + 1 else delta, out)
      else do
        let out ← s.appendSub offset (len.toNat + 1 : Nat) out junk
        decompLoop inp q junk n (offset + (len.toNat + 1)) t
          (if followed then delta + (len.toNat + 1) else delta) followed inQ out

/-- `dwc_decomp_dname`, DwCompress.c:94-156; `err` is `-1`.  `*delta` is only
changed by the loop. -/
def decompDname (inp out q : DwStr) (delta : Int) (pos : Nat) (junk : List UInt8) :
    Res (Int × Int × DwStr) :=
  if !inp.sane || !out.sane || !q.sane then .err
  else decompLoop inp q junk 200 pos 0 delta false false out

/-- `dwc_type_desc`, DwCompress.c:172-200, unpacked: whether names are
compressed, bytes before the names, number of names, bytes after them; `none`
for `0`. -/
def typeDesc (type : Nat) : Option (Bool × Nat × Nat × Nat) :=
  if type = 15 then some (true, 2, 1, 0)
  else if type = 2 ∨ type = 12 ∨ type = 5 then some (true, 0, 1, 0)
  else if type = 6 then some (true, 0, 2, 20)
  else if type = 3 ∨ type = 4 ∨ type = 7 ∨ type = 8 ∨ type = 9 then some (false, 0, 1, 0)
  else if type = 14 ∨ type = 17 then some (false, 0, 2, 0)
  else if type = 18 ∨ type = 21 then some (false, 2, 1, 0)
  else if type = 33 then some (false, 6, 1, 0)
  else none

/-- The name loop of `dwc_decomp_rddata`, DwCompress.c:240-251. -/
def decompNames (inp q : DwStr) (rdo : Int) (junk : List UInt8) :
    (n : Nat) → (offset : Nat) → DwStr → Res (Nat × DwStr)
  | 0, offset, out => .ok (offset, out)
  | n + 1, offset, out => do
    let (t, delta, out) ← decompDname inp out q 0 offset junk
    if t < 0 then .err
    else do
      let rdlength ← out.fetchI rdo
      let out ← out.orElse (out.putU16 (u16 (rdlength + delta)) rdo)
      decompNames inp q rdo junk n t.toNat out

/-- `dwc_decomp_rddata`, DwCompress.c:211-270, for a non-zero description. -/
def decompRddata (lead names tail : Nat) (offset : Nat) (inp out q : DwStr) (junk : List UInt8) :
    Res (Nat × DwStr) :=
  if !inp.sane || !out.sane || !q.sane then .err
  else do
    let offset := offset + 10
    let rdo : Int := out.len - 2
    let out ← if lead > 0 then
        if inp.len < offset + lead then .err
        else do
          let tmp ← inp.substr offset lead 1 junk
          append tmp out
      else .ok out
    let (offset, out) ← decompNames inp q rdo junk names (offset + lead) out
    if tail > 0 then
      if inp.len < offset + tail then .err
      else do
        let out ← inp.appendSub offset tail out junk
        .ok (offset + tail, out)
    else .ok (offset, out)

/-- `dwc_decomp_rr`, DwCompress.c:279-333: the new offset, the output and the
stack of offsets. -/
def decompRr (inp out q stack : DwStr) (offset : Nat) (junk : List UInt8) :
    Res (Nat × DwStr × DwStr) :=
  if !inp.sane || !out.sane || !q.sane || !stack.sane then .err
  else do
    let stack ← stack.orElse (stack.pushU16 (out.len % 65536))
    let (t, _, out) ← decompDname inp out q 0 offset junk
    if t < 0 ∨ t > u32 ((inp.len : Int) - 7) then .err
    else do
      let offset := t.toNat
      let stack ← stack.orElse (stack.pushU16 (out.len % 65536))
      let val ← inp.fetchU16 offset
      let out ← inp.appendSub offset 10 out junk
      let rdlen ← inp.fetchI (offset + 8 : Nat)
      match typeDesc val with
      | none =>
        if (inp.len : Int) < offset + 10 + rdlen then .err
        else do
          let out ← inp.appendSub (offset + 10 : Nat) rdlen out junk
          .ok ((offset + 10 + rdlen).toNat, out, stack)
      | some (_, lead, names, tail) => do
        let (o, out) ← decompRddata lead names tail offset inp out q junk
        .ok (o, out, stack)

/-- The loop of `dwc_decompress`, DwCompress.c:358-363; `n` rounds left. -/
def decompAll (inp q : DwStr) (junk : List UInt8) :
    (n : Nat) → (offset : Nat) → (out stack : DwStr) → Res (DwStr × DwStr)
  | 0, _, out, stack => .ok (out, stack)
  | n + 1, offset, out, stack =>
    if offset < u32 ((inp.len : Int) - 7) then do
      let (o, out, stack) ← decompRr inp out q stack offset junk
      if o > u32 ((inp.len : Int) - 7) then .err
      else decompAll inp q junk n o out stack
    else .ok (out, stack)

/-- `dwc_decompress`, DwCompress.c:340-384; `err` is the null pointer. -/
def decompress (q inp : DwStr) (junk : List UInt8) : Res DwStr :=
  if !inp.sane || !q.sane then .err
  else do
    let out ← create 2048 junk
    let stack ← create 2048 junk
    let (out, stack) ← decompAll inp q junk 1000 0 out stack
    let out ← out.orElse (append stack out)
    inp.appendSub (-7) (-1) out junk

/-! ## Comparison -/

/-- The case folding of `dwc_label_same`, DwCompress.c:403-404. -/
def fold (c : UInt8) : UInt8 := if 65 ≤ c ∧ c ≤ 90 then c + 32 else c

/-- The loop of `dwc_label_same`, DwCompress.c:415-424, from `c` down to 1.  The
`noloop` limit of 128 is not reached because `c` is at most 64. -/
def labelLoop (a : DwStr) (ao : Nat) (b : DwStr) (bo : Nat) : Nat → Res Bool
  | 0 => .ok true
  | c + 1 => do
    let x ← a.peek (ao + (c + 1))
    let y ← b.peek (bo + (c + 1))
    if fold x ≠ fold y then .ok false else labelLoop a ao b bo c

/-- `dwc_label_same`, DwCompress.c:392-427 (`err` is `-1`). -/
def labelSame (a : DwStr) (ao : Nat) (b : DwStr) (bo : Nat) : Res Bool :=
  if !a.sane || !b.sane || decide (ao > a.len) || decide (bo > b.len) then .err
  else do
    let x ← a.peek ao
    let y ← b.peek bo
    if fold x ≠ fold y then .ok false
    else if x > 64 ∨ ao + x.toNat > a.len ∨ bo + x.toNat > b.len then .err
    else labelLoop a ao b bo x.toNat

/-- Anything but "same" is "not same" for the callers of `dwc_label_same` and
`dwc_dname_same` that test `== 1`. -/
def isYes : Res Bool → Res Bool
  | .ok b => .ok b
  | .err => .ok false
  | .ub => .ub

/-- Length of the question if there is one. -/
def qlen (q : Option DwStr) : Nat := match q with | some q => q.len | none => 0

/-- Following a pointer: the common start of the loops of `dwc_dname_same`
(DwCompress.c:456-469) and `dwc_in_bailiwick` (539-553).  `err` is the return
of `-1`. -/
def follow (c : DwStr) (q : Option DwStr) (place : Nat) (inQ : Bool) : Res (Nat × Bool) :=
  if inQ then .ok (place, true)
  else do
    let p ← c.decompOffset place (qlen q)
    if p = -1 ∨ (q = none ∧ p < 0) then .err
    else if p < 0 then .ok ((-2 - p).toNat, true)
    else .ok (p.toNat, false)

/-- The string a place is in: the question or the answer (`inQ` is only set with
a question). -/
def pick (c : DwStr) (q : Option DwStr) (inQ : Bool) : DwStr :=
  if inQ then q.getD c else c

/-- The loop of `dwc_dname_same`, DwCompress.c:454-491; `n` rounds left. -/
def dnameLoop (u c : DwStr) (q : Option DwStr) : (n uo place : Nat) → (inQ : Bool) → Res Bool
  | 0, _, _, _ => .err
  | n + 1, uo, place, inQ => do
    let (place, inQ) ← follow c q place inQ
    let s := pick c q inQ
    let same ← isYes (labelSame u uo s place)
    if !same then .ok false
    else do
      let len ← u.peek uo
      if len = 0 then .ok true
      else if 64 < len ∨ uo + len.toNat ≥ u.len then .err
      else if place + len.toNat ≥ s.len then .err
      else dnameLoop u c q n (uo + (len.toNat + 1)) (place + (len.toNat + 1)) inQ

/-- `dwc_dname_same`, DwCompress.c:441-493 (`err` is `-1`). -/
def dnameSame (u : DwStr) (uo : Nat) (c : DwStr) (co : Nat) (q : Option DwStr) : Res Bool :=
  if !u.sane || !c.sane || decide (uo > u.len) || decide (co > c.len) then .err
  else dnameLoop u c q 300 uo co false

/-- Where `dwc_in_bailiwick` found the name: in the answer or in the question. -/
inductive Found where
  | no
  | answer (place : Nat)
  | question (place : Nat)
deriving Repr, DecidableEq

/-- The loop of `dwc_in_bailiwick`, DwCompress.c:538-580; `n` rounds left. -/
def bailiwickLoop (b : DwStr) (bo : Nat) (h : DwStr) (q : Option DwStr) :
    (n place : Nat) → (inQ : Bool) → Res Found
  | 0, _, _ => .err
  | n + 1, place, inQ => do
    let (place, inQ) ← follow h q place inQ
    let s := pick h q inQ
    let same ← isYes (dnameSame b bo s place q)
    if same then .ok (if inQ then .question place else .answer place)
    else do
      let len ← s.peek place
      if len.toNat + place + 1 > s.len then .err
      else if len = 0 then .ok .no
      else bailiwickLoop b bo h q n (place + (len.toNat + 1)) inQ

/-- `dwc_in_bailiwick`, DwCompress.c:528-582. -/
def inBailiwick (b : DwStr) (bo : Nat) (h : DwStr) (ho : Nat) (q : Option DwStr) : Res Found :=
  if !b.sane || !h.sane || decide (bo > b.len) || decide (ho > h.len) then .err
  else bailiwickLoop b bo h q 300 ho false

/-! ## Compression -/

/-- The loop of `dwc_push_offsets`, DwCompress.c:602-621; `n` rounds left. -/
def pushOffsetsLoop (dns : DwStr) (offset : Nat) : (n place : Nat) → DwStr → Res DwStr
  | 0, _, stack => .ok stack
  | n + 1, place, stack =>
    if place > dns.len then .err
    else do
      let len ← dns.peek place
      if 192 ≤ len ∨ len = 0 then .ok stack
      else if 64 ≤ len then .err
      else if place ≥ 0x3fff ∨ place + offset > 0xffff then .err
      else do
        let stack ← stack.pushU16 (place + offset)
        pushOffsetsLoop dns offset n (place + (len.toNat + 1)) stack

/-- `dwc_push_offsets`, DwCompress.c:594-623. -/
def pushOffsets (dns : DwStr) (place : Nat) (stack : DwStr) (offset : Nat) : Res DwStr :=
  if !dns.sane || !stack.sane then .err else pushOffsetsLoop dns offset 300 place stack

/-- The loop of `dwc_seek_comp_pointer`, DwCompress.c:653-673; `n` rounds left.
`none` is `-2` (not found). -/
def seekLoop (u : DwStr) (uo : Nat) (c q s : DwStr) : (n so : Nat) → Res (Option Nat)
  | 0, _ => .ok none
  | n + 1, so =>
    if so < s.len then do
      let off ← s.fetchU16 so
      let o := off % 16384
      if off ≥ 32768 then do
        let same ← isYes (dnameSame u uo q o none)
        if same then .ok (some (12 + o)) else seekLoop u uo c q s n (so + 2)
      else do
        let same ← isYes (dnameSame u uo c o (some q))
        if same then .ok (some (12 + q.len + 2 + o)) else seekLoop u uo c q s n (so + 2)
    else .ok none

/-- `dwc_seek_comp_pointer`, DwCompress.c:640-676. -/
def seekCompPointer (u : DwStr) (uo : Nat) (c q s : DwStr) : Res (Option Nat) :=
  if !u.sane || !c.sane || decide (uo > u.len) then .err
  else seekLoop u uo c q s 1000 0

/-- The loop of `dwc_compress_dlabels`, DwCompress.c:708-747, for one name; `n`
rounds left.  The result is the end of the name, the output and the stack. -/
def compressName (u q : DwStr) (junk : List UInt8) :
    (n uo : Nat) → (c s : DwStr) → Res (Nat × DwStr × DwStr)
  | 0, _, _, _ => .err
  | n + 1, uo, c, s => do
    let point ← seekCompPointer u uo c q s
    match point with
    | some p => do
      let c ← c.pushU16 (p % 16384 + 49152)
      let e ← u.getDnEnd uo
      .ok (e, c, s)
    | none => do
      let len ← u.peek uo
      if 63 < len then .err
      else if len = 0 then do
        let c ← c.orElse (addchar 0 c)
        .ok (uo + 1, c, s)
      else do
        let s ← s.pushU16 (c.len % 65536)
        let tmp ← u.substr uo (len.toNat + 1 : Nat) 1 junk
        let c ← c.orElse (append tmp c)
        compressName u q junk n (uo + (len.toNat + 1)) c s

/-- `dwc_compress_dlabels`, DwCompress.c:691-750.  The recursion depth `d` is at
most the number of names, which is at most 2, so the limit of 20 is left out. -/
def compressDlabels (u q : DwStr) (junk : List UInt8) :
    (num uo : Nat) → (c s : DwStr) → Res (Nat × DwStr × DwStr)
  | 0, uo, c, s =>
    if !u.sane || !c.sane || !s.sane || decide (uo > u.len) then .err else .ok (uo, c, s)
  | num + 1, uo, c, s =>
    if !u.sane || !c.sane || !s.sane || decide (uo > u.len) then .err
    else do
      let (uo, c, s) ← compressName u q junk 300 uo c s
      compressDlabels u q junk num uo c s

/-- `dwc_comp_rddata`, DwCompress.c:761-806. -/
def compRddata (lead names tail : Nat) (u : DwStr) (offset : Nat) (c s q : DwStr)
    (junk : List UInt8) : Res (Nat × DwStr × DwStr) :=
  if !u.sane || !c.sane || !s.sane || decide (offset > u.len) then .err
  else do
    let c ← if lead > 0 then do
        let tmp ← u.substr offset lead 1 junk
        append tmp c
      else .ok c
    let (offset, c, s) ← compressDlabels u q junk names (offset + lead) c s
    if tail > 0 then do
      let tmp ← u.substr offset tail 1 junk
      let c ← append tmp c
      .ok (offset + tail, c, s)
    else .ok (offset, c, s)

/-- `dwc_compress_rr`, DwCompress.c:821-876.  The length update that the code
also makes when `dwc_comp_rddata` fails is left out: the output is then
discarded. -/
def compressRr (o : Nat × Nat) (u c q s : DwStr) (junk : List UInt8) : Res (DwStr × DwStr) :=
  if !u.sane || !c.sane || !q.sane || !s.sane then .err
  else if o.1 > u.len ∨ o.2 > u.len ∨ o.1 > o.2 then .err
  else do
    let (offset, c, s) ← compressDlabels u q junk 1 o.1 c s
    if offset ≠ o.2 then .err
    else do
      let tmp ← u.substr offset 10 1 junk
      let c ← c.orElse (append tmp c)
      let type ← u.fetchI offset
      match (if type < 0 then none else typeDesc type.toNat) with
      | some (true, lead, names, tail) => do
        let rdold := c.len
        let (_, c, s) ← compRddata lead names tail u (offset + 10) c s q junk
        let c ← c.orElse (c.putU16 ((c.len - rdold) % 65536) ((rdold : Int) - 2))
        .ok (c, s)
      | _ => do
        let len ← u.fetchI (offset + 8 : Nat)
        let tmp ← u.substr (offset + 10 : Nat) len 1 junk
        let c ← append tmp c
        .ok (c, s)

/-- One section of `dwc_compress_all_rrs`, DwCompress.c:880-913. -/
def compressRrs (u q : DwStr) (junk : List UInt8) :
    List (Nat × Nat) → (c s : DwStr) → Res (DwStr × DwStr)
  | [], c, s => .ok (c, s)
  | o :: os, c, s => do
    let (c, s) ← compressRr o u c q s junk
    compressRrs u q junk os c s

/-- `dwc_compress`, DwCompress.c:917-963. -/
def compress (q inp : DwStr) (junk : List UInt8) : Res DwStr :=
  if !q.sane || !inp.sane then .err
  else do
    let stack ← create 1024 junk
    let out ← create 515 junk
    let stack ← pushOffsets q 0 stack 0x8000
    let look ← inp.makeDnsStr junk
    let (out, _) ← compressRrs inp q junk (look.an ++ look.ns ++ look.ar) out stack
    let out ← out.orElse (out.pushU16 look.an.length)
    let out ← out.orElse (out.pushU16 look.ns.length)
    let out ← out.orElse (out.pushU16 look.ar.length)
    out.orElse (addchar look.type out)

end DwStr
end Dw
