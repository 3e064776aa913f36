import Verif.Deadwood.DnsStrModel
/-!
# What is believed of a reply

Source: `/repo/deadwood-github/src/DwRecurse.c` (`dwx_dissect_packet` and what it calls,
`dwx_handle_ns_refer`, `dwx_handle_cname_refer` and `dwx_cache_reply` as far as they decide what is
put in the cache).  The strings are those made by `dwc_decompress`: see DnsStrModel.lean.

The marks of records (`an_types`, `ns_types`, `ar_types`) are the numbers of DwRecurse.h:46-67:
31 RRX_INFINITY, 32 RRX_GLUELESS_NS, 33 RRX_A_GLUE_NS, 34 RRX_AAAA_GLUE_NS, 36 RRX_IGNORE,
37 RRX_OOB_NS, 38 RRX_ANSWER_IN_AR, 64-79 AAAA glue, 80-95 A glue; GLUE_RANGE is 15.
-/

namespace Dw
namespace Dissect

open DwStr

/-- Lower case of one byte, DwRecurse.c:201-204. -/
def low (c : UInt8) : UInt8 := if 65 ≤ c.toNat ∧ c.toNat ≤ 90 then c + 32 else c

/-- The inner loop of `dwx_dname_issame`, DwRecurse.c:192-208, with `n` rounds of `len >= 0` left.
`none` is a return with 0 or -1, otherwise the new `counter`, `p1` and `p2`. -/
def labelLoop (a b : DwStr) : (n counter p1 p2 : Nat) → Res (Option (Nat × Nat × Nat))
  | 0, counter, p1, p2 => .ok (some (counter, p1, p2))
  | n + 1, counter, p1, p2 =>
    if 260 ≤ counter then .ok (some (counter, p1, p2))
    else if p1 + 1 > a.len ∨ p2 + 1 > b.len then .ok none
    else do
      let x ← a.peek (p1 + 1)
      let y ← b.peek (p2 + 1)
      if low x ≠ low y then .ok none else labelLoop a b n (counter + 1) (p1 + 1) (p2 + 1)

/-- The outer loop of `dwx_dname_issame`, DwRecurse.c:174-211; `n` bounds the number of rounds (each
adds to `counter`, so 260 are enough).  The result is whether the function returns 1: no caller
tells 0 and -1 apart. -/
def nameLoop (a b : DwStr) : (n counter p1 p2 : Nat) → Res Bool
  | 0, _, _, _ => .ok false
  | n + 1, counter, p1, p2 =>
    if 260 ≤ counter then .ok false
    else do
      let x ← a.peek p1
      let y ← b.peek p2
      if x ≠ y then .ok false
      else if x.toNat > 63 then .ok false
      else if x = 0 then .ok true
      else do
        let r ← labelLoop a b (x.toNat + 1) counter p1 p2
        match r with
        | none => .ok false
        | some (counter, p1, p2) => nameLoop a b n (counter + 1) p1 p2

/-- `dwx_dname_issame_2dw`, DwRecurse.c:233-249, and with the same string twice
`dwx_dname_issame_dw`, DwRecurse.c:215-229. -/
def isSame (a : DwStr) (o1 : Nat) (b : DwStr) (o2 : Nat) : Res Bool :=
  if !a.sane ∨ !b.sane ∨ o1 > a.len ∨ o2 > b.len then .ok false else nameLoop a b 261 0 o1 o2

/-- A fetch whose error value -1 is used as a number. -/
def fetchI (s : DwStr) (o : Int) : Res Int :=
  match s.fetchU16 o with
  | .ok v => .ok v
  | .err => .ok (-1)
  | .ub => .ub

/-- `dwx_rrtype_number`, DwRecurse.c:276-291 (the tests of the constants always pass). -/
def rrNumber (rr : Int) : Int := if rr < 1 then -1 else if rr ≥ 30 then 31 else rr

/-- `dns_details`, DwRecurse.h:90-95: the string taken apart, and one mark for every record. -/
structure View where
  look : DnsStr
  an : List Int
  ns : List Int
  ar : List Int

/-- One of the loops of `dwx_create_dns_details`, DwRecurse.c:369-380. -/
def marks (inp : DwStr) : List (Nat × Nat) → Res (List Int)
  | [] => .ok []
  | c :: cs => do
    let t ← fetchI inp c.2
    let l ← marks inp cs
    .ok (rrNumber t :: l)

/-- `dwx_create_dns_details`, DwRecurse.c:351-392, with `dwx_init_dns_details`, 294-317. -/
def details (inp : DwStr) (junk : List UInt8) : Res View := do
  let look ← inp.makeDnsStr junk
  let an ← marks inp look.an
  let ns ← marks inp look.ns
  let ar ← marks inp look.ar
  .ok ⟨look, an, ns, ar⟩

/-- Where the data of the record with number `i` begins (10: TYPE, CLASS, TTL, RDLENGTH). -/
def dataOf (cells : List (Nat × Nat)) (i : Int) : Nat := (cells.getD i.toNat (0, 0)).2 + 10

/-- The loop of `dwx_string_bailiwick_query`, DwRecurse.c:716-738. -/
def queryLoop (inp : DwStr) (o : Nat) (query : DwStr) : (n q : Nat) → Res Bool
  | 0, _ => .ok false
  | n + 1, q => do
    let len ← query.peek q
    if len = 0 then .ok false
    else if len.toNat > 63 then .ok false
    else
      let q := q + len.toNat + 1
      if q ≥ query.len then .ok false
      else do
        let s ← isSame inp o query q
        if s then .ok true else queryLoop inp o query n q

/-- `dwx_string_bailiwick_query`, DwRecurse.c:695-741. -/
def bailiwickQuery (inp : DwStr) (o : Nat) (query : DwStr) : Res Bool :=
  if query.len ≤ 2 then .ok false
  else do
    let s ← isSame inp o query 0
    if s then .ok true else queryLoop inp o query 1024 0

/-- The loop of `dwx_string_bailiwick_top`, DwRecurse.c:758-777. -/
def topLoop (inp b : DwStr) : (n o : Nat) → Res Bool
  | 0, _ => .ok false
  | n + 1, o => do
    let len ← inp.peek o
    if len = 0 then .ok false
    else if len.toNat > 63 then .ok false
    else
      let o := o + len.toNat + 1
      if o ≥ inp.len then .ok false
      else do
        let s ← isSame inp o b 0
        if s then .ok true else topLoop inp b n o

/-- `dwx_string_bailiwick_top`, DwRecurse.c:745-780. -/
def bailiwickTop (inp : DwStr) (o : Nat) (b : DwStr) : Res Bool :=
  if o ≥ inp.len then .ok false else topLoop inp b 1024 o

/-- `dwx_string_in_bailiwick`, DwRecurse.c:782-794. -/
def inBailiwick (inp : DwStr) (o : Nat) (b : DwStr) (query : Option DwStr) : Res Bool := do
  let q ← match query with
    | none => Res.ok true
    | some query => bailiwickQuery inp o query
  if !q then .ok false else bailiwickTop inp o b

/-- Whether the name at `o` is the one the last CNAME of the chain points to, DwRecurse.c:425-429, 520-523
and 536-539 (evaluated there only when `cname_chain > 0`). -/
def isNext (inp : DwStr) (an : List (Nat × Nat)) (chain : Int) (o : Nat) : Res Bool :=
  if chain > 0 then isSame inp (dataOf an (chain - 1)) inp o else .ok false

/-- The loop of `dwx_check_answer_section_any`, DwRecurse.c:407-445; `i` is `counter >> 1`. -/
def anyLoop (inp query : DwStr) (an : List (Nat × Nat)) :
    List ((Nat × Nat) × Int) → (i chain : Nat) → (use : Bool) → Res (List Int)
  | [], _, _, _ => .ok []
  | (c, m) :: rest, i, chain, use => do
    let mine ← isSame query 0 inp c.1
    let t ← fetchI inp c.2
    let next ← isNext inp an chain c.1
    if mine ∧ t ≠ 5 then do
      let l ← anyLoop inp query an rest (i + 1) chain false
      .ok (m :: l)
    else if chain = 0 ∧ i = chain ∧ use ∧ mine ∧ t = 5 then do
      let l ← anyLoop inp query an rest (i + 1) (chain + 1) use
      .ok (m :: l)
    else if chain > 0 ∧ i = chain ∧ use ∧ next ∧ t = 5 then do
      let l ← anyLoop inp query an rest (i + 1) (chain + 1) use
      .ok (m :: l)
    else if chain > 0 ∧ next ∧ t ≠ 5 then do
      let l ← anyLoop inp query an rest (i + 1) chain false
      .ok (m :: l)
    else do
      let l ← anyLoop inp query an rest (i + 1) chain use
      .ok (36 :: l)

/-- The loop of `dwx_check_answer_section`, DwRecurse.c:484-551.  `chain` is `cname_chain`, `use` is
`use_cname`, `off` is `offset`. -/
def answerLoop (inp query b : DwStr) (qtype : Int) (an : List (Nat × Nat)) :
    List ((Nat × Nat) × Int) → (chain : Int) → (use : Bool) → (off : Int) → Res (List Int)
  | [], _, _, _ => .ok []
  | (c, m) :: rest, chain, use, off => do
    let mine ← isSame query 0 inp c.1
    let t ← fetchI inp c.2
    let next ← isNext inp an chain c.1
    if mine ∧ off ≥ 0 ∧ t = qtype then do
      let l ← answerLoop inp query b qtype an rest chain false (off + 1)
      .ok (m :: l)
    else if chain = 0 ∧ qtype ≠ 5 ∧ off = chain ∧ use ∧ mine ∧ t = 5 then do
      let inside ← inBailiwick inp (dataOf an 0) b none
      let l ← answerLoop inp query b qtype an rest (if inside then chain + 1 else -1) (inside && use)
        (if inside then off + 1 else -2)
      .ok (m :: l)
    else if chain > 0 ∧ qtype ≠ 5 ∧ off = chain ∧ use ∧ next ∧ t = 5 then do
      let inside ← inBailiwick inp (dataOf an chain) b none
      let l ← answerLoop inp query b qtype an rest (if inside then chain + 1 else -1) (inside && use)
        (if inside then off + 1 else -2)
      .ok (m :: l)
    else if chain > 0 ∧ qtype ≠ 5 ∧ next ∧ t = qtype then do
      let l ← answerLoop inp query b qtype an rest chain false (off + 1)
      .ok (m :: l)
    else do
      let l ← answerLoop inp query b qtype an rest chain use off
      .ok (36 :: l)

/-- `dwx_check_answer_section`, DwRecurse.c:468-555, with `dwx_check_answer_section_any`, 396-448. -/
def checkAnswers (inp query b : DwStr) (v : View) : Res View := do
  let qtype ← query.fetchU16 (-1)
  if qtype = 255 then do
    let l ← anyLoop inp query v.look.an (v.look.an.zip v.an) 0 0 true
    .ok { v with an := l }
  else do
    let l ← answerLoop inp query b qtype v.look.an (v.look.an.zip v.an) 0 true 0
    .ok { v with an := l }

/-- `dwx_if_an_then_no_ns_nor_ar`, DwRecurse.c:557-578. -/
def noOthers (v : View) : View :=
  if v.look.an.length = 0 then v
  else { v with ns := v.ns.map fun _ => 36, ar := v.ar.map fun _ => 36 }

/-- `dwx_cleanup_ns_ar`, DwRecurse.c:582-603. -/
def cleanup (v : View) : View :=
  { v with
    ns := v.ns.map fun t => if t ≠ 2 ∧ t ≠ 6 then 36 else t
    ar := v.ar.map fun t => if t ≠ 1 ∧ t ≠ 28 then 36 else t }

/-- What `dwx_determine_answer_type` makes of the answers, DwRecurse.c:1482-1512, from the first CNAME
on: `l` are the marks after it, up to the 32nd. -/
def afterCname (qtype : Int) : List Int → Nat
  | [] => 17
  | t :: l =>
    if t = rrNumber qtype ∨ (qtype = 255 ∧ t ≠ 5) then 0
    else if t ≠ 5 ∧ t ≠ 36 then 19
    else afterCname qtype l

/-- The loop of `dwx_determine_answer_type` over the answers, DwRecurse.c:1482-1517: at most `n`
(7) records are looked at, `left` (32) is how many marks the inner loop may see.  `none` is the end of
the loop without a return. -/
def kindLoop (qtype : Int) : (n left : Nat) → List Int → Option Nat
  | 0, _, _ => none
  | _, _, [] => none
  | n + 1, left, t :: l =>
    if t = rrNumber qtype ∨ (qtype = 255 ∧ t ≠ 5) then some 0
    else if t = 5 then some (afterCname qtype (l.take (left - 1)))
    else if t ≠ 36 then some 19
    else kindLoop qtype n (left - 1) l

/-- The search for an answer among the additional records, DwRecurse.c:1525-1534: the number of the
first one that has the name and type asked for. -/
def arFind (inp query : DwStr) (qtype : Int) : List (Nat × Nat) → Nat → Res (Option Nat)
  | [], _ => .ok none
  | c :: cs, i => do
    let s ← isSame query 0 inp c.1
    let t ← fetchI inp c.2
    if s ∧ t = qtype then .ok (some i) else arFind inp query qtype cs (i + 1)

/-- `dwx_determine_answer_type`, DwRecurse.c:1459-1541.  The mark of the first authority record is 0
if there is none (`dwx_init_dns_details`, 313).  The results are the TYPE_ numbers of
DwRecurse.h:70-82. -/
def answerKind (inp query : DwStr) (v : View) : Res (Nat × View) := do
  let qtype ← query.fetchU16 (-1)
  match (if v.look.an.length > 0 then kindLoop qtype 7 32 v.an else none) with
  | some k => .ok (k, v)
  | none =>
    let first := v.ns.headD 0
    if first = 6 then .ok (2, v)
    else if first = 2 then do
      let r ← arFind inp query qtype v.look.ar 0
      match r with
      | some i => .ok (23, { v with ar := v.ar.set i 38 })
      | none => .ok (16, v)
    else .ok (19, v)

/-- The loop of `dwx_check_bailiwick_ns_section`, DwRecurse.c:828-834: `n` records are checked. -/
def bailiwickLoop (packet query b : DwStr) : (n : Nat) → List ((Nat × Nat) × Int) → Res (List Int)
  | 0, l => .ok (l.map (·.2))
  | _, [] => .ok []
  | n + 1, (c, m) :: rest => do
    let ok ← inBailiwick packet c.1 b (some query)
    let l ← bailiwickLoop packet query b n rest
    .ok ((if ok then m else 37) :: l)

/-- `dwx_check_bailiwick_ns_section`, DwRecurse.c:803-837. -/
def checkBailiwick (query b : DwStr) (v : View) : Res View := do
  let l ← bailiwickLoop v.look.packet query b 15 (v.look.ns.zip v.ns)
  .ok { v with ns := l }

/-- `dwx_make_link`, DwRecurse.c:841-867, for an authority record with a number up to GLUE_RANGE: the
new marks of the authority record and of the additional record. -/
def link (ns : Nat) (nsMark arMark : Int) : Int × Int :=
  let nsMark :=
    if arMark = 1 ∨ (80 ≤ arMark ∧ arMark ≤ 95) then ((nsMark.toNat ||| 33 : Nat) : Int)
    else if arMark = 28 ∨ (64 ≤ arMark ∧ arMark ≤ 79) then ((nsMark.toNat ||| 34 : Nat) : Int)
    else nsMark
  let arMark := if arMark = 1 then 80 + (ns : Int) else if arMark = 28 then 64 + (ns : Int) else arMark
  (nsMark, arMark)

/-- The inner loop of `dwx_link_ns_records`, DwRecurse.c:899-906, for the authority record with the
number `ns`, whose data begins at `o`. -/
def linkOne (packet : DwStr) (ns o : Nat) :
    List ((Nat × Nat) × Int) → (nsMark : Int) → Res (Int × List Int)
  | [], nsMark => .ok (nsMark, [])
  | (c, m) :: rest, nsMark => do
    let s ← isSame packet o packet c.1
    let (nsMark, m) := if s then link ns nsMark m else (nsMark, m)
    let (nsMark, l) ← linkOne packet ns o rest nsMark
    .ok (nsMark, m :: l)

/-- The outer loop of `dwx_link_ns_records`, DwRecurse.c:896-909: `n` records are looked at, `i` is the
number of the first; `ar` are the marks of the additional records. -/
def linkLoop (packet : DwStr) (arCells : List (Nat × Nat)) :
    (n i : Nat) → List ((Nat × Nat) × Int) → (ar : List Int) → Res (List Int × List Int)
  | 0, _, l, ar => .ok (l.map (·.2), ar)
  | _, _, [], ar => .ok ([], ar)
  | n + 1, i, (c, m) :: rest, ar => do
    let (m, ar) ← if m = 2 then linkOne packet i (c.2 + 10) (arCells.zip ar) 32 else Res.ok (m, ar)
    let (l, ar) ← linkLoop packet arCells n (i + 1) rest ar
    .ok (m :: l, ar)

/-- `dwx_link_ns_records`, DwRecurse.c:873-912. -/
def linkNs (v : View) : Res View := do
  let (ns, ar) ← linkLoop v.look.packet v.look.ar 15 0 (v.look.ns.zip v.ns) v.ar
  .ok { v with ns := ns, ar := ar }

/-- `dwx_get_1_dns_rr`, DwRecurse.c:915-952: one record. -/
def oneRr (inp : DwStr) (o : Nat) (junk : List UInt8) : Res DwStr :=
  if o > inp.len then .err
  else do
    let e ← inp.getDnEnd o
    if e < o then .err
    else do
      let cls ← fetchI inp (e + 2 : Nat)
      if cls ≠ 1 then .err
      else do
        let rdlength ← inp.fetchU16 (e + 8 : Nat)
        let e := e + 10 + rdlength
        inp.substr o (e - o : Nat) 1 junk

/-- `dwx_get_dns_string`, DwRecurse.c:961-974: one name. -/
def oneName (inp : DwStr) (o : Nat) (junk : List UInt8) : Res DwStr :=
  if o > inp.len then .err
  else do
    let e ← inp.getDnEnd o
    if e < o then .err else inp.substr o (e - o : Nat) 1 junk

/-- The loop of `dwx_make_cname_refer`, DwRecurse.c:1009-1034; `final` is `final_offset`. -/
def cnameLoop (packet : DwStr) (junk : List UInt8) :
    List ((Nat × Nat) × Int) → DwStr → (final : Nat) → Res (DwStr × Nat)
  | [], out, final => .ok (out, final)
  | (c, m) :: rest, out, final =>
    if m = 36 then cnameLoop packet junk rest out final
    else if m ≠ 5 then .err
    else do
      let tmp ← oneName packet (c.2 + 10) junk
      if tmp.len > 256 then .err
      else do
        let final := out.len
        let out ← pushU16 tmp.len out
        let out ← append tmp out
        cnameLoop packet junk rest out final

/-- `dwx_make_cname_refer`, DwRecurse.c:995-1049. -/
def cnameRefer (v : View) (junk : List UInt8) : Res DwStr := do
  let out ← create (257 * v.look.an.length) junk
  let (out, final) ← cnameLoop v.look.packet junk (v.look.an.zip v.an) out 0
  let out ← pushU16 final out
  addchar 17 out

/-- `dwx_make_nsglue`, DwRecurse.c:1052-1086. -/
def nsGlue (packet : DwStr) (o : Nat) (mark : Int) (junk : List UInt8) : Res DwStr := do
  let (otype, len) ←
    if 80 ≤ mark ∧ mark ≤ 95 then Res.ok ((1 : UInt8), 4)
    else if 64 ≤ mark ∧ mark ≤ 79 then Res.ok ((28 : UInt8), 16)
    else Res.err
  let out ← create (len + 2) junk
  let out ← addchar otype out
  packet.substrAppend o len out junk

/-- `dwx_make_nsglueless`, DwRecurse.c:1089-1124. -/
def nsGlueless (packet : DwStr) (o : Nat) (junk : List UInt8) : Res DwStr := do
  let rdlength ← fetchI packet o
  let tmp ← oneName packet (o + 2) junk
  if (tmp.len : Int) ≠ rdlength then .err
  else do
    let out ← create (tmp.len + 5) junk
    let out ← addchar 2 out
    let out ← pushU16 tmp.len out
    append tmp out

/-- The mark of an additional record that is glue. -/
def isGlue (m : Int) : Prop := (80 ≤ m ∧ m ≤ 95) ∨ (64 ≤ m ∧ m ≤ 79)

instance (m : Int) : Decidable (isGlue m) := inferInstanceAs (Decidable (_ ∨ _))

/-- `dwx_make_ns_refer_glued`, DwRecurse.c:1127-1156.  `offs` are the offsets written so far, `onumber` is
their number; the array has room for 33. -/
def gluedLoop (packet : DwStr) (junk : List UInt8) :
    List ((Nat × Nat) × Int) → DwStr → (offs : List Nat) → Res (DwStr × List Nat)
  | [], out, offs => .ok (out, offs)
  | (c, m) :: rest, out, offs =>
    if isGlue m then
      if offs.length ≥ 33 then .ub
      else do
        let offs' := offs ++ [out.len % 65536]
        let tmp ← nsGlue packet (c.2 + 10) m junk
        let out ← append tmp out
        if offs'.length > 31 then .err else gluedLoop packet junk rest out offs'
    else gluedLoop packet junk rest out offs

/-- The loop of `dwx_make_ns_refer_proc` for names without glue, DwRecurse.c:1212-1226. -/
def gluelessLoop (packet : DwStr) (junk : List UInt8) :
    List ((Nat × Nat) × Int) → DwStr → (offs : List Nat) → Res (DwStr × List Nat)
  | [], out, offs => .ok (out, offs)
  | (c, m) :: rest, out, offs =>
    if m = 32 then
      if offs.length ≥ 33 then .ub
      else do
        let offs' := offs ++ [out.len % 65536]
        let tmp ← nsGlueless packet (c.2 + 8) junk
        let out ← append tmp out
        if offs'.length > 31 then .err else gluelessLoop packet junk rest out offs'
    else gluelessLoop packet junk rest out offs

/-- The loop of `dwx_find_ns_referral`, DwRecurse.c:1173-1185: the longest name and where it is. -/
def longest (packet : DwStr) : List ((Nat × Nat) × Int) → (most at_ : Nat) → Res (Nat × Nat)
  | [], most, at_ => .ok (most, at_)
  | (c, m) :: rest, most, at_ =>
    if m ≠ 36 ∧ m ≠ 37 then
      match packet.getDnEnd c.1 with
      | .ok e =>
        if (e : Int) - c.1 > most then longest packet rest (e - c.1) c.1 else longest packet rest most at_
      | .err => longest packet rest most at_
      | .ub => .ub
    else longest packet rest most at_

/-- `dwx_find_ns_referral`, DwRecurse.c:1162-1190.  (`max_num` is 0 at the start; this function is only
reached with at least one authority record.) -/
def findReferral (v : View) (outLen : Nat) (junk : List UInt8) : Res DwStr := do
  let (most, at_) ← longest v.look.packet (v.look.ns.zip v.ns) 0 (v.look.ns.headD (0, 0)).1
  v.look.packet.substr at_ most (outLen + 3 : Nat) junk

/-- The offsets at the end, DwRecurse.c:1228-1232. -/
def pushAll : List Nat → DwStr → Res DwStr
  | [], s => .ok s
  | o :: os, s => do
    let s ← pushU16 o s
    pushAll os s

/-- `dwx_make_ns_refer_proc`, DwRecurse.c:1196-1248. -/
def nsReferProc (v : View) (outLen : Nat) (junk : List UInt8) : Res DwStr := do
  let out ← findReferral v outLen junk
  let (out, offs) ← gluedLoop v.look.packet junk (v.look.ar.zip v.ar) out []
  let (out, offs) ← gluelessLoop v.look.packet junk (v.look.ns.zip v.ns) out offs
  let out ← pushAll offs out
  let out ← addchar (UInt8.ofNat offs.length) out
  addchar 16 out

/-- The length of the names without glue, DwRecurse.c:1294-1305; `err` for an empty one. -/
def gluelessLen (packet : DwStr) : List ((Nat × Nat) × Int) → Res Nat
  | [] => .ok 0
  | (c, m) :: rest =>
    if m = 32 then do
      let rdlength ← fetchI packet (c.2 + 8 : Nat)
      if rdlength ≤ 0 then .err
      else do
        let n ← gluelessLen packet rest
        .ok (rdlength.toNat + 6 + n)
    else gluelessLen packet rest

/-- The length of the glue, DwRecurse.c:1283-1292. -/
def glueLen : List Int → Nat
  | [] => 0
  | m :: l =>
    (if 80 ≤ m ∧ m ≤ 95 then 8 else if 64 ≤ m ∧ m ≤ 79 then 20 else 0) + glueLen l

/-- `dwx_make_ns_refer`, DwRecurse.c:1271-1309. -/
def nsRefer (v : View) (junk : List UInt8) : Res DwStr := do
  let n ← gluelessLen v.look.packet (v.look.ns.zip v.ns)
  nsReferProc v (glueLen v.ar + n) junk

/-- `dwx_copy_over_section`, DwRecurse.c:1317-1354.  `offs` are the offsets written so far
(`*this_offset` is their number); the array has room for `most` of them. -/
def copySection (packet : DwStr) (most : Nat) (junk : List UInt8) :
    List ((Nat × Nat) × Int) → DwStr → (offs : List Nat) → (count : Nat) → Res (DwStr × List Nat × Nat)
  | [], out, offs, count => .ok (out, offs, count)
  | (c, m) :: rest, out, offs, count =>
    if m = 36 ∨ m = 37 then copySection packet most junk rest out offs count
    else do
      let tmp ← oneRr packet c.1 junk
      if offs.length + 1 > most then .err
      else if offs.length + 2 > most then .ub
      else do
        let offs := offs ++ [out.len % 65536, u16 ((out.len : Int) + ((c.2 : Int) - c.1))]
        let out ← append tmp out
        copySection packet most junk rest out offs (count + 1)

/-- `dwx_remake_complete_reply`, DwRecurse.c:1407-1454, with `dwx_remake_footer`, 1360-1383. -/
def remake (v : View) (kind : UInt8) (junk : List UInt8) : Res DwStr := do
  let most := (v.look.an.length + v.look.ns.length + v.look.ar.length) * 2
  let out ← create (v.look.packet.len + 1) junk
  let (out, offs, an) ← copySection v.look.packet most junk (v.look.an.zip v.an) out [] 0
  let (out, offs, ns) ← copySection v.look.packet most junk (v.look.ns.zip v.ns) out offs 0
  let (out, offs, ar) ← copySection v.look.packet most junk (v.look.ar.zip v.ar) out offs 0
  let out ← pushAll offs out
  let out ← pushU16 an out
  let out ← pushU16 ns out
  let out ← pushU16 ar out
  addchar kind out

/-- `dwx_make_cache_string`, DwRecurse.c:1545-1585. -/
def cacheString (v : View) (kind : Nat) (junk : List UInt8) : Res DwStr := do
  let inType ← v.look.packet.peek (v.look.packet.len - 1)
  let kind := if inType = 1 ∧ kind = 2 then 1 else kind
  if inType ≠ 0 ∧ inType ≠ 1 then .err
  else if kind = 17 then cnameRefer v junk
  else if kind = 16 then nsRefer v junk
  else if kind = 0 ∨ kind = 1 ∨ kind = 2 then remake v (UInt8.ofNat kind) junk
  else .err

/-- The loop of `dwx_answer_in_ar`, DwRecurse.c:1626-1632: the first record marked 38. -/
def arPick : List ((Nat × Nat) × Int) → Option (Nat × Nat)
  | [] => none
  | (c, m) :: rest => if m = 38 then some c else arPick rest

/-- `dwx_answer_in_ar`, DwRecurse.c:1617-1656.  (Only one record is marked, so the loop does not try a
second one when `dwx_get_1_dns_rr` fails.) -/
def answerInAr (inp : DwStr) (v : View) (junk : List UInt8) : Res DwStr :=
  match arPick (v.look.ar.zip v.ar) with
  | none => .err
  | some c => do
    let tmp ← oneRr inp c.1 junk
    let out ← create (tmp.len + 14) junk
    let out ← append tmp out
    let out ← pushAll [0, u16 ((c.2 : Int) - c.1), 1, 0, 0] out
    addchar 0 out

/-- `dwx_dissect_packet`, DwRecurse.c:1665-1733. -/
def dissect (inp query b : DwStr) (junk : List UInt8) : Res DwStr := do
  let _ ← query.fetchU16 (-1)
  let v ← details inp junk
  let v ← checkAnswers inp query b v
  let v := cleanup (noOthers v)
  let (kind, v) ← answerKind inp query v
  if kind = 23 then answerInAr inp v junk
  else do
    let v ← if kind = 16 then do
        let v ← checkBailiwick query b v
        linkNs v
      else Res.ok v
    cacheString v kind junk

/-- The times of the configuration: `min_ttl`, `max_ttl`, `maxttl_reduce_labels` and
`key_n[DWM_N_min_ttl_incomplete_cname]`. -/
structure Times where
  min : Int
  max : Int
  reduce : Int
  alias : Int

/-- The string object `dw_get_dname` returns for a name, DwStr.c:781-837. -/
def nameStr (name junk : List UInt8) : DwStr :=
  ⟨name.length, 260, (name ++ junk ++ List.replicate 262 0).take 262⟩

/-- An entry put in the cache: where, what and for how long. -/
structure Put where
  key : List UInt8
  value : List UInt8
  ttl : Int
deriving Repr, DecidableEq

/-- What a reply leads to: entries put in the cache, the servers to ask next (`rem[..].ns`), and the
question to ask next (for an alias that leads elsewhere). -/
structure Step where
  puts : List Put
  ns : Option (List UInt8)
  follow : Option (List UInt8)
deriving Repr, DecidableEq

/-- How long a referral is kept, DwRecurse.c:1787-1802.  (`>>` of a non-negative number.) -/
def referTtl (cfg : Times) (labels : Nat) (ttl : Int) : Int :=
  let ttl := if ttl < 3600 then 3600 else ttl
  let ttl := if ttl < cfg.min then cfg.min else ttl
  let most := if (labels : Int) > cfg.reduce then
      let m := cfg.max / 2 ^ ((labels : Int) - cfg.reduce).toNat
      if m < 30 then 30 else m
    else cfg.max
  if ttl > most then most else ttl

/-- `dwx_handle_ns_refer`, DwRecurse.c:1762-1823: the referral becomes the list of servers of this
request and is put in the cache under its first name with the type 65395; a name that can not be
read stops after the first.  The packet sent to the new servers is not modelled. -/
def handleNsRefer (cfg : Times) (action : DwStr) (ttl : Int) : Res Step :=
  match getDname action.buf 0 260 with
  | .ok (place, labels) =>
    .ok ⟨[⟨place ++ [UInt8.ofNat (65395 / 256), UInt8.ofNat 65395], action.contents,
      referTtl cfg labels ttl⟩], some action.contents, none⟩
  | .err => .ok ⟨[], some action.contents, none⟩
  | .ub => .ub

/-- How long an alias is kept, DwRecurse.c:2249-2260. -/
def aliasTtl (cfg : Times) (ttl : Int) : Int :=
  let ttl := if ttl < cfg.alias then cfg.alias else ttl
  let ttl := if ttl < 30 then 30 else ttl
  let ttl := if ttl < cfg.min then cfg.min else ttl
  if ttl > cfg.max then cfg.max else ttl

/-- `dwx_handle_cname_refer`, DwRecurse.c:2241-2315: the alias is put in the cache under the question
with the type 65394, and the name it leads to is looked up with the type asked for.  What happens
with that lookup is not modelled. -/
def handleCnameRefer (cfg : Times) (action query : DwStr) (ttl : Int) (junk : List UInt8) : Res Step := do
  let key ← query.copy junk
  if key.len < 3 then .err
  else do
    let key ← key.putU16 65394 (-3)
    let puts := [⟨key.contents, action.contents, aliasTtl cfg ttl⟩]
    match (do
      let o ← action.fetchU16 (-2)
      let (name, _) ← getDname action.buf (o + 2) 260
      let name ← lowerCase (nameStr name junk)
      let qtype ← query.fetchU16 (-1)
      name.putU16 qtype (-1) : Res DwStr) with
    | .ok q => .ok ⟨puts, none, some q.contents⟩
    | .err => .ok ⟨puts, none, none⟩
    | .ub => .ub

/-- `dwx_cache_reply`, DwRecurse.c:2333-2406: `ns` is `rem[connection_number].ns`.  `err` is a return
of -1. -/
def cacheReply (cfg : Times) (ns : DwStr) (isUpstream : Bool) (query inp : DwStr) (ttl : Int)
    (junk : List UInt8) : Res Step := do
  let ttl := if ttl < 30 then 30 else ttl
  let ttl := if ttl < cfg.min then cfg.min else ttl
  let ttl := if ttl > cfg.max then cfg.max else ttl
  let (b, _) ← getDname ns.buf 0 260
  if b.length > 256 then .err
  else do
    let action ← dissect inp query (nameStr b junk) junk
    let type ← action.fetchU8 (-1)
    if type = 0 ∨ type = 1 ∨ type = 2 then .ok ⟨[⟨query.contents, action.contents, ttl⟩], none, none⟩
    else if type = 16 ∧ !isUpstream then handleNsRefer cfg action ttl
    else if type = 17 ∧ !isUpstream then handleCnameRefer cfg action query ttl junk
    else .err

end Dissect
end Dw
