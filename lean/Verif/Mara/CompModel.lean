import Verif.Mara.LookupModel
/-!
# The authoritative server: compression of the names in a reply

Source: `/repo/dns/Compress.c` (all functions used by `compress_data`), `decomp_get_label` of
`/repo/dns/Decompress.c`, the record descriptions of `/repo/dns/Compress_rrdescs.h`, as built with
`AUTHONLY`.  Strings are their contents; the size of the input string (`um`) and of the output
string (`om`) are parameters, the string being made has 4100 bytes.  `valid_state` is not modelled:
every function that clears it returns an error, which ends the compression.  The list
`dlabel_points` (ended by a 0 in C) is a list.  Allocations succeed.  The descriptions are the
table `fields` (the parser of the descriptions, `decomp_add_rrdesc`, is not modelled).
-/

namespace Mara
namespace Comp

open Dw (Res)

/-- Places and strings of `compress_state`, Compress.c:44-55. -/
structure St where
  off : Nat
  out : List UInt8
  points : List Nat
deriving DecidableEq, Repr

/-- `decomp_get_label`, Decompress.c:68-183: `n` is what is left of the 255 steps, `i` is `cplace`,
`acc` what has been copied. -/
def getLabel (c : List UInt8) : (n i : Nat) → (acc : List UInt8) → Option (List UInt8)
  | 0, _, _ => none
  | n + 1, i, acc =>
    match c[i]? with
    | none => none
    | some b =>
      if b > 63 ∧ b < 192 then none
      else if b ≥ 192 then
        match c[i + 1]? with
        | none => none
        | some y =>
          let v := b.toNat % 64 * 256 + y.toNat
          if v ≥ i then none else if v < 12 then none else getLabel c n v acc
      else if b > 0 then
        if acc.length + (b.toNat + 1) ≥ 259 then none
        else if i + (b.toNat + 1) ≥ c.length then none
        else getLabel c n (i + (b.toNat + 1)) (acc ++ (c.drop i).take (b.toNat + 1))
      else if acc.length ≥ 259 then none
      else some (acc ++ [0])

/-- `compress_compare_dlabels` (165-183) and `compress_issame` (118-158). -/
def same (u c : List UInt8) (i p : Nat) : Bool :=
  match getLabel u 255 i [], getLabel c 255 p [] with
  | some a, some b => decide (a.map Js.lower = b.map Js.lower)
  | _, _ => false

/-- `js_append` (and `js_adduint16`, `js_adduint32`) to the compressed string, JsStr.c. -/
def append (out l : List UInt8) : Res (List UInt8) :=
  if out.length + l.length ≥ 4100 then .err else .ok (out ++ l)

/-- `js_substr_append`, JsStr.c:1081-1110, with the checks of `js_substr`, JsStr.c:702-738. -/
def substrAppend (u out : List UInt8) (off len : Nat) : Res (List UInt8) :=
  if u.length < off + len then .err
  else if off ≥ u.length then .err
  else append out ((u.drop off).take len)

/-- The second loop of `compress_add_dlabel_points`, Compress.c:216-258. -/
def addPoints (out : List UInt8) : (n offset : Nat) → (points : List Nat) → Res (List Nat)
  | 0, _, _ => .err
  | n + 1, offset, points =>
    match out[offset]? with
    | none => .err
    | some len =>
      if len ≥ 192 then .ok points
      else if offset + len.toNat ≥ out.length then .err
      else if points.length ≥ 150 then .err
      else if len = 0 ∨ len > 63 then .ok (points ++ [offset])
      else addPoints out n (offset + len.toNat + 1) (points ++ [offset])

/-- What `compress_sub_dlabel` returns: 1, 0 or 2, 3. -/
inductive Step where
  | more (s : St)
  | done (s : St)
  | atEnd (s : St)
deriving DecidableEq, Repr

/-- The loop over the points, Compress.c:326-377: the first one where the same name is. -/
def seek (u out : List UInt8) (off begin : Nat) : Nat → List Nat → Res (Option Nat)
  | 0, _ => .err
  | _ + 1, [] => .ok none
  | n + 1, p :: ps =>
    if p ≥ begin then .ok none
    else if same u out off p then .ok (some p)
    else seek u out off begin n ps

/-- `compress_sub_dlabel`, Compress.c:279-400. -/
def subDlabel (u : List UInt8) (um begin : Nat) (s : St) : Res Step :=
  match u[s.off]? with
  | none => .err
  | some len =>
    if len = 0 then do
      let out ← substrAppend u s.out s.off 1
      if s.off + 1 > u.length ∨ s.off + 1 ≥ um then .err
      else .ok (.done { s with off := s.off + 1, out := out })
    else if len > 63 then .err
    else if s.off + len.toNat + 1 ≥ u.length ∨ s.off + len.toNat + 1 ≥ um then .err
    else do
      match ← seek u s.out s.off begin 155 s.points with
      | some p =>
        if p < 12 ∨ p ≥ 16384 then .err
        else do
          let out ← append s.out [UInt8.ofNat (192 + p / 256), UInt8.ofNat p]
          match Lookup.dlabel u s.off 256 0 with
          | none => .err
          | some length =>
            if s.off + length > u.length ∨ s.off + length ≥ um then .err
            else if s.off + length = u.length then .ok (.atEnd { s with off := s.off + length, out := out })
            else .ok (.done { s with off := s.off + length, out := out })
      | none => do
        let out ← substrAppend u s.out s.off (len.toNat + 1)
        .ok (.more { s with off := s.off + len.toNat + 1, out := out })

/-- The loop of `compress_dlabel`, Compress.c:424-427; true: the end of the packet.  Every turn but
the last one moves on, so the number of turns `n` is never used up. -/
def dlabelRun (u : List UInt8) (um begin : Nat) : Nat → St → Res (St × Bool)
  | 0, _ => .ub
  | n + 1, s => do
    match ← subDlabel u um begin s with
    | .more s' => dlabelRun u um begin n s'
    | .done s' => .ok (s', false)
    | .atEnd s' => .ok (s', true)

/-- `compress_dlabel`, Compress.c:413-441. -/
def dlabel (u : List UInt8) (um : Nat) (s : St) : Res St := do
  let (s', atEnd) ← dlabelRun u um s.off (u.length + 1) s
  if atEnd then .ok s'
  else do
    let points ← addPoints s'.out 257 s.out.length s'.points
    .ok { s' with points := points }

/-- Parts of the data of a record, Compress_rrdescs.h. -/
inductive Field where
  | fixed (n : Nat)
  | name
  | text
  | rest
deriving DecidableEq, Repr

/-- Compress_rrdescs.h:36-52: the parts of the data, and whether its names may be compressed. -/
def fields (type : Nat) : Option (List Field × Bool) :=
  match type with
  | 1 => some ([.fixed 4], false)
  | 15 => some ([.fixed 2, .name], true)
  | 2 => some ([.name], true)
  | 6 => some ([.name, .name, .fixed 4, .fixed 4, .fixed 4, .fixed 4, .fixed 4], true)
  | 12 => some ([.name], true)
  | 16 => some ([.text, .rest], false)
  | 5 => some ([.name], true)
  | 3 => some ([.name], false)
  | 4 => some ([.name], false)
  | 7 => some ([.name], false)
  | 8 => some ([.name], false)
  | 9 => some ([.name], false)
  | 14 => some ([.name, .name], false)
  | 17 => some ([.name, .name], false)
  | 18 => some ([.fixed 2, .name], false)
  | 21 => some ([.fixed 2, .name], false)
  | 33 => some ([.fixed 2, .fixed 2, .fixed 2, .name], false)
  | _ => none

/-- The loop of `compress_rddata`, Compress.c:516-625. -/
def runFields (u : List UInt8) (um rdlen : Nat) (cmp : Bool) :
    List Field → St → (total : Nat) → (ctotal : Int) → Res (St × Nat × Int)
  | [], s, total, ctotal => .ok (s, total, ctotal)
  | .fixed n :: fs, s, total, ctotal => do
    let out ← substrAppend u s.out s.off n
    runFields u um rdlen cmp fs { s with off := s.off + n, out := out } (total + n) (ctotal + n)
  | .name :: fs, s, total, ctotal =>
    match Lookup.dlabel u s.off 256 0 with
    | none => .err
    | some len =>
      if len < 1 then .err
      else if cmp then do
        let s' ← dlabel u um s
        let clen : Int := match Lookup.dlabel s'.out s.out.length 256 0 with
          | none => -1
          | some n => n
        runFields u um rdlen cmp fs s' (total + len) (ctotal + clen)
      else do
        let out ← substrAppend u s.out s.off len
        let points ← addPoints out 257 s.out.length s.points
        runFields u um rdlen cmp fs ⟨s.off + len, out, points⟩ (total + len) (ctotal + len)
  | .text :: fs, s, total, ctotal =>
    match u[s.off]? with
    | none => .err
    | some len => do
      let out ← substrAppend u s.out s.off len.toNat
      runFields u um rdlen cmp fs { s with off := s.off + len.toNat, out := out }
        (total + len.toNat) (ctotal + len.toNat)
  | .rest :: _, s, total, ctotal =>
    if rdlen = total then .ok (s, total, ctotal)
    else if rdlen < total then .err
    else do
      let len := rdlen - total
      let out ← substrAppend u s.out s.off len
      .ok ({ s with off := s.off + len, out := out }, total + len, ctotal + len)

/-- `compress_rddata`, Compress.c:489-661; `at_` is `this_rdlength_begin`. -/
def rddata (u : List UInt8) (um type rdlen at_ : Nat) (s : St) : Res St :=
  match fields type with
  | none =>
    if rdlen = 0 then .ok s
    else do
      let out ← substrAppend u s.out s.off rdlen
      .ok { s with off := s.off + rdlen, out := out }
  | some (fs, cmp) => do
    let (s', total, ctotal) ← runFields u um rdlen cmp fs s 0 0
    if rdlen ≠ total then .err
    else if ctotal ≠ total then
      if ctotal > 65535 ∨ ctotal < 2 then .err
      else if at_ < 12 ∨ at_ + 1 ≥ s'.out.length then .err
      else
        .ok { s' with out :=
                (s'.out.set at_ (UInt8.ofNat (ctotal.toNat / 256))).set (at_ + 1) (UInt8.ofNat ctotal.toNat) }
    else .ok s'

/-- `compress_get_uint16`, Compress.c:678-707. -/
def uint16 (u : List UInt8) (s : St) : Res (St × Nat) :=
  match u[s.off]?, u[s.off + 1]? with
  | some a, some b => do
    let out ← append s.out [a, b]
    .ok ({ s with off := s.off + 2, out := out }, a.toNat * 256 + b.toNat)
  | _, _ => .err

/-- The time to live in `compress_get_type_etc`, Compress.c:748-764. -/
def ttl (u : List UInt8) (s : St) : Res St :=
  match u[s.off]?, u[s.off + 1]?, u[s.off + 2]?, u[s.off + 3]? with
  | some a, some b, some c, some d =>
    if a = 255 ∧ b = 255 ∧ c = 255 ∧ d = 255 then .err
    else do
      let out ← append s.out [a, b, c, d]
      if s.off + 4 ≥ u.length then .err
      else .ok { s with off := s.off + 4, out := out }
  | _, _, _, _ => .err

/-- The body of the loop of `compress_answers`, Compress.c:931-949, with `compress_get_type_etc`
(723-770) and `compress_get_rdlength` (901-916). -/
def record (u : List UInt8) (um : Nat) (s : St) : Res St := do
  let s ← dlabel u um s
  let (s, type) ← uint16 u s
  let (s, _) ← uint16 u s
  let s ← ttl u s
  let (s', rdlen) ← uint16 u s
  rddata u um type rdlen s.out.length s'

/-- `compress_answers`, Compress.c:923-952. -/
def answers (u : List UInt8) (um : Nat) : Nat → St → Res St
  | 0, s => .ok s
  | n + 1, s => do
    let s ← record u um s
    answers u um n s

/-- `compress_get_header`, Compress.c:773-851: the state behind it and the number of answers
(nothing: no question). -/
def header (u : List UInt8) (s : St) : Res (St × Option Nat) := do
  let out ← substrAppend u s.out 0 4
  if 4 ≥ u.length then .err
  else do
    let (s, qd) ← uint16 u { s with off := 4, out := out }
    let (s, an) ← uint16 u s
    let (s, ns) ← uint16 u s
    let (s, ar) ← uint16 u s
    if qd > 1 then .err
    else if an + ns + ar ≠ 0 ∧ qd ≠ 1 then .err
    else if qd = 0 then .ok (s, none)
    else .ok (s, some (an + ns + ar))

/-- `compress_data`, Compress.c:980-1024, with `compress_get_question` (863-894). -/
def compress (u : List UInt8) (um om : Nat) : Res (List UInt8) := do
  let (s, n) ← header u ⟨0, [], []⟩
  let s ← match n with
    | none => .ok s
    | some n => do
      let s ← dlabel u um s
      let (s, _) ← uint16 u s
      let (s, _) ← uint16 u s
      answers u um n s
  if s.out.length ≥ om then .err else .ok s.out

end Comp
end Mara
