import Verif.Deadwood.StrModel
/-!
# The string library of MaraDNS

Source: `/repo/libs/JsStr.c`, `/repo/libs/JsStrOS.c` and `/repo/libs/JsStrCP.c`.

All strings of MaraDNS have units of one byte (every call of `js_create` outside the tests
passes 1, or the unit size of another string), so `unit_size` is 1 here.  The number that marks
live strings is not modelled.  Copy loops are modelled as one block copy; source and target are
taken to be different strings.  Reading or writing outside the allocated block is `Res.ub`.
-/

namespace Mara

open Dw (Res)

/-- `js_string`, JsStr.h:19-28: `unit_count`, `max_count` (both unsigned 32-bit) and the block
`string`. -/
structure Js where
  count : Nat
  max : Nat
  buf : List UInt8
deriving Repr, DecidableEq

namespace Js

/-- The visible contents. -/
def contents (s : Js) : List UInt8 := s.buf.take s.count

/-- Conversion of an `int` to `unsigned int` (C). -/
def u32 (x : Int) : Nat := (x % 4294967296).toNat

/-- `js_has_sanity`, JsStr.c:203-223 (the encoding test always passes for 1-byte units). -/
def sane (s : Js) : Bool := s.count ≤ s.max

/-- Read `n` bytes of a block. -/
def rds (b : List UInt8) (i n : Nat) : Res (List UInt8) :=
  if n = 0 then .ok [] else if i + n ≤ b.length then .ok ((b.drop i).take n) else .ub

/-- Write into a block. -/
def wrs (b : List UInt8) (i : Nat) (l : List UInt8) : Res (List UInt8) :=
  if l = [] then .ok b
  else if i + l.length ≤ b.length then .ok (b.take i ++ l ++ b.drop (i + l.length)) else .ub

/-- Read one byte. -/
def rd (b : List UInt8) (i : Nat) : Res UInt8 := match b[i]? with | some x => .ok x | none => .ub

/-- `js_create`, JsStr.c:20-40: three bytes more than asked are allocated; `junk` is what is in
them. -/
def create (max : Nat) (junk : List UInt8) : Js := ⟨0, max, (junk ++ List.replicate (max + 3) 0).take (max + 3)⟩

/-- `js_str2js`, JsStr.c:229-256. -/
def str2js (s : Js) (str : List UInt8) (count : Int) : Res Js :=
  if u32 count > s.max then .err
  else if !s.sane then .err
  else do
    let l ← rds str 0 count.toNat
    let buf ← wrs s.buf 0 l
    .ok { s with count := u32 count, buf := buf }

/-- `js_issame`, JsStr.c:286-321. -/
def issame (a b : Js) : Res Bool :=
  if !a.sane || !b.sane then .err
  else if a.count ≠ b.count then .ok false
  else do
    let x ← rds a.buf 0 a.count
    let y ← rds b.buf 0 a.count
    .ok (x == y)

/-- The inner comparison of `js_fgrep_offset`, JsStr.c:379-385: every place is looked at. -/
def fgrepAt (e s : List UInt8) (at_ : Nat) : (n place : Nat) → (acc : Bool) → Res Bool
  | 0, _, acc => .ok acc
  | n + 1, place, acc => do
    let x ← rd e place
    let y ← rd s (place + at_)
    fgrepAt e s at_ n (place + 1) (acc && x == y)

/-- The outer loop of `js_fgrep_offset`, JsStr.c:371-389; `n` is `max + 1 - counter`. -/
def fgrepLoop (e s : Js) (offset : Nat) : (n counter : Nat) → Res Int
  | 0, _ => .ok (-2)
  | n + 1, counter => do
    let x ← rd e.buf 0
    let y ← rd s.buf counter
    if x = y ∧ offset ≤ counter then do
      let b ← fgrepAt e.buf s.buf counter (min e.count (s.count - counter)) 0 true
      if b then .ok counter else fgrepLoop e s offset n (counter + 1)
    else fgrepLoop e s offset n (counter + 1)

/-- `js_fgrep_offset`, JsStr.c:340-395.  The first test compares the offset as an unsigned
number. -/
def fgrepOffset (e s : Js) (offset : Int) : Res Int :=
  if !e.sane || !s.sane then .err
  else if u32 offset > s.count then .err
  else
    let offset := if offset < 0 then s.count + offset else offset
    if offset < 0 then .err
    else if e.count > s.count then .ok (-2)
    else if e.count = 0 then .ok 0
    else fgrepLoop e s offset.toNat (s.count - e.count + 1) 0

/-- Is the byte on the list?  The loop over `pexp`, JsStr.c:448-474. -/
def onList (e : List UInt8) (c : UInt8) : (n pexp : Nat) → Res Bool
  | 0, _ => .ok false
  | n + 1, pexp => do
    let x ← rd e pexp
    if x = c then .ok true else onList e c n (pexp + 1)

/-- The loop of `js_match_offset` (JsStr.c:441-478, `want = true`) and `js_notmatch_offset`
(JsStr.c:526-567, `want = false`); `n` is `unit_count - counter`. -/
def matchLoop (want : Bool) (e s : Js) (offset : Nat) : (n counter : Nat) → Res Int
  | 0, _ => .ok (-2)
  | n + 1, counter =>
    if offset ≤ counter then do
      let y ← rd s.buf counter
      let b ← onList e.buf y e.count 0
      if b = want then .ok counter else matchLoop want e s offset n (counter + 1)
    else matchLoop want e s offset n (counter + 1)

/-- `js_match_offset` and `js_notmatch_offset`, JsStr.c:412-482 and 500-573. -/
def matchOffset (want : Bool) (e s : Js) (offset : Int) : Res Int :=
  if !e.sane || !s.sane then .err
  else
    -- `js->unit_count + offset` is computed in unsigned arithmetic and stored in an `int`
    let offset : Int := if offset < 0 then s.count + offset else offset
    if offset < 0 then .err
    else if e.count = 0 then .ok (-2)
    else matchLoop want e s offset.toNat s.count 0

/-- `js_append`, JsStr.c:660-689. -/
def append (a t : Js) : Res Js :=
  if !a.sane || !t.sane then .err
  else if a.count + t.count ≥ t.max then .err
  else do
    let l ← rds a.buf 0 a.count
    let buf ← wrs t.buf t.count l
    .ok { t with count := t.count + a.count, buf := buf }

/-- `js_insert`, JsStr.c:583-653.  The first test compares `where` as an unsigned number. -/
def insert (a t : Js) (at_ : Int) : Res Js :=
  if !a.sane || !t.sane then .err
  else if u32 at_ > t.count then .err
  else if u32 at_ = t.count then append a t
  else if a.count + t.count > t.max then .err
  else
    let at_ := if at_ < 0 then t.count + at_ else at_
    if at_ < 0 then .err
    else do
      let temp ← rds t.buf 0 t.count
      let l ← rds a.buf 0 a.count
      let buf ← wrs t.buf 0 (temp.take at_.toNat ++ l ++ temp.drop at_.toNat)
      .ok { t with count := t.count + a.count, buf := buf }

/-- `js_substr`, JsStr.c:696-735. -/
def substr (s d : Js) (start count : Int) : Res Js :=
  if !s.sane || !d.sane then .err
  else if count < 0 then .err
  else if u32 start ≥ s.count ∨ u32 start ≥ s.max then .err
  else if u32 (start + count) > s.count then .err
  else if u32 (start + count) > s.max then .err
  else if u32 count ≥ d.max then .err
  else do
    let l ← rds s.buf start.toNat count.toNat
    let buf ← wrs d.buf 0 l
    .ok { d with count := count.toNat, buf := buf }

/-- `js_copy`, JsStr.c:740-767. -/
def copy (s d : Js) : Res Js :=
  if !s.sane || !d.sane then .err
  else if s.count ≥ d.max then .err
  else do
    let l ← rds s.buf 0 s.count
    let buf ← wrs d.buf 0 l
    .ok { d with count := s.count, buf := buf }

/-- `js_val`, JsStr.c:776-799. -/
def val (s : Js) (offset : Int) : Res Nat :=
  if !s.sane then .err
  else if u32 offset ≥ s.count then .err
  else do
    let x ← rd s.buf offset.toNat
    .ok x.toNat

/-- `js_addbyte`, JsStr.c:954-971. -/
def addbyte (s : Js) (b : UInt8) : Res Js :=
  if !s.sane then .err
  else if s.count + 1 ≥ s.max then .err
  else do
    let buf ← wrs s.buf s.count [b]
    .ok { s with count := s.count + 1, buf := buf }

/-- `js_changebyte`, JsStr.c:979-995. -/
def changebyte (s : Js) (b : UInt8) (offset : Int) : Res Js :=
  if !s.sane then .err
  else if u32 offset ≥ s.count then .err
  else do
    let buf ← wrs s.buf offset.toNat [b]
    .ok { s with buf := buf }

/-- `js_adduint16`, JsStr.c:1003-1023. -/
def adduint16 (s : Js) (number : Int) : Res Js :=
  if !s.sane then .err
  else if number < 0 ∨ number > 65535 then .err
  else if s.count + 2 ≥ s.max then .err
  else do
    let buf ← wrs s.buf s.count [UInt8.ofNat (number.toNat / 256), UInt8.ofNat (number.toNat % 256)]
    .ok { s with count := s.count + 2, buf := buf }

/-- `js_adduint32`, JsStrOS.c:877-898. -/
def adduint32 (s : Js) (number : Nat) : Res Js :=
  if !s.sane then .err
  else if s.count + 4 ≥ s.max then .err
  else do
    let buf ← wrs s.buf s.count [UInt8.ofNat (number / 16777216), UInt8.ofNat (number / 65536 % 256),
      UInt8.ofNat (number / 256 % 256), UInt8.ofNat (number % 256)]
    .ok { s with count := s.count + 4, buf := buf }

/-- `js_readbyte`, JsStr.c:1031-1043: the limit wraps around for an empty string. -/
def readbyte (s : Js) (offset : Nat) : Res Nat :=
  if !s.sane then .err
  else if offset > u32 ((s.count : Int) - 1) then .err
  else do
    let x ← rd s.buf offset
    .ok x.toNat

/-- `js_readuint16`, JsStr.c:1052-1069: the limit wraps around for a string shorter than 2. -/
def readuint16 (s : Js) (offset : Nat) : Res Nat :=
  if !s.sane then .err
  else if offset > u32 ((s.count : Int) - 2) then .err
  else do
    let x ← rd s.buf offset
    let y ← rd s.buf (offset + 1)
    .ok (x.toNat * 256 + y.toNat)

/-- `js_readuint32`, JsStrOS.c:907-929; its "error" is the number 0xffffffff. -/
def readuint32 (s : Js) (offset : Nat) : Res Nat :=
  if !s.sane then .ok 4294967295
  else if offset > u32 ((s.count : Int) - 4) then .ok 4294967295
  else do
    let a ← rd s.buf offset
    let b ← rd s.buf (offset + 1)
    let c ← rd s.buf (offset + 2)
    let d ← rd s.buf (offset + 3)
    let r := a.toNat * 16777216 + b.toNat * 65536 + c.toNat * 256 + d.toNat
    .ok (if r = 4294967295 then 4294967294 else r)

/-- `js_substr_append`, JsStr.c:1083-1108. -/
def substrAppend (s d : Js) (offset length : Int) (junk : List UInt8) : Res Js :=
  let temp := create (u32 (length + 2)) junk
  if s.count < u32 (offset + length) then .err
  else do
    let t ← substr s temp offset length
    append t d

/-- `js_tolower` for the encoding US-ASCII, JsStrCP.c:106-121. -/
def lower (c : UInt8) : UInt8 := if 65 ≤ c ∧ c ≤ 90 then c + 32 else c

/-- `js_tolower`, JsStrCP.c:106-145 (US-ASCII). -/
def tolower (s : Js) : Res Js :=
  if !s.sane then .err
  else do
    let l ← rds s.buf 0 s.count
    let buf ← wrs s.buf 0 (l.map lower)
    .ok { s with buf := buf }

/-- The loop of `js_atoi`, JsStrCP.c:92-97, as a value that may leave the range of `int`. -/
def digits (acc : Nat) : List UInt8 → Nat
  | [] => acc
  | c :: l => if 48 ≤ c ∧ c ≤ 57 then digits (acc * 10 + (c.toNat - 48)) l else acc

/-- `js_atoi`, JsStrCP.c:78-104 (US-ASCII); a number that does not fit `int` is undefined. -/
def atoi (s : Js) (offset : Int) : Res Nat :=
  if !s.sane then .ok 0
  else if u32 offset ≥ s.count then .ok 0
  else do
    let l ← rds s.buf offset.toNat (s.count - offset.toNat)
    let v := digits 0 l
    if v > 2147483647 then .ub else .ok v

end Js
end Mara
