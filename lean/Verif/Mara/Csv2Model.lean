import Verif.Mara.Csv2Stream
import Verif.Mara.ZoneModel
/-!
# Model: the parser of zone files, parse/Csv2_parse.c:643-1855 and parse/Csv2_rr_*.c

Zone files of ordinary zones (`starwhitis` is 0); the default zone file, in which names may end in a star,
is left out, and so are the data of the types WKS, NSAP, LOC and NAPTR (`Step.other`).
-/

namespace Mara
namespace Csv2

open Dw (Res)

/-! ## Characters -/

def isNumber (c : Int) : Bool := c ≥ 48 ∧ c ≤ 57
def isNumberOrSlash (c : Int) : Bool := isNumber c ∨ c = 47
def isUpper (c : Int) : Bool := c ≥ 65 ∧ c ≤ 90
def isLower (c : Int) : Bool := c ≥ 97 ∧ c ≤ 122
/-- `csv2_is_alpha`, Csv2_parse.c:645-647. -/
def isAlpha (c : Int) : Bool := isLower c ∨ isUpper c
/-- `csv2_is_alphanum`, Csv2_parse.c:650-653. -/
def isAlphanum (c : Int) : Bool := isAlpha c ∨ isNumber c ∨ c = 45 ∨ c = 95
def isAlphanumOrPlus (c : Int) : Bool := isAlphanum c ∨ c = 43
/-- `csv2_is_text`, Csv2_parse.c:661-663. -/
def isText (c : Int) : Bool := isAlphanum c ∨ c > 0x7f
/-- `csv2_is_dname`, Csv2_parse.c:666-668. -/
def isDname (c : Int) : Bool := isAlphanum c ∨ c = 47 ∨ c > 0x7f
/-- `csv2_is_dchar`, Csv2_parse.c:671-673. -/
def isDchar (c : Int) : Bool := isText c ∨ c = 37
/-- `csv2_is_fchar`, Csv2_parse.c:676-678. -/
def isFchar (c : Int) : Bool := isText c ∨ c = 46
/-- `csv2_is_starwhitis`, Csv2_parse.c:681-683. -/
def isStar (c : Int) : Bool := isText c ∨ c = 42 ∨ c = 37
def isStarOrSlash (c : Int) : Bool := isText c ∨ c = 42 ∨ c = 37 ∨ c = 47
def isStarOrDot (c : Int) : Bool := isText c ∨ c = 42 ∨ c = 37 ∨ c = 46
/-- `csv2_is_alphanum_ordot`, Csv2_rr_wks.c:45-47. -/
def isAlphanumOrDot (c : Int) : Bool := isAlphanum c ∨ c = 46
/-- `csv2_b4_at`, Csv2_rr_soa.c:36-40. -/
def isB4At (c : Int) : Bool := isAlphanum c ∨ c = 43 ∨ c = 37 ∨ c = 33 ∨ c = 94 ∨ c = 61
/-- `csv2_is_hex`, Csv2_rr_aaaa.c:30-33. -/
def isHex (c : Int) : Bool := isNumber c ∨ (c ≥ 97 ∧ c ≤ 102) ∨ (c ≥ 65 ∧ c ≤ 70)
def isHexOrColon (c : Int) : Bool := isHex c ∨ c = 58
/-- `csv2_is_txt_bchar`, Csv2_rr_txt.c:87-98. -/
def isBchar (c : Int) : Bool :=
  isNumber c ∨ isLower c ∨ isUpper c ∨ c = 45 ∨ c = 95 ∨ c = 43 ∨ c = 37 ∨ c = 33 ∨ c = 94 ∨ c = 61
/-- `csv2_is_txtchar`, Csv2_rr_txt.c:70-84. -/
def isTxtChar (c : Int) : Bool := isBchar c ∨ c = 59 ∨ c = 92 ∨ c = 39

/-! ## Names -/

/-- The states of the machine in `js_append_dname`, Csv2_parse.c:28-31. -/
inductive Dot | dot | text | star
deriving DecidableEq

/-- The loop of `js_append_dname`, Csv2_parse.c:814-937.  `x` says that it is not the first turn.  The
values of `starwhitis` are 0, 1 and 3 (2, 4 and 5 are for other kinds of files). -/
def dnameLoop : Nat → Bool → Dot → List UInt8 → P (List UInt8)
  | 0, _, _, _ => fail
  | n + 1, x, st, o => do
    let c ← readUnicode
    if c = -164 then fail
    else if c = 46 ∧ st = .text then do let o ← orDie (appendUtf8 256 o 46); dnameLoop n true .dot o
    else if st = .text ∧ isDname c then do let o ← orDie (appendUtf8 256 o c); dnameLoop n true .text o
    else if c = 35 ∧ st = .dot ∧ x = true then do comment; pure o
    else if st = .dot ∧ c = 37 then do
      let o ← orDie (appendUtf8 256 o c)
      let d ← readUnicode
      if d = -164 then fail else pure o
    else if st = .dot ∧ isDname c then do let o ← orDie (appendUtf8 256 o c); dnameLoop n true .text o
    else if st = .dot ∧ isDelim c then pure o
    else if st = .star ∧ c = 46 then do let o ← orDie (appendUtf8 256 o c); dnameLoop n true .dot o
    else die

/-- `js_append_dname`, Csv2_parse.c:766-940. -/
def appendDname (o : List UInt8) (star : Nat) : P (List UInt8) := do
  let s ← get
  let c := s.just
  if c = 37 ∨ c = 46 then do
    let d ← readUnicode
    if d = -164 then fail else pure o
  else if star ≠ 0 then
    if isDname c then dnameLoop 10000 false .text o
    else if c = 42 then
      if star = 3 then die else dnameLoop 10000 false .star o
    else die
  else dnameLoop 10000 false .dot o

/-- `process_dname`, Csv2_parse.c:724-751. -/
def processDname (star : Nat) : P (List UInt8) := do
  let o ← process1st isStarOrDot [90]
  let o ← appendDname o star
  if o.length > 1 ∧ o[1]? = some 46 ∧ o.length ≠ 2 then die
  else pure o

/-- `js_append`: strings are never quite full. -/
def jsAppend (max : Nat) (o l : List UInt8) : Option (List UInt8) :=
  if o.length + l.length ≥ max then none else some (o ++ l)

/-- `csv2_convert_percent`, Csv2_parse.c:944-960. -/
def percent (o origin : List UInt8) : Option (List UInt8) :=
  if o.getLast? = some 37 then jsAppend 256 o.dropLast origin else some o

/-- The loop of `hname_2rfc1035_starwhitis`, Queries.c:588-617, over what comes after the first byte; `cur` is the
label read so far. -/
def wireLoop : List UInt8 → (cur : List UInt8) → Option (List UInt8)
  | [], cur => if cur = [] then some [0] else none
  | c :: r, cur =>
    if c = 46 then
      if cur.length < 1 ∨ cur.length > 63 then none
      else match wireLoop r [] with
        | none => none
        | some w => some (UInt8.ofNat cur.length :: cur ++ w)
    else wireLoop r (cur ++ [c])

/-- `hname_2rfc1035_starwhitis`, Queries.c:523-620, without stars at the end, over what comes after the first byte,
which is `Z`. -/
def wire (t : List UInt8) : P (List UInt8) :=
  if t = [] then undef
  else if t = [46] then pure [0]
  else orFail (wireLoop t [])

/-- `starrecord_to_meta`, server/MaraBigHash.c:80-123; the name is taken to reach to the end of the string. -/
def starMeta (w : List UInt8) : List UInt8 :=
  if w.length < 2 then w
  else if w.take 2 = [1, 42] then 95 :: w.drop 2
  else if w.length ≥ 3 ∧ w.drop (w.length - 3) = [1, 42, 0] then w.take (w.length - 3) ++ [95] else w

/-- `csv2_get_hostname`, Csv2_parse.c:972-1007. -/
def hostname (origin : List UInt8) (star : Nat) : P (List UInt8) := do
  let o ← processDname star
  let o ← orFail (percent o origin)
  let w ← wire o.tail
  pure (starMeta w)

/-! ## Numbers and types -/

/-- `js_atoi`, JsStrCP.c:81-108, at the beginning of a string; the number is an `int`. -/
def atoi : List UInt8 → Nat → Option Nat
  | [], v => some v
  | c :: r, v =>
    if 48 ≤ c ∧ c ≤ 57 then
      let v := v * 10 + (c.toNat - 48)
      if v > 2147483647 then none else atoi r v
    else some v

/-- `csv2_read_unicode(stream) != c` -/
def expect (c : Int) : P Bool := do
  let d ← readUnicode
  pure (d = c)

/-- The letters after `/`, Csv2_parse.c:1183-1200. -/
def expectAll : List Int → P Bool
  | [] => pure true
  | c :: r => do
    let b ← expect c
    if b then expectAll r else pure false

/-- `csv2_get_num`, Csv2_parse.c:1173-1221: -2 for `/serial`; `none` is -1. -/
def getNum : P Int := do
  let q ← get1st isNumberOrSlash 0
  if q ≠ 1 then fail
  else do
    let s ← get
    if s.just = 47 then do
      let b ← expectAll [115, 101, 114, 105, 97, 108]
      if b = false then fail
      else do
        let c ← readUnicode
        if isDelim c then pure (-2) else fail
    else do
      let t ← something isNumber
      if t = [48] then pure 0
      else match atoi t 0 with
        | none => undef
        | some 0 => fail
        | some v => pure v

/-- A number that is not `/serial`. -/
def getNat : P Nat := do
  let n ← getNum
  if n < 0 then fail else pure n.toNat

/-- The names of the types, Csv2_parse.c:1022-1130. -/
def rtypes : List (List UInt8 × Int) :=
  [ ([105, 110], -2), ([114, 97, 119], -3), ([97], 1), ([110, 115], 2), ([99, 110, 97, 109, 101], 5),
    ([115, 111, 97], 6), ([112, 116, 114], 12), ([109, 120], 15), ([97, 97, 97, 97], 28), ([115, 114, 118], 33),
    ([116, 120, 116], 16), ([115, 112, 102], 99), ([102, 113, 100, 110, 52], 65765), ([102, 113, 100, 110, 54], 65766),
    ([104, 105, 110, 102, 111], 13), ([119, 107, 115], 11), ([109, 98], 7), ([109, 100], 3), ([109, 102], 4),
    ([109, 103], 8), ([109, 114], 9), ([109, 105, 110, 102, 111], 14), ([97, 102, 115, 100, 98], 18), ([114, 112], 17),
    ([120, 50, 53], 19), ([105, 115, 100, 110], 20), ([114, 116], 21), ([110, 115, 97, 112], 22),
    ([110, 115, 97, 112, 45, 112, 116, 114], 23), ([112, 120], 26), ([103, 112, 111, 115], 27), ([108, 111, 99], 29),
    ([110, 97, 112, 116, 114], 35) ]

/-- `csv2_numeric_rtype`, Csv2_parse.c:1014-1132. -/
def numericRtype (t : List UInt8) : Int :=
  match rtypes.find? fun e => e.1 == t.map Zf.lowByte with
  | some e => e.2
  | none => -1

/-- `csv2_get_rtype`, Csv2_parse.c:1135-1169; every turn reads a word of the file. -/
def getRtype : Nat → P Nat
  | 0 => fail
  | n + 1 => do
    let q ← get1st isAlpha 0
    if q ≠ 1 then fail
    else do
      let r ← something isText
      let ret := numericRtype r
      if ret = -3 then do
        let q ← get1st isNumber 0
        if q < 0 then die
        else do
          let v ← getNat
          if v + 100000 > 2147483647 then undef else pure (v + 100000)
      else if ret = -2 then getRtype n
      else if ret = -1 then fail
      else pure ret.toNat

/-! ## Data -/

/-- `js_adduint16` to a string with room for `max` bytes. -/
def add16 (max : Nat) (o : List UInt8) (n : Nat) : Option (List UInt8) :=
  if n > 65535 then none else jsAppend max o [UInt8.ofNat (n / 256), UInt8.ofNat n]

/-- `js_adduint32` -/
def add32 (max : Nat) (o : List UInt8) (n : Nat) : Option (List UInt8) := jsAppend max o (Zf.u32 n)

/-- The loop of `process_ipv4_ddip`, Csv2_rr_a.c:49-87. -/
def ddipLoop : Nat → (nums : Nat) → List UInt8 → P (List UInt8)
  | 0, _, _ => fail
  | n + 1, k, o => do
    let c ← readUnicode
    if c = -164 then fail
    else if c = 35 ∧ k = 4 then do comment; pure o
    else if c = 46 ∧ k < 4 then do let o ← orDie (appendUtf8 256 o 46); ddipLoop n (k + 1) o
    else if c = 46 then die
    else if isNumber c then do let o ← orDie (appendUtf8 256 o c); ddipLoop n k o
    else if isDelim c ∧ k = 4 then pure o
    else die

/-- Where the next dot is, from a place on: `js_match_offset` for one character, JsStr.c:412-483. -/
def findDot : Nat → List UInt8 → Nat → Option Nat
  | _, [], _ => none
  | off, c :: r, i => if i ≥ off ∧ c = 46 then some i else findDot off r (i + 1)

/-- `ddip_2_ip`, ParseCsv1.c:429-535, for a string of digits and dots: `off` is where to read a number, or nothing
(-1) if there is none; `js_atoi` compares that with an unsigned number and gives 0 (JsStrCP.c:93), and the next dot is
looked for from the beginning. -/
def ddipToIp (t : List UInt8) : Nat → (off : Option Nat) → List UInt8 → P (List UInt8)
  | 0, off, ip => if off.isSome then fail else pure ip
  | n + 1, none, ip => ddipToIp t n ((findDot 0 t 0).map (· + 1)) (ip ++ [0])
  | n + 1, some off, ip =>
    match (if off ≥ t.length then some 0 else atoi (t.drop off) 0) with
    | none => undef
    | some v =>
      if v > 255 then fail
      else ddipToIp t n ((findDot (off + 1) t 0).map (· + 1)) (ip ++ [UInt8.ofNat v])

/-- `csv2_get_a`, Csv2_rr_a.c:95-120. -/
def getA : P (List UInt8) := do
  let q ← get1st isNumber 0
  if q ≠ 1 then fail
  else do
    let o ← process1st isNumber []
    let t ← ddipLoop 10000 1 o
    ddipToIp t 4 (some 0) []

/-- How many digits (or colons) come next: `count_thingys`, Parse_ipv6.c:149-172. -/
def countHere (p : UInt8 → Bool) (t : List UInt8) : Nat := (t.takeWhile p).length

/-- `hchar_to_nybble` and `is_hex_digit`, Parse_ipv6.c:67-77, 126-129. -/
def nybble (c : UInt8) : Option Nat :=
  if 48 ≤ c ∧ c ≤ 57 then some (c.toNat - 48)
  else if 97 ≤ c ∧ c ≤ 102 then some (c.toNat - 87)
  else if 65 ≤ c ∧ c ≤ 70 then some (c.toNat - 55)
  else none

/-- Setting one half of a byte: `set_nybble`, Parse_ipv6.c:35-61.  The sixteen bytes are given as 32 halves; a place
in front of them is outside of the string.  (Places are set four at a time from a multiple of four below 32 on, so that
none is behind them.) -/
def setNybble (o : List Nat) (place : Int) (v : Nat) : Option (List Nat) :=
  if place < 0 then none
  else some (o.set place.toNat v)

/-- Setting several of them one after the other. -/
def setAll (o : List Nat) (place : Int) : List Nat → Option (List Nat)
  | [] => some o
  | v :: r => (setNybble o place v).bind fun o => setAll o (place + 1) r

/-- The loop of `ip6_to_raw`, Parse_ipv6.c:277-368: `place` is `output_point`, `c` the number of groups so far,
`first` is `init_colon`. -/
def ip6Loop : Nat → List UInt8 → (place : Int) → (c : Nat) → (skipped first : Bool) → List Nat → P (List Nat)
  | 0, _, _, _, _, _, _ => fail
  | n + 1, t, place, c, skipped, first, o =>
    if ¬ (place < 32 ∧ t ≠ []) then (if t = [] then pure o else fail)
    else
      let k := countHere (fun b => (nybble b).isSome) t
      let zeros (t : List UInt8) (place : Int) (first : Bool) (o : List Nat) : P (List Nat) :=
        let q := countHere (· == 58) t
        if q = 2 then
          if skipped then fail
          else
            let cc : Int := (t.drop 1).countP (· == 58)
            let cc := if first then cc - 1 else cc
            ip6Loop n (t.drop 2) (place + 4 * (8 - (c + 1) - cc)) (c + 1) true false o
        else if q = 1 then ip6Loop n (t.drop 1) place (c + 1) skipped false o
        else if t = [] then pure o
        else fail
      if first = true ∧ k = 0 then zeros t place true o
      else if k > 4 ∨ k < 1 then fail
      else
        match setAll o place (List.replicate (4 - k) 0 ++ (t.take k).map fun b => (nybble b).getD 0) with
        | none => undef
        | some o => zeros (t.drop k) (place + 4) false o

/-- The bytes of the halves. -/
def joinNybbles : List Nat → List UInt8
  | a :: b :: r => UInt8.ofNat (a * 16 + b) :: joinNybbles r
  | _ => []

/-- `ip6_to_raw`, Parse_ipv6.c:245-369; a string of 256 bytes is full (`count_thingys`, :154). -/
def ip6ToRaw (t : List UInt8) : P (List UInt8) := do
  if t.length ≥ 256 then fail
  else do
    let o ← ip6Loop (t.length + 1) t 0 0 false true (List.replicate 32 0)
    pure (joinNybbles o)

/-- `csv2_get_aaaa`, Csv2_rr_aaaa.c:50-71. -/
def getAaaa : P (List UInt8) := do
  let q ← get1st isHexOrColon 0
  if q ≠ 1 then fail
  else do
    let t ← something isHexOrColon
    ip6ToRaw t

/-- A name among the data. -/
def getName (origin : List UInt8) : P (List UInt8) := do
  let q ← get1st isDchar 0
  if q ≠ 1 then fail else hostname origin 3

/-- `csv2_get_mx`, Csv2_parse.c:1269-1316: `pref` is -1, or the priority, or -2 for two names. -/
def getMx (origin : List UInt8) (pref : Int) : P (List UInt8) := do
  let num ← if pref < 0 then getNat else pure pref.toNat
  let o ← orFail (add16 256 [] num)
  let w ← getName origin
  let o ← orFail (jsAppend 256 o w)
  if pref = -2 then do
    let w ← getName origin
    orFail (jsAppend 256 o w)
  else pure o

/-- `csv2_get_srv`, Csv2_parse.c:1320-1359. -/
def getSrv (origin : List UInt8) : P (List UInt8) := do
  let a ← getNat
  let o ← orFail (add16 256 [] a)
  let b ← getNat
  let o ← orFail (add16 256 o b)
  let c ← getNat
  let o ← orFail (add16 256 o c)
  let w ← getName origin
  orFail (jsAppend 256 o w)

/-- The loop of `process_mbox` over what is before the `@`, Csv2_rr_soa.c:56-128; `x` says that it is the first turn.
`true` is what goes on with `js_append_dname`. -/
def mboxLoop : Nat → (x : Bool) → List UInt8 → P (Bool × List UInt8)
  | 0, _, o => pure (true, o)
  | n + 1, x, o => do
    let c ← readUnicode
    if x = true ∧ o[1]? = some 46 then
      if isDelim c then pure (false, o) else die
    else if c = -164 then fail
    else if c = 64 then do
      let o ← orDie (appendUtf8 256 o c)
      pure (true, o)
    else if c = 46 then do
      let o ← orDie (appendUtf8 256 o c)
      let c ← readUnicode
      if isText c then do
        let o ← orDie (appendUtf8 256 o c)
        pure (true, o)
      else die
    else if c = 92 then do
      let d ← readUnicode
      if d ≠ 46 then die
      else do
        let o ← orDie (appendUtf8 256 o 46)
        let c ← readUnicode
        if isB4At c then do
          let o ← orDie (appendUtf8 256 o c)
          mboxLoop n false o
        else die
    else if isB4At c then do
      let o ← orDie (appendUtf8 256 o c)
      mboxLoop n false o
    else die

/-- `process_mbox`, Csv2_rr_soa.c:45-134. -/
def processMbox : P (List UInt8) := do
  let o ← process1st isAlphanumOrDot [90]
  let (more, o) ← mboxLoop 10000 true o
  if more then appendDname o 0 else pure o

/-- The loop of `email_2rfc1035`, Queries.c:655-684, with an `@` in the string: `at` says that it has been seen. -/
def mailLoop : List UInt8 → (cur : List UInt8) → (seen : Bool) → Option (List UInt8)
  | [], cur, _ => if cur = [] then some [0] else none
  | c :: r, cur, seen =>
    if (seen = true ∧ c = 46) ∨ (seen = false ∧ c = 64) then
      if cur.length < 1 ∨ cur.length > 63 then none
      else match mailLoop r [] true with
        | none => none
        | some w => some (UInt8.ofNat cur.length :: cur ++ w)
    else mailLoop r (cur ++ [c]) seen

/-- `email_2rfc1035`, Queries.c:629-687, over what comes after the first byte.  What ends in `@` is refused, too. -/
def mailWire (t : List UInt8) : P (List UInt8) :=
  if t = [] then undef
  else if t = [46] then pure [0]
  else if 64 ∉ t then wire t
  else if t.getLast? = some 64 then fail
  else orFail (mailLoop t [] false)

/-- `csv2_get_mbox`, Csv2_rr_wks.c:230-268. -/
def getMbox (origin : List UInt8) : Nat → List UInt8 → P (List UInt8)
  | 0, o => pure o
  | n + 1, o => do
    let q ← get1st isAlphanumOrDot 0
    if q ≠ 1 then fail
    else do
      let t ← processMbox
      let t ← orFail (percent t origin)
      let w ← mailWire t.tail
      let o ← orFail (jsAppend 512 o w)
      getMbox origin n o

/-- The numbers at the end of a SOA record, Csv2_rr_soa.c:173-191; the first may be `/serial`. -/
def soaNums (serial : Nat) : Nat → (first : Bool) → List UInt8 → P (List UInt8)
  | 0, _, o => pure o
  | n + 1, first, o => do
    let v ← getNum
    if v = -2 ∧ first = true then do
      let o ← orFail (add32 512 o serial)
      soaNums serial n false o
    else if v < 0 then fail
    else do
      let o ← orFail (add32 512 o v.toNat)
      soaNums serial n false o

/-- `csv2_get_soa`, Csv2_rr_soa.c:139-193. -/
def getSoa (origin : List UInt8) (serial : Nat) : P (List UInt8) := do
  let w ← getName origin
  let o ← orFail (jsAppend 512 [] w)
  let m ← getMbox origin 1 []
  let o ← orFail (jsAppend 512 o m)
  soaNums serial 5 true o

/-- The states of `csv2_get_string`, Csv2_rr_txt.c:30-67. -/
inductive Txt
  | plain | quote | slash | slashSpace | oct1 (n : Nat) | oct2 (n : Nat) | hex1 | hex2 (n : Nat) | between
deriving DecidableEq

/-- The string in `csv2_get_string`: what is finished, and for records in pieces the piece that is being read and the
length that is counted for it.  The C code has all in one string, with a byte left for the length. -/
structure TxtOut where
  done : List UInt8
  piece : List UInt8
  len : Nat
  count : Nat
deriving DecidableEq

/-- Is there room for `n` more bytes?  (1513 bytes; `csv2_append_utf8` fills the string up.) -/
def TxtOut.size (raw : Bool) (o : TxtOut) : Nat := o.done.length + o.piece.length + if raw then 0 else 1

/-- `csv2_txt_append`, Csv2_rr_txt.c:166-182. -/
def txtAppend (raw : Bool) (o : TxtOut) (c : Int) : P TxtOut :=
  match utf8Bytes c with
  | none => fail
  | some b =>
    if o.size raw + b.length > 1513 then fail
    else if c ≥ 0x200000 then quit
    else pure { o with piece := o.piece ++ b,
                       len := o.len + (if c < 0x80 then 1 else if c < 0x800 then 2 else if c < 0x10000 then 3 else 4) }

/-- The same after a backslash and a space, Csv2_rr_txt.c:510-514: if there is no room, then the string is freed twice. -/
def txtAppendFreed (raw : Bool) (o : TxtOut) (c : Int) : P TxtOut := fun s =>
  match txtAppend raw o c s with
  | .ok (none, _) => .ub
  | r => r

/-- `js_addbyte` for a number given in digits, e.g. Csv2_rr_txt.c:568-576. -/
def txtByte (raw : Bool) (o : TxtOut) (n : Nat) : P TxtOut :=
  if o.size raw + 1 ≥ 1513 then fail
  else pure { o with piece := o.piece ++ [UInt8.ofNat n], len := o.len + 1 }

/-- A new piece, e.g. Csv2_rr_txt.c:295-313. -/
def txtNext (o : TxtOut) : P TxtOut :=
  if o.len > 255 then die
  else if o.done.length + o.piece.length + 2 > 1513 then fail
  else pure { done := o.done ++ UInt8.ofNat o.len :: o.piece, piece := [], len := 0, count := o.count + 1 }

/-- `csv2_finalize_txt`, Csv2_rr_txt.c:187-213; `chunks` is -1 for RAW records, or how many pieces there must be (0: any
number). -/
def txtEnd (chunks : Int) (o : TxtOut) : P (List UInt8) :=
  if chunks = -1 then pure o.piece
  else if o.len > 255 then die
  else if chunks > 0 ∧ ((o.count + 1 : Nat) : Int) ≠ chunks then die
  else pure (o.done ++ UInt8.ofNat o.len :: o.piece)

/-- The value of a hexadecimal digit, Csv2_rr_txt.c:587-595. -/
def hexVal (c : Int) : Nat :=
  if isNumber c then (c - 48).toNat else if isUpper c then (c - 55).toNat else (c - 87).toNat

/-- The loop of `csv2_get_string`, Csv2_rr_txt.c:325-683 (`post_txt` is 0). -/
def txtLoop (chunks : Int) : Nat → Txt → TxtOut → P (List UInt8)
  | 0, _, _ => die
  | n + 1, st, o => do
    let c ← readUnicode
    let s ← get
    if c = -2 ∧ st ≠ .plain ∧ st ≠ .between then die
    else match st with
      | .plain =>
        if isBchar c then do let o ← txtAppend (chunks = -1) o c; txtLoop chunks n .plain o
        else if (isDelim c ∧ s.mode ≠ 103) ∨ (c = 126 ∧ s.mode = 103) ∨ (isDelim c ∧ chunks = -1) ∨ c = -2 then txtEnd chunks o
        else if c = 92 then txtLoop chunks n .slash o
        else if c = 39 then txtLoop chunks n .quote o
        else if c = 59 ∧ chunks ≠ -1 then do let o ← txtNext o; txtLoop chunks n .plain o
        else if s.mode = 103 ∧ isDelim c ∧ c ≠ 124 then txtLoop chunks n .between o
        else if c = 35 then do
          comment
          if s.mode ≠ 103 then txtEnd chunks o else txtLoop chunks n .plain o
        else die
      | .quote =>
        if c = 39 then txtLoop chunks n .plain o
        else if s.mode = 103 then
          if c = 35 ∨ c = 124 ∨ c = 126 then die
          else if c = 127 then do close; txtLoop chunks n .quote o
          else if c < 32 then die
          else do let o ← txtAppend (chunks = -1) o c; txtLoop chunks n .quote o
        else do let o ← txtAppend (chunks = -1) o c; txtLoop chunks n .quote o
      | .slash =>
        if c = 39 then do let o ← txtAppend (chunks = -1) o c; txtLoop chunks n .plain o
        else if c = 124 then die
        else if c = 35 then do comment; txtLoop chunks n .slashSpace o
        else if isDelim c then txtLoop chunks n .slashSpace o
        else if c ≥ 48 ∧ c ≤ 51 then txtLoop chunks n (.oct1 (c - 48).toNat) o
        else if c = 120 then txtLoop chunks n .hex1 o
        else die
      | .slashSpace =>
        if isBchar c then do let o ← txtAppendFreed (chunks = -1) o c; txtLoop chunks n .plain o
        else if c = 39 then txtLoop chunks n .quote o
        else if c = 124 then die
        else if c = 35 then do comment; txtLoop chunks n .slashSpace o
        else if isDelim c then txtLoop chunks n .slashSpace o
        else if c = 92 then txtLoop chunks n .slash o
        else die
      | .oct1 v => if c ≥ 48 ∧ c ≤ 55 then txtLoop chunks n (.oct2 (v * 8 + (c - 48).toNat)) o else die
      | .oct2 v =>
        if c ≥ 48 ∧ c ≤ 55 then do let o ← txtByte (chunks = -1) o (v * 8 + (c - 48).toNat); txtLoop chunks n .plain o
        else die
      | .hex1 => if isHex c then txtLoop chunks n (.hex2 (hexVal c)) o else die
      | .hex2 v => if isHex c then do let o ← txtByte (chunks = -1) o (v * 16 + hexVal c); txtLoop chunks n .plain o else die
      | .between =>
        if c = 35 then do comment; txtLoop chunks n .between o
        else if c = 126 ∨ c = -2 then txtEnd chunks o
        else if c = 39 ∨ c = 92 then do
          if chunks = -1 then fail
          else do let o ← txtNext o; txtLoop chunks n (if c = 39 then .quote else .slash) o
        else if c = 124 then die
        else if isDelim c = false then die
        else txtLoop chunks n .between o

/-- `csv2_get_string`, Csv2_rr_txt.c:221-689.  `txt_len` is not set for RAW records (:225, :261); it is then counted
with, but not used. -/
def getString (chunks : Int) : P (List UInt8) := do
  modify fun s => if s.mode = 103 then { s with tildeOk := true } else s
  let q ← get1st isTxtChar 0
  if q ≠ 1 then fail
  else do
    let s ← get
    let c := s.just
    let o : TxtOut := ⟨[], [], 0, 0⟩
    if isBchar c then do let o ← txtAppend (chunks = -1) o c; txtLoop chunks 10000 .plain o
    else if c = 92 then txtLoop chunks 10000 .slash o
    else if c = 39 then txtLoop chunks 10000 .quote o
    else if c = 59 ∧ chunks ≠ -1 then do let o ← txtNext o; txtLoop chunks 10000 .plain o
    else die

/-! ## Records and commands -/

/-- What is given to `csv2_add_rr`; without data if these are wrong in a record without a type. -/
structure Entry where
  name : List UInt8
  type : Nat
  ttl : Int
  data : Option (List UInt8)
deriving DecidableEq

/-- The part of `csv2_add_state` that the parser uses. -/
structure Ps where
  origin : List UInt8
  ostack : List (List UInt8) := []
  height : Nat := 0
  ttl : Nat := 86400
  serial : Nat := 1
deriving DecidableEq

/-- What comes of a turn: `found` is a record, `again` is a slash command, `done` is the end of the file, `stop` is an
error, `other` a type that is not modelled. -/
inductive Step
  | found (e : Entry) | again (p : Ps) | done | stop | other
deriving DecidableEq

/-- A new origin, Csv2_parse.c:1465-1495 and 1507-1537. -/
def newOrigin (p : Ps) : P (List UInt8) := do
  let c ← readUnicode
  if isDelim c = false then die
  else do
    let q ← get1st isDchar 0
    if q ≠ 1 then die
    else do
      let n ← process1st isStar []
      let n ← appendDname n 3
      orDie (percent n p.origin)

/-- What is ignored after the name of a file, Csv2_parse.c:1601-1606. -/
def skipLine : Nat → Stream → Stream
  | 0, s => s
  | n + 1, s =>
    let (c, s) := readChar s
    if c = 126 ∨ c = 10 then s else skipLine n s

/-- `csv2_push_file`, Csv2_read.c:312-361. -/
def pushFile (files : List UInt8 → Option (List UInt8)) (name : Option (List UInt8)) (s : Stream) : Stream :=
  match name with
  | none => s
  | some name =>
    if s.stack.length > 7 then s
    else match files name with
      | none => s
      | some f => { s with input := f, stack := s.input :: s.stack, newline := true }

/-- `/read`, Csv2_parse.c:1588-1608. -/
def readCmd (files : List UInt8 → Option (List UInt8)) : P Unit := do
  let c ← readUnicode
  if isDelim c = false then die
  else fun s =>
    let go (name : Option (List UInt8)) (s : Stream) : Res (Option Unit × Stream) :=
      .ok (some (), pushFile files name (skipLine 10000 { s with tildeOk := true }))
    match (do let q ← get1st isFchar 0; if q ≠ 1 then fail else something isFchar : P (List UInt8)) s with
    | .ok (name, s) => go name s
    | .err => .err
    | .ub => .ub

/-- The slash commands, Csv2_parse.c:1409-1614. -/
def slash (files : List UInt8 → Option (List UInt8)) (p : Ps) : P Ps := do
  let c ← readUnicode
  if c = 116 then do
    let b ← expectAll [116, 108]
    if b = false then die
    else do
      let c ← readUnicode
      if isDelim c = false then die
      else do
        let n ← getNat
        pure { p with ttl := n }
  else if c = 111 then do
    let c ← readUnicode
    if c = 114 then do
      let b ← expectAll [105, 103, 105, 110]
      if b = false then die
      else do
        let n ← newOrigin p
        pure { p with origin := n }
    else if c = 112 then do
      let c ← readUnicode
      if c = 117 then do
        let b ← expectAll [115, 104]
        if b = false then die
        else do
          let n ← newOrigin p
          if p.height > 7 then die
          else pure { p with origin := n, ostack := p.origin :: p.ostack, height := p.height + 1 }
      else if c = 111 then do
        let b ← expectAll [112]
        if b = false then die
        else do
          let c ← readUnicode
          if isDelim c = false then die
          else if p.height < 1 ∨ p.height > 8 then die
          else match p.ostack with
            | [] => die
            | o :: r => pure { p with origin := o, ostack := r }
      else die
    else die
  else if c = 114 then do
    let b ← expectAll [101, 97, 100]
    if b = false then die
    else do
      readCmd files
      pure p
  else die

/-- The data of a record by type, Csv2_parse.c:1698-1842; also the type that is kept.  Nothing is a type that is not
modelled. -/
def getData (p : Ps) (rtype : Nat) : P (Option (Nat × List UInt8)) := do
  let s ← get
  let first := decide (s.mode = 2 ∨ s.mode = 102)
  let kept (x : P (List UInt8)) : P (Option (Nat × List UInt8)) := do let d ← x; pure (some (rtype, d))
  if rtype = 1 ∨ rtype = 65765 then kept getA
  else if rtype = 28 ∨ rtype = 65766 then kept getAaaa
  else if rtype = 6 then kept (getSoa p.origin p.serial)
  else if rtype = 15 ∨ rtype = 18 ∨ rtype = 21 then kept (getMx p.origin (-1))
  else if rtype = 33 then kept (getSrv p.origin)
  else if rtype = 16 ∨ rtype = 19 ∨ rtype = 20 ∨ rtype = 99 then if first then die else kept (getString 0)
  else if rtype = 8 ∨ rtype = 9 then kept (getMbox p.origin 1 [])
  else if rtype = 14 ∨ rtype = 17 then kept (getMbox p.origin 2 [])
  else if rtype = 2 ∨ rtype = 5 ∨ rtype = 12 ∨ rtype = 23 ∨ rtype = 7 then kept (getName p.origin)
  else if rtype = 13 then kept (getString 2)
  else if rtype = 27 then kept (getString 3)
  else if rtype = 3 then do let d ← getMx p.origin 0; pure (some (15, d))
  else if rtype = 4 then do let d ← getMx p.origin 10; pure (some (15, d))
  else if rtype = 26 then kept (getMx p.origin (-2))
  else if (rtype = 11 ∨ rtype = 29) ∧ first = true then die
  else if rtype = 11 ∨ rtype = 29 ∨ rtype = 22 ∨ rtype = 35 then pure none
  else if rtype ≥ 100000 ∧ rtype ≤ 165535 then
    let t := rtype - 100000
    if t = 255 ∨ t = 251 ∨ t = 252 ∨ t = 253 ∨ t = 254 ∨ t = 38 ∨ t = 39 ∨ t = 41 then die
    else do let d ← getString (-1); pure (some (t, d))
  else die

/-- An address without a type, Csv2_parse.c:1679-1688: `csv2_add_rr` is called even if the address is wrong. -/
def bareA (name : List UInt8) (ttl : Int) : P (Option Entry) := fun s =>
  match getA s with
  | .ok (d, s) => .ok (some (some ⟨name, 1, ttl, d⟩), s)
  | .err => .err
  | .ub => .ub

/-- The record after the name, Csv2_parse.c:1622-1855. -/
def record (p : Ps) : P (Option Entry) := do
  let name ← hostname p.origin 1
  let q ← get1st isAlphanumOrPlus 0
  if q < 0 then die
  else do
    let s ← get
    let ttl ← if s.just = 43 then do
        let c ← readUnicode
        if c < 0 then die
        else do
          let n ← getNat
          let q ← get1st isAlphanum 0
          if q < 0 then die else pure n
      else pure p.ttl
    let s ← get
    if isAlpha s.just then do
      let t ← getRtype (s.input.length + (s.stack.map List.length).sum + 2)
      let d ← getData p t
      match d with
      | none => pure none
      | some (t, d) => pure (some ⟨name, t, ttl, some d⟩)
    else if isNumber s.just then bareA name ttl
    else die

/-- One turn of `csv2_read_rr`, Csv2_parse.c:1366-1855. -/
def readRr (files : List UInt8 → Option (List UInt8)) (p : Ps) (s : Stream) : Res (Step × Stream) :=
  match get1st isStarOrSlash 1 s with
  | .ub => .ub
  | .err => .err
  | .ok (none, s) => .ok (.stop, s)
  | .ok (some q, s) =>
    if q = -2 then .ok (.done, s)
    else if q = -1 then .ok (.stop, s)
    else if s.just = 47 then
      match slash files p s with
      | .ok (some p, s) => .ok (.again p, s)
      | .ok (none, s) => .ok (.stop, s)
      | .err => .err
      | .ub => .ub
    else
      match record p s with
      | .ok (some (some e), s) => .ok (.found e, s)
      | .ok (some none, s) => .ok (.other, s)
      | .ok (none, s) => .ok (.stop, s)
      | .err => .err
      | .ub => .ub

/-- The outcome of reading a file. -/
inductive Outcome
  | read (l : List Entry) | partly (l : List Entry) | other | more
deriving DecidableEq

def Outcome.cons (e : Entry) : Outcome → Outcome
  | .read l => .read (e :: l)
  | .partly l => .partly (e :: l)
  | .other => .other
  | .more => .more

/-- The loop of `csv2_parse_zone`, Csv2_main.c:645-649: `left` is how many records may be read (100000 at the start).
`fuel` is for the slash commands only; `more` is that it does not suffice.  `partly` is that the file is left because of
an error or of too many records. -/
def parse (files : List UInt8 → Option (List UInt8)) : (fuel left : Nat) → Ps → Stream → Res Outcome
  | 0, _, _, _ => .ok .more
  | _, 0, _, _ => .ok (.partly [])
  | fuel + 1, left + 1, p, s =>
    match readRr files p s with
    | .ub => .ub
    | .err => .err
    | .ok (.done, _) => .ok (.read [])
    | .ok (.stop, _) => .ok (.partly [])
    | .ok (.other, _) => .ok .other
    | .ok (.again p, s) => parse files fuel (left + 1) p s
    | .ok (.found e, s) =>
      match parse files fuel left p s with
      | .ub => .ub
      | .err => .err
      | .ok o => .ok (o.cons e)

end Csv2
end Mara
