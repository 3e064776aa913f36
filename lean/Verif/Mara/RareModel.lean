import Verif.Mara.Csv2Model

/-!
# Model: the data of NSAP, WKS, LOC and NAPTR records, parse/Csv2_rr_wks.c

The parsers of the record types that `Verif.Mara.Csv2Model` leaves out, on its streams.  `int`
has 32 bits; an overflow of it is undefined behaviour.  Memory is taken to be available.
-/

namespace Mara
namespace Csv2

open Dw (Res)

/-! ## NSAP -/

/-- Dots before a byte, Csv2_rr_wks.c:311-314. -/
def skipDots : Nat → Int → P Int
  | 0, c => pure c
  | n + 1, c => if c = 46 then do let c ← readUnicode; skipDots n c else pure c

/-- The value of a digit, Csv2_rr_wks.c:315-323 and 341-349.  The letters count from zero. -/
def hexNybble (c : Int) : Option Nat :=
  if c ≥ 48 ∧ c ≤ 57 then some (c - 48).toNat
  else if c ≥ 97 ∧ c ≤ 102 then some (c - 97).toNat
  else if c ≥ 65 ∧ c ≤ 70 then some (c - 65).toNat
  else none

/-- The loop of `csv2_get_hex`, Csv2_rr_wks.c:305-368.  A string of 256 bytes takes no more than
250 bytes (:360); the condition of the loop never fails, because what it looks at is a digit. -/
def hexLoop : Nat → List UInt8 → P (List UInt8)
  | n, o => do
    let c ← readUnicode
    let c ← skipDots 10000 c
    match hexNybble c with
    | none => if c = -2 ∨ isDelim c then pure o else die
    | some l => do
      let c ← readUnicode
      match hexNybble c with
      | none => die
      | some r =>
        match n with
        | 0 => fail
        | n + 1 => hexLoop n (o ++ [UInt8.ofNat (l * 16 + r)])

/-- `csv2_get_hex`, Csv2_rr_wks.c:281-371. -/
def getHex : P (List UInt8) := do
  let q ← get1st isNumber 0
  if q ≠ 1 then fail
  else do
    let s ← get
    if s.just ≠ 48 then fail
    else do
      let c ← readUnicode
      if c ≠ 120 then fail else hexLoop 250 []

/-! ## WKS -/

/-- `csv2_is_wks`, Csv2_rr_wks.c:40-42. -/
def isWks (c : Int) : Bool := c = 44 ∨ c = 9 ∨ c = 32

/-- `csv2_allow_tilde` where tildes separate records, Csv2_rr_wks.c:89-91. -/
def allowTilde : P Unit := modify fun s => if s.mode = 103 then { s with tildeOk := true } else s

/-- The loop over the ports, Csv2_rr_wks.c:94-163: the ports that are ended, and the number at
the end. -/
def portLoop (tilde : Bool) : Nat → Int → (num : Nat) → List Nat → P (List Nat × Nat)
  | 0, _, num, ps => pure (ps, num)
  | n + 1, c, num, ps => do
    if tilde = false ∧ (c = -2 ∨ c = 10 ∨ c = 13) then pure (ps, num)
    else if tilde = false ∧ c = 35 then do comment; pure (ps, num)
    else if tilde = true ∧ c = 126 then pure (ps, num)
    else if tilde = true ∧ c = 35 then do
      comment
      let c ← readUnicode
      portLoop tilde n c num ps
    else if isNumber c then
      let num := num * 10 + (c - 48).toNat
      if num > 100000 then fail
      else do
        let c ← readUnicode
        portLoop tilde n c num ps
    else if isWks c ∨ (tilde = true ∧ (c = 13 ∨ c = 10)) then
      if ps.length ≥ 10 then fail
      else if num > 1024 then fail
      else do
        let c ← readUnicode
        portLoop tilde n c 0 (ps ++ [num])
    else fail

/-- One port in the bitmap, Csv2_rr_wks.c:212-223; outside of the bitmap nothing is written, and
the record is refused. -/
def setPort (len : Nat) (m : List Nat) (p : Nat) : Option (List Nat) :=
  if p / 8 ≥ len then none
  else if h : p / 8 < m.length then some (m.set (p / 8) (m[p / 8] ||| 2 ^ (7 - p % 8))) else none

/-- Csv2_rr_wks.c:171-226: the last number is looked at for the length only. -/
def portBits (ps : List Nat) (last : Nat) : P (List UInt8) :=
  let used := decide (last > 0 ∧ last < 1024)
  if used ∧ ps.length ≥ 10 then fail
  else
    let hi := (if used then ps ++ [last] else ps).foldl max 0
    orFail ((ps.foldlM (setPort (hi / 8 + 6)) (List.replicate (hi / 8 + 1) 0)).map
      fun m => m.map UInt8.ofNat)

/-- `csv2_get_wks`, Csv2_rr_wks.c:56-228. -/
def getWks : P (List UInt8) := do
  let q ← get1st isNumber 0
  if q ≠ 1 then fail
  else do
    let o ← process1st isNumber []
    let t ← ddipLoop 10000 1 o
    let prot ← getNum
    if prot < 0 then fail
    else do
      let q ← get1st isNumber 0
      if q ≠ 1 then fail
      else do
        allowTilde
        let s ← get
        let (ps, last) ← portLoop (s.mode = 103) 1000 s.just 0 []
        let ip ← ddipToIp t 4 (some 0) []
        let bits ← portBits ps last
        pure (ip ++ [UInt8.ofNat prot.toNat] ++ bits)

/-! ## LOC -/

/-- An `int` does not overflow. -/
def int32 (x : Int) : P Int := if x > 2147483647 ∨ x < -2147483648 then undef else pure x

/-- The digits after the dot, Csv2_rr_wks.c:412-416. -/
def fracLoop : Nat → Int → Int → P Int
  | 0, _, d => pure d
  | k + 1, c, d =>
    if isNumber c then do
      let e ← readUnicode
      fracLoop k e (d + (c - 48) * (10 ^ k : Nat))
    else pure d

/-- The loop of `csv2_get_int`, Csv2_rr_wks.c:401-421. -/
def intLoop (m : Nat) (sign : Int) : Nat → Int → Int → P Int
  | 0, _, _ => pure 0
  | n + 1, c, out =>
    if isNumber c then do
      let out ← int32 (out * 10 + (c - 48))
      let c ← readUnicode
      intLoop m sign n c out
    else if c = 46 then do
      let out ← int32 (out * (10 ^ m : Nat))
      let c ← readUnicode
      let d ← fracLoop m c 0
      let r ← int32 (out + d)
      pure (r * sign)
    else do
      let r ← int32 (out * (10 ^ m : Nat))
      pure (r * sign)

/-- `csv2_get_int`, Csv2_rr_wks.c:378-424; `m` is the number of digits behind the dot. -/
def getInt (m : Nat) : P Int := do
  let s ← get
  if s.just = 45 then do
    let c ← readUnicode
    intLoop m (-1) 100 c 0
  else intLoop m 1 100 s.just 0

/-- `process:` in `csv2_get_lon_lat`, Csv2_rr_wks.c:468-486. -/
def lonLatEnd (pos neg : List Int) (deg mins secs look : Int) : P Nat :=
  if look ∉ pos ∧ look ∉ neg then pure 0
  else do
    let a ← int32 (deg * 3600000)
    let b ← int32 (mins * 60000)
    let c ← int32 (a + b)
    let d ← int32 (c + secs)
    let _ ← readUnicode
    pure ((if look ∈ pos then 2147483648 + d else 2147483648 - d) % 4294967296).toNat

/-- `csv2_get_lon_lat`, Csv2_rr_wks.c:427-488; 0 when something is wrong. -/
def lonLat (pos neg : List Int) : P Nat := do
  let q ← get1st isNumber 0
  if q ≠ 1 then pure 0
  else do
    let deg ← getInt 0
    let q ← get1st isAlphanum 0
    if q ≠ 1 then pure 0
    else do
      let s ← get
      if s.just ∈ pos ∨ s.just ∈ neg then lonLatEnd pos neg deg 0 0 s.just
      else if isNumber s.just = false then pure 0
      else do
        let mins ← getInt 0
        let q ← get1st isAlphanum 0
        if q ≠ 1 then pure 0
        else do
          let s ← get
          if s.just ∈ pos ∨ s.just ∈ neg then lonLatEnd pos neg deg mins 0 s.just
          else if isNumber s.just = false then pure 0
          else do
            let secs ← getInt 3
            let q ← get1st isAlphanum 0
            if q ≠ 1 then pure 0
            else do
              let s ← get
              lonLatEnd pos neg deg mins secs s.just

/-- `csv2_is_signed_num`, Csv2_rr_wks.c:50-52. -/
def isSigned (c : Int) : Bool := isNumber c ∨ c = 45

/-- How a size is written, Csv2_rr_wks.c:538-546: from a number of metres. -/
def sizeLoop : Nat → Nat → Nat → Nat × Nat
  | 0, g, q => (g, q)
  | n + 1, g, q => if g ≥ 10 then sizeLoop n (g / 10) (q + 1) else (g, q)

/-- Csv2_rr_wks.c:534-546. -/
def sizeByte (g : Nat) : Nat :=
  let r := sizeLoop 9 g 1
  r.1 % 16 * 16 + (r.2 + 1) % 16

/-- The loop over the size and the precisions, Csv2_rr_wks.c:528-604. -/
def sizesLoop (tilde : Bool) : Nat → Int → Option Nat → List Nat → P (List Nat)
  | 0, _, _, out => pure out
  | n + 1, c, g, out =>
    let ends : Bool := isWks c ∨ c = 13 ∨ c = 10 ∨ c = -2 ∨ c = 35
    if ends ∧ g.isSome ∧ out.length ≥ 3 then fail
    else
      let out := if ends then out ++ (g.map sizeByte).toList else out
      let g := if ends then none else g
      if tilde = false ∧ (c = -2 ∨ c = 10 ∨ c = 13) then pure out
      else if tilde = false ∧ c = 35 then do comment; pure out
      else if tilde = true ∧ c = 126 then pure out
      else if tilde = true ∧ c = 35 then do
        comment
        let c ← readUnicode
        sizesLoop tilde n c g out
      else if isNumber c then do
        let v ← int32 (g.getD 0 * 10 + (c - 48))
        let c ← readUnicode
        sizesLoop tilde n c (some v.toNat) out
      else if isWks c ∨ c = 109 ∨ (tilde = true ∧ (c = 13 ∨ c = 10)) then do
        let c ← readUnicode
        sizesLoop tilde n c g out
      else fail

/-- `csv2_get_loc`, Csv2_rr_wks.c:491-641.  What `csv2_get_1st` says of the altitude is not looked
at (:509). -/
def getLoc : P (List UInt8) := do
  let lat ← lonLat [78, 110] [83, 115]
  let lon ← lonLat [69, 101] [87, 119]
  let _ ← get1st isSigned 0
  let a ← getInt 2
  let a ← int32 (a + 10000000)
  if a < 0 then fail
  else do
    let c ← readUnicode
    let c ← if c = 109 then readUnicode else pure c
    allowTilde
    let s ← get
    let out ← sizesLoop (s.mode = 103) 1000 c none []
    pure ([0, UInt8.ofNat (out.getD 0 0x12), UInt8.ofNat (out.getD 1 0x16),
      UInt8.ofNat (out.getD 2 0x13)] ++ Zf.u32 lat ++ Zf.u32 lon ++ Zf.u32 a.toNat)

/-! ## NAPTR -/

/-- `csv2_get_naptr`, Csv2_rr_wks.c:640-717, in a zone file that does not use tildes between records: there
`csv2_get_string` does the same with a `post_txt` of 1 and of 0.  The zone that the name is taken to be in is empty. -/
def getNaptr : P (List UInt8) := do
  let a ← getNat
  let o ← orFail (add16 256 [] a)
  let b ← getNat
  let o ← orFail (add16 256 o b)
  let t ← getString 3
  let o ← orFail (jsAppend 256 o t)
  let w ← getName []
  orFail (jsAppend 256 o w)

end Csv2
end Mara
