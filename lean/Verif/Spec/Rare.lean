import Verif.Spec.ZoneText

/-!
# Specification: NSAP, LOC, WKS and NAPTR records in zone files

How they are written, from doc/en/source/csv2.ej, and what their data are, from RFC 1706, RFC 1876,
RFC 1035 and RFC 2915.  Nothing here refers to the parser.
-/

namespace Spec
namespace Rare

open Spec.ZoneText

/-- A byte in hexadecimal, with dots in front of it. -/
structure HexByte where
  dots : Nat
  left : UInt8
  right : UInt8

namespace HexByte

def text (h : HexByte) : List UInt8 := List.replicate h.dots 46 ++ [h.left, h.right]

structure Ok (h : HexByte) : Prop where
  left : (hexDigit h.left).isSome = true
  right : (hexDigit h.right).isSome = true
  dots : h.dots < 10000

/-- The byte. -/
def data (h : HexByte) : UInt8 :=
  UInt8.ofNat ((hexDigit h.left).getD 0 * 16 + (hexDigit h.right).getD 0)

/-- Both digits are decimal ones. -/
def decimal (h : HexByte) : Bool := isDigit h.left && isDigit h.right

end HexByte

/-- A number with or without digits behind a dot. -/
structure Dec where
  whole : List UInt8
  frac : Option (List UInt8)

namespace Dec

def text (d : Dec) : List UInt8 :=
  d.whole ++ match d.frac with | none => [] | some f => 46 :: f

/-- The number times `10 ^ m`. -/
def scaled (m : Nat) (d : Dec) : Nat :=
  value d.whole * 10 ^ m + match d.frac with | none => 0 | some f => value f * 10 ^ (m - f.length)

structure Ok (m : Nat) (d : Dec) : Prop where
  digits : ∀ c ∈ d.whole, isDigit c = true
  some : d.whole ≠ []
  short : d.whole.length < 100
  fdigits : ∀ f ∈ d.frac, ∀ c ∈ f, isDigit c = true
  fshort : ∀ f ∈ d.frac, f.length ≤ m
  small : d.scaled m ≤ 2147483647

end Dec

/-- A gap whose first piece is not a comment. -/
def GapOk (g : Gap) : Prop := g.Ok ∧ g.first.isComment = false

/-- A latitude or longitude: degrees, minutes, seconds, and the letter of the direction. -/
structure Angle where
  deg : Dec
  g1 : Gap
  mins : Dec
  g2 : Gap
  secs : Dec
  g3 : Gap
  letter : UInt8

namespace Angle

def text (a : Angle) : List UInt8 :=
  a.deg.text ++ (a.g1.text ++ (a.mins.text ++ (a.g2.text ++ (a.secs.text ++ (a.g3.text ++ [a.letter])))))

/-- In thousandths of a second. -/
def ms (a : Angle) : Nat := a.deg.scaled 0 * 3600000 + a.mins.scaled 0 * 60000 + a.secs.scaled 3

/-- As in RFC 1876: 2^31 is the equator or the meridian. -/
def val (pos : List UInt8) (a : Angle) : Nat :=
  if a.letter ∈ pos then 2147483648 + a.ms else 2147483648 - a.ms

structure Ok (pos neg : List UInt8) (a : Angle) : Prop where
  deg : a.deg.Ok 0
  mins : a.mins.Ok 0
  secs : a.secs.Ok 3
  g1 : GapOk a.g1
  g2 : GapOk a.g2
  g3 : GapOk a.g3
  letter : a.letter ∈ pos ∨ a.letter ∈ neg
  small : a.ms ≤ 2147483647
  plain : a.deg.frac = none ∧ a.mins.frac = none

end Angle

/-- A size or a precision: what stands before it, and a number of metres. -/
structure Size where
  sep : UInt8
  digits : List UInt8

namespace Size

def text (z : Size) : List UInt8 := z.sep :: (z.digits ++ [109])

structure Ok (z : Size) : Prop where
  sep : z.sep = 32 ∨ z.sep = 9 ∨ z.sep = 44
  digits : ∀ c ∈ z.digits, isDigit c = true
  some : z.digits ≠ []
  small : value z.digits ≤ 2147483647

end Size

/-- A byte that says a length as RFC 1876 has it, in centimetres: a digit and a power of ten. -/
def cm (b : Nat) : Nat := b / 16 * 10 ^ (b % 16)

/-- The byte says the length as closely as one digit can. -/
def Tells (b g : Nat) : Prop :=
  b / 16 ≤ 9 ∧ (0 < g → 0 < b / 16) ∧ cm b ≤ 100 * g ∧ 100 * g < cm b + 10 ^ (b % 16)

/-- The data of a LOC record. -/
structure Loc where
  lat : Angle
  g1 : Gap
  lon : Angle
  g2 : Gap
  below : Bool
  alt : Dec
  sizes : List Size

namespace Loc

def text (l : Loc) : List UInt8 :=
  l.lat.text ++ (l.g1.text ++ (l.lon.text ++ (l.g2.text ++ ((if l.below then [45] else []) ++ (l.alt.text ++
    109 :: l.sizes.flatMap Size.text)))))

/-- The altitude: centimetres above a point 100 000 m below sea level. -/
def height (l : Loc) : Nat :=
  if l.below then 10000000 - l.alt.scaled 2 else 10000000 + l.alt.scaled 2

/-- The `i`-th of the size and the two precisions, in metres; `d` is the default of it. -/
def metres (l : Loc) (i d : Nat) : Nat :=
  match l.sizes[i]? with
  | some z => value z.digits
  | none => d

structure Ok (l : Loc) : Prop where
  lat : l.lat.Ok [78, 110] [83, 115]
  lon : l.lon.Ok [69, 101] [87, 119]
  g1 : GapOk l.g1
  g2 : GapOk l.g2
  alt : l.alt.Ok 2
  high : l.height ≤ 2147483647
  low : l.below = true → l.alt.scaled 2 ≤ 10000000
  sizes : ∀ z ∈ l.sizes, z.Ok
  three : l.sizes.length ≤ 3
  short : (l.sizes.flatMap Size.text).length < 999

end Loc

/-- A port in a WKS record, and what stands after it. -/
structure Port where
  digits : List UInt8
  sep : UInt8

namespace Port

def text (p : Port) : List UInt8 := p.digits ++ [p.sep]

structure Ok (p : Port) : Prop where
  sep : p.sep = 32 ∨ p.sep = 9 ∨ p.sep = 44
  digits : ∀ c ∈ p.digits, isDigit c = true
  some : p.digits ≠ []
  small : value p.digits ≤ 1024

end Port

/-- Is a port in a bitmap, as RFC 1035 (3.4.2) has it: the first bit of the first byte is port 0. -/
def hasPort (bits : List UInt8) (p : Nat) : Bool := (bits.getD (p / 8) 0).toNat.testBit (7 - p % 8)

/-- A NAPTR record: order and preference, the strings, and the name. -/
structure Naptr where
  order : List UInt8
  g1 : Gap
  pref : List UInt8
  g2 : Gap
  strs : List Str
  g3 : Gap
  name : NameText

namespace Naptr

def text (n : Naptr) : List UInt8 := n.order ++ (n.g1.text ++ (n.pref ++ (n.g2.text ++ (strsText n.strs ++ (n.g3.text ++ n.name.text)))))

/-- RFC 2915: two numbers of sixteen bits, three strings with their lengths in front, and the name. -/
def data (n : Naptr) (origin : Name) : List UInt8 :=
  Body.num16 (value n.order) ++ Body.num16 (value n.pref) ++ n.strs.flatMap strData ++ encName (n.name.name origin)

/-- `next` is what follows. -/
structure Ok (n : Naptr) (origin : Name) (next : Piece) : Prop where
  nums : ∀ l ∈ [n.order, n.pref], NumOk l ∧ value l ≤ 65535
  g1 : n.g1.Ok
  g2 : n.g2.Ok
  g3 : n.g3.Ok
  strs : StrsOk n.strs
  three : n.strs.length = 3
  name : Body.NameOk n.name origin next
  small : (n.data origin).length ≤ 255

end Naptr

end Rare
end Spec
