import Verif.Spec.Wire
import Verif.Spec.ZoneFile

/-!
# Specification: what is written to a log

A log is lines of printable characters.  Bytes are written with a backslash in front of `\` and
`%`, and as a backslash and three octal digits if they cannot be printed.
-/

namespace Spec
namespace Log

/-- A character that can be printed. -/
def printable (c : UInt8) : Bool := 32 ≤ c && c ≤ 126

/-- Reading what is written back. -/
def unescape : List UInt8 → List UInt8
  | [] => []
  | 92 :: a :: b :: c :: r =>
    if 48 ≤ a ∧ a ≤ 55 then UInt8.ofNat ((a.toNat - 48) * 64 + (b.toNat - 48) * 8 + (c.toNat - 48)) :: unescape r
    else a :: unescape (b :: c :: r)
  | 92 :: a :: r => a :: unescape r
  | c :: r => c :: unescape r
termination_by l => l.length

/-- How a name is written. -/
def shownName (n : List (List UInt8)) : List UInt8 := if n = [] then ascii "." else dotted n

/-- The letters of the types: A, NS, CNAME, SOA, PTR, MX, TXT and ANY have their own, all others are `U`. -/
def letters : List (Nat × UInt8) := [(1, 65), (2, 78), (5, 67), (6, 83), (12, 80), (15, 64), (16, 84), (255, 90)]

def typeLetter (t : Nat) : UInt8 := (letters.lookup t).getD 85

end Log
end Spec
