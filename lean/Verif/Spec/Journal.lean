/-!
# Specification: reading the log of Deadwood

The log is lines.  In a line, bytes that a client or server has sent are written so that they can be read back: a space stands
in braces, other bytes that are not letters, digits or signs are a backslash and three octal digits.
-/

namespace Spec
namespace Journal

/-- The lines of a log that are ended. -/
def linesFrom (line : List UInt8) : List UInt8 → List (List UInt8)
  | [] => []
  | c :: r => if c = 10 then line :: linesFrom [] r else linesFrom (line ++ [c]) r

def lines (log : List UInt8) : List (List UInt8) := linesFrom [] log

/-- Printable characters. -/
def printable (c : UInt8) : Bool := 32 ≤ c && c ≤ 126

/-- Reading back what is written. -/
def readBack : List UInt8 → List UInt8
  | 92 :: a :: b :: c :: r => UInt8.ofNat ((a.toNat - 48) * 64 + (b.toNat - 48) * 8 + (c.toNat - 48)) :: readBack r
  | 123 :: c :: 125 :: r => c :: readBack r
  | c :: r => c :: readBack r
  | [] => []

/-- Numbers in decimal digits, each with a character behind it. -/
def numbersFrom (n : Nat) : List UInt8 → List Nat
  | [] => []
  | c :: r => if 48 ≤ c ∧ c ≤ 57 then numbersFrom (n * 10 + (c.toNat - 48)) r else n :: numbersFrom 0 r

def numbers (l : List UInt8) : List Nat := numbersFrom 0 l

def hexDigit (c : UInt8) : Nat := if c ≤ 57 then c.toNat - 48 else c.toNat - 87

/-- Numbers of two hexadecimal digits, each with a character behind it. -/
def hexes : List UInt8 → List Nat
  | a :: b :: _ :: r => (hexDigit a * 16 + hexDigit b) :: hexes r
  | _ => []

end Journal
end Spec
