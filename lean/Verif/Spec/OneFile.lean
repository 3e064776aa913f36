/-!
# Specification: the files a script may read

The manual of coLunacyDNS: names are letters, digits, `_` and, not first, dots.  A file is lines, each with a line end.
-/

namespace Spec
namespace OneFile

def letter (c : UInt8) : Bool := (48 ≤ c && c ≤ 57) || (65 ≤ c && c ≤ 90) || (97 ≤ c && c ≤ 122) || c == 95

/-- A name that may be opened. -/
def nameOk (n : List UInt8) : Bool := (n.all fun c => letter c || c == 46) && n.head? != some 46

/-- How a line ends: with a line feed, and perhaps a carriage return in front of it. -/
def ending (cr : Bool) : List UInt8 := if cr then [13, 10] else [10]

/-- The text of a file. -/
def text : List (List UInt8 × Bool) → List UInt8
  | [] => []
  | (l, cr) :: r => l ++ ending cr ++ text r

/-- What a script does. -/
inductive Op
  | «open» (name : List UInt8)
  | read
  | close

/-- What it gets: true or false, or a line. -/
inductive Out
  | yes
  | no
  | line (l : List UInt8)
deriving DecidableEq

end OneFile
end Spec
