import Verif.Spec.Net
/-!
# Access lists of the authoritative server

An address is a 32-bit number.  A list is written as entries with commas between them; an entry
is an address (`10.1.1.1`), a network (`10.1.1.0/24` or `10.1.1.0/255.255.255.0`) or the name of
another list.
-/

namespace Spec

/-- The number of an address written as four numbers. -/
def quadVal (a b c d : Nat) : UInt32 := UInt32.ofNat (a * 16777216 + b * 65536 + c * 256 + d)

/-- An address written with dots. -/
inductive Dotted : List UInt8 → UInt32 → Prop
  | mk {a b c d : List UInt8} : IsDec a → IsDec b → IsDec c → IsDec d →
      decVal a ≤ 255 → decVal b ≤ 255 → decVal c ≤ 255 → decVal d ≤ 255 →
      Dotted (a ++ 46 :: (b ++ 46 :: (c ++ 46 :: d))) (quadVal (decVal a) (decVal b) (decVal c) (decVal d))

/-- The mask with `n` leading ones. -/
def leading (n : Nat) : UInt32 := UInt32.ofNat (4294967296 - 2 ^ (32 - n))

/-- An entry: address and mask. -/
inductive Entry4 : List UInt8 → UInt32 × UInt32 → Prop
  | host {t ip} : Dotted t ip → Entry4 t (ip, leading 32)
  | bits {t ip ds} : Dotted t ip → IsDec ds → decVal ds ≤ 32 → Entry4 (t ++ 47 :: ds) (ip, leading (decVal ds))
  | mask {t ip u m} : Dotted t ip → Dotted u m → Entry4 (t ++ 47 :: u) (ip, m)

/-- `x` belongs to the entry: it agrees with the address in the bits of the mask. -/
def Within (x : UInt32) (e : UInt32 × UInt32) : Prop := x &&& e.2 = e.1 &&& e.2

/-- Texts with commas between them. -/
def commas : List (List UInt8) → List UInt8
  | [] => []
  | [t] => t
  | t :: ts => t ++ 44 :: commas ts

/-- A text with blanks around it. -/
def padded (a : Nat) (t : List UInt8) (b : Nat) : List UInt8 := List.replicate a 32 ++ (t ++ List.replicate b 32)

/-- The text of an entry or name: no comma; neither blank nor tab at its ends; less than 256 bytes. -/
structure Token (t : List UInt8) : Prop where
  ne : t ≠ []
  comma : 44 ∉ t
  first : ∀ c ∈ t.head?, c ≠ 32 ∧ c ≠ 9
  last : ∀ c ∈ t.getLast?, c ≠ 32
  short : t.length < 256

mutual
/-- What a list means.  `names` are the lists with names; the number bounds their nesting. -/
inductive Denotes (names : List UInt8 → Option (List UInt8)) : Nat → List UInt8 → List (UInt32 × UInt32) → Prop
  | mk {d ts es} : ts ≠ [] → DenotesAll names d ts es → Denotes names (d + 1) (commas ts) es

/-- What the entries of a list mean. -/
inductive DenotesAll (names : List UInt8 → Option (List UInt8)) : Nat → List (List UInt8) → List (UInt32 × UInt32) → Prop
  | nil {d} : DenotesAll names d [] []
  | entry {d a b t ts e es} : Token t → names t = none → Entry4 t e → DenotesAll names d ts es →
      DenotesAll names d (padded a t b :: ts) (e :: es)
  | name {d a b t u ts es' es} : Token t → names t = some u → Denotes names d u es' → DenotesAll names d ts es →
      DenotesAll names d (padded a t b :: ts) (es' ++ es)
end

end Spec
