/-!
# IPv6 addresses as written in `ip6` entries

32 hexadecimal digits, where `_` also means 0, with dashes and spaces anywhere.
-/

namespace Spec

/-- Value of a digit. -/
def hexVal (c : UInt8) : Option Nat :=
  if 48 ≤ c ∧ c ≤ 57 then some (c.toNat - 48)
  else if c = 95 then some 0
  else if 97 ≤ c ∧ c ≤ 102 then some (c.toNat - 87)
  else if 65 ≤ c ∧ c ≤ 70 then some (c.toNat - 55)
  else none

/-- Dash or space. -/
def isSep (c : UInt8) : Bool := c == 45 || c == 32

/-- Two digits make a byte. -/
def pairUp : List Nat → List UInt8
  | a :: b :: r => UInt8.ofNat (a * 16 + b) :: pairUp r
  | _ => []

/-- The text writes the address. -/
def Ip6Text (text addr : List UInt8) : Prop :=
  32 ≤ text.length ∧ text.length ≤ 64 ∧
  ∃ ds : List Nat, (text.filter (fun c => !isSep c)).map hexVal = ds.map some ∧ ds.length = 32 ∧ addr = pairUp ds

end Spec
