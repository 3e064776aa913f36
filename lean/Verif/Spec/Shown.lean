import Verif.Spec.Wire
import Verif.Spec.NameEq
/-!
# Specification: names as scripts see them

Every label is followed by a dot.  Letters, digits, `-` and `_` stand for themselves; any other byte is written as two
hexadecimal digits between braces.
-/

namespace Spec

/-- Letters, digits, `-` and `_`. -/
def PlainChar (c : UInt8) : Prop :=
  (48 ≤ c.toNat ∧ c.toNat ≤ 57) ∨ (65 ≤ c.toNat ∧ c.toNat ≤ 90) ∨ (97 ≤ c.toNat ∧ c.toNat ≤ 122) ∨ c.toNat = 45 ∨ c.toNat = 95

instance (c : UInt8) : Decidable (PlainChar c) := by unfold PlainChar; infer_instance

/-- The sixteen digits. -/
def digits16 : List UInt8 := [48, 49, 50, 51, 52, 53, 54, 55, 56, 57, 97, 98, 99, 100, 101, 102]

def shownByte (c : UInt8) : List UInt8 :=
  if PlainChar c then [c] else [123, digits16.getD (c.toNat / 16) 0, digits16.getD (c.toNat % 16) 0, 125]

def shownLabel (l : List UInt8) : List UInt8 := l.flatMap shownByte ++ [46]

def shown (ls : List (List UInt8)) : List UInt8 := ls.flatMap shownLabel

end Spec
