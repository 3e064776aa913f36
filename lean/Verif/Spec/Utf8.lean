/-!
# Specification: UTF-8

RFC 3629, section 3.
-/

namespace Spec

/-- The bytes of a code point. -/
def utf8 (c : Nat) : List UInt8 :=
  if c < 0x80 then [UInt8.ofNat c]
  else if c < 0x800 then [UInt8.ofNat (0xc0 + c / 64), UInt8.ofNat (0x80 + c % 64)]
  else if c < 0x10000 then [UInt8.ofNat (0xe0 + c / 4096), UInt8.ofNat (0x80 + c / 64 % 64), UInt8.ofNat (0x80 + c % 64)]
  else [UInt8.ofNat (0xf0 + c / 262144), UInt8.ofNat (0x80 + c / 4096 % 64), UInt8.ofNat (0x80 + c / 64 % 64), UInt8.ofNat (0x80 + c % 64)]

example : utf8 0x41 = [0x41] ∧ utf8 0xe9 = [0xc3, 0xa9] ∧ utf8 0x20ac = [0xe2, 0x82, 0xac] ∧ utf8 0x1f600 = [0xf0, 0x9f, 0x98, 0x80] := by decide

end Spec
