/-!
# Specification: serial numbers and the calendar

Serial numbers have 32 bits and are compared as in RFC 1982 3.2.  Days are counted in the Gregorian calendar.
-/

namespace Spec
namespace Serial

/-- The second serial number is newer than the first one. -/
def newer (a b : Nat) : Prop := (a < b ∧ b - a < 2 ^ 31) ∨ (b < a ∧ 2 ^ 31 < a - b)

instance (a b : Nat) : Decidable (newer a b) := inferInstanceAs (Decidable (_ ∨ _))

structure Date where
  year : Nat
  month : Nat
  day : Nat
deriving DecidableEq

def leap (y : Nat) : Bool := y % 4 = 0 ∧ (y % 100 ≠ 0 ∨ y % 400 = 0)

def monthDays (y m : Nat) : Nat :=
  if m = 2 then (if leap y then 29 else 28) else if m = 4 ∨ m = 6 ∨ m = 9 ∨ m = 11 then 30 else 31

namespace Date

/-- The day after. -/
def next (d : Date) : Date :=
  if d.day < monthDays d.year d.month then { d with day := d.day + 1 }
  else if d.month < 12 then ⟨d.year, d.month + 1, 1⟩
  else ⟨d.year + 1, 1, 1⟩

/-- The day that is that many days after the first of January 1970. -/
def ofDays : Nat → Date
  | 0 => ⟨1970, 1, 1⟩
  | n + 1 => (ofDays n).next

end Date

/-- The date and the hour of a second after 1970 began, in universal time. -/
def dateAt (t : Nat) : Date := Date.ofDays (t / 86400)

def hourAt (t : Nat) : Nat := t % 86400 / 3600

end Serial
end Spec
