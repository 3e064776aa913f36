import Verif.Spec.Serial
/-!
# Specification: the time shown in front of messages (C127)
-/

namespace Spec
namespace Stamp

open Spec.Serial

/-- The digits of a text, read as one number. -/
def digitsVal (s : List UInt8) : Nat :=
  (s.filter fun c => decide (48 ≤ c.toNat ∧ c.toNat ≤ 57)).foldl (fun v c => v * 10 + (c.toNat - 48)) 0

/-- Year, month, day, hour, minute and second of a time in universal time, written one after another as one number: the
year first, and two digits for everything else. -/
def clockNum (t : Nat) : Nat :=
  ((((((dateAt t).year * 100 + (dateAt t).month) * 100 + (dateAt t).day) * 100 + t % 86400 / 3600) * 100 +
    t % 3600 / 60) * 100 + t % 60)

end Stamp
end Spec
