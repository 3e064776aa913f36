/-!
# Specification: what a system says about the time

A moment is a number of nanoseconds after 1970 began.  A system says it as seconds and nanoseconds; where seconds have 32 bits,
those after the 19th of January 2038 are negative.
-/

namespace Spec
namespace Clock

def second : Nat := 1000000000

/-- The seconds as a number of 32 bits with a sign. -/
def signed32 (t : Int) : Int := if t % 4294967296 < 2147483648 then t % 4294967296 else t % 4294967296 - 4294967296

/-- What a system says at a moment. -/
def said (wide : Bool) (w : Nat) : Int × Nat :=
  (if wide then (w / second : Nat) else signed32 (w / second : Nat), w % second)

end Clock
end Spec
