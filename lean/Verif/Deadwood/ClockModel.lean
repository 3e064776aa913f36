/-!
# Model: the clock of Deadwood

`set_time`, DwSys.c:421-481, as it is for Unix with `clock_gettime`.  The clock of the system is outside.  Times before
1979 are left out: they would shift a negative number.
-/

namespace Dw
namespace Clock

/-- The seconds, DwSys.c:448-460.  With a `time_t` of 32 bits (`wide` is false) the sum in :456 is an unsigned number of 32
bits.  With 64 bits, -1 leaves what was there. -/
def seconds (wide : Bool) (old sec : Int) : Int :=
  if wide = true then (if sec ≠ -1 then sec - 290805600 else old)
  else if sec < 1595787855 then (sec + 4004161696) % 4294967296
  else sec - 290805600

/-- `set_time`, DwSys.c:441-467: `the_time` after it; `none` is that the clock of the system could not be read. -/
def setTime (wide : Bool) (old : Int) : Option (Int × Nat) → Int
  | none => old
  | some (sec, nsec) =>
    let time := seconds wide old sec * 256
    let fine := nsec / 3906250
    if fine > 0 ∧ fine ≤ 256 then time + fine else time

end Clock
end Dw
