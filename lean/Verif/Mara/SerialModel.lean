import Verif.Spec.Serial

/-!
# Model: the serial number of a zone without one

`csv2_set_soa_serial`, parse/Csv2_database.c:227-295, as it is for Unix.  The clock and the file system are outside: the
time of the last change of the file (`stat`) and what `gmtime_r` says about a time are given.  Times are so small that
nothing overflows 64 bits (`qual_timestamp`, MaraDns.h:151).
-/

namespace Mara
namespace Serial

open Spec.Serial (Date)

/-- What `gmtime_r` gives of a time: the date and the hour, or nothing. -/
abbrev Gmtime := Int → Option (Date × Nat)

/-- Csv2_database.c:262-266: with a `time_t` of 32 bits, a time before August 2000 means the one 2^32 seconds later. -/
def windowed (wide : Bool) (t : Int) : Int := if wide = false ∧ t < 965067855 then t + 4294967296 else t

/-- Csv2_database.c:269-274: the division is the one of C, towards zero. -/
def sixths (t : Int) : Nat := ((t - 290805600).tdiv 6 % 4294967296).toNat

/-- Csv2_database.c:284-290, with the conversion to 32 bits in :293. -/
def stamp (d : Date) (hour : Nat) : Nat := (((d.year * 100 + d.month) * 100 + d.day) * 100 + hour) % 4294967296

/-- The serial number after `csv2_set_soa_serial`, Csv2_database.c:227-295; it is 1 before (:141), and stays so on errors,
which the callers only report (Csv2_main.c:446-450, :628-632).  `size` is the length of the name of the file, `mtime`
what `stat` says, `setting` is `synth_soa_serial`, `wide` is that a `time_t` has 64 bits. -/
def setSerial (gm : Gmtime) (wide : Bool) (setting : Nat) (size : Nat) (mtime : Option Int) : Nat :=
  if size ≥ 200 then 1
  else match mtime with
    | none => 1
    | some t =>
      if setting ≠ 2 ∨ wide = false then sixths (windowed wide t)
      else match gm t with
        | none => 1
        | some (d, h) => stamp d h

end Serial
end Mara
