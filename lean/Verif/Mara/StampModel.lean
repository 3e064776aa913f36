import Verif.Deadwood.StrModel
import Verif.Spec.Serial
/-!
# Model of `server/timestamp.c`

The clock, `gmtime`, `localtime` and `asctime` are parameters.
-/

namespace Mara
namespace Stamp

open Dw (Res)
open Spec.Serial (Date)

/-- The parts of a `struct tm` that are used. -/
structure Tm where
  date : Date
  hour : Nat
  min : Nat
  sec : Nat
  wday : Nat

/-- The digits of a number; `f` bounds their number. -/
def decF : Nat → Nat → List UInt8
  | 0, n => [UInt8.ofNat (48 + n % 10)]
  | f + 1, n => if n < 10 then [UInt8.ofNat (48 + n)] else decF f (n / 10) ++ [UInt8.ofNat (48 + n % 10)]

/-- `printf("%d")` of a number that is not negative. -/
def dec (n : Nat) : List UInt8 := decF n n

/-- `printf("%d")` -/
def showInt (n : Int) : List UInt8 := if n < 0 then 45 :: dec n.natAbs else dec n.natAbs

/-- `printf("%02d")` of a number that is not negative. -/
def two (n : Nat) : List UInt8 := if n < 10 then 48 :: dec n else dec n

/-- `(int)time(0)`: the lowest 32 bits. -/
def toInt (t : Int) : Int := (t + 2147483648) % 4294967296 - 2147483648

/-- `L_TIMESTAMP`, server/MaraDNS_en.h:78: `Timestamp: ` -/
def label : List UInt8 := [84, 105, 109, 101, 115, 116, 97, 109, 112, 58, 32]

/-- server/timestamp.c:94-101 -/
def dow : List String := ["Domingo", "Lunes", "Martes", "Miercoles", "Jueves", "Viernes", "Sabado"]

/-- server/timestamp.c:102-114 -/
def moy : List String := ["Enero", "Febrero", "Marzo", "Abril", "Mayo", "Junio", "Julio", "Agosto", "Septiembre", "Octubre",
  "Noviembre", "Diciembre"]

/-- The bytes of a text of ASCII characters. -/
def bytes (s : String) : List UInt8 := s.toList.map fun c => UInt8.ofNat c.toNat

/-- `set_timestamp`, server/timestamp.c:64-70; the type before is `old`. -/
def setType (old type : Int) : Int := if type ≥ 0 ∧ type ≤ 128 then type else old

/-- The clock time in both formats, server/timestamp.c:126-128 and :157-159. -/
def clock (m : Tm) : List UInt8 := two m.hour ++ [58] ++ two m.min ++ [58] ++ two m.sec ++ [32]

/-- `show_timestamp`, server/timestamp.c:78-170: what is written.  `wide` is that a `time_t` has 64 bits; `none` of `gm`
and `loc` is the null pointer, which is then used; `err` is `JS_ERROR`.  Months are counted from 1 here, from 0 there.
`asctime` gives fewer than 100 bytes, all of them ASCII. -/
def showStamp (gm loc : Int → Option Tm) (asc : Tm → List UInt8) (wide : Bool) (type : Int) (now : Int) : Res (List UInt8) :=
  if wide = false then .ok []
  else if type = 0 then .ok (label ++ showInt (toInt now) ++ [32])
  else if type = 1 then .ok (showInt (toInt now) ++ [32])
  else if type = 2 ∨ type = 3 then
    match (if type = 2 then gm now else loc now) with
    | none => .ub
    | some m =>
      match moy[m.date.month - 1]?, dow[m.wday]? with
      | some mo, some d =>
        .ok (bytes d ++ [44, 32] ++ dec m.date.day ++ bytes " de " ++ bytes mo ++ bytes ", a " ++ clock m ++
          (if type = 2 then bytes "(UTC) " else []))
      | _, _ => .err
  else if type = 4 then
    match gm now with
    | none => .ub
    | some m => .ok ((asc m).takeWhile (fun c => decide (32 ≤ c)) ++ bytes " GMT ")
  else if type = 5 then .ok []
  else if type = 6 ∨ type = 7 then
    match (if type = 6 then gm now else loc now) with
    | none => .ub
    | some m => .ok (dec m.date.year ++ [45] ++ two m.date.month ++ [45] ++ two m.date.day ++ [32] ++ clock m)
  else .ok (label ++ showInt (toInt now) ++ [32])

end Stamp
end Mara
