import Verif.Spec.OneFile

/-!
# Model: files read by scripts of coLunacyDNS

`coDNS_open1`, `coDNS_read1` and `coDNS_close1`, coLunacyDNS.c:729-810.  The directory is a function from names to contents;
Lua strings end at their first NUL (`luaL_checkstring`, `lua_pushstring`).  That open files are closed by `coDNS.solve` and at
the end of a question is the operation `close`.
-/

namespace Co
namespace OneFile

open Spec.OneFile (Op Out)

/-- `*f` as a number, where `char` is signed or not. -/
def charVal (signed : Bool) (c : UInt8) : Int := if signed ∧ c ≥ 128 then (c.toNat : Int) - 256 else c.toNat

/-- The loop over the name, coLunacyDNS.c:744-758: is it refused?  `a` is 0 for the first byte only. -/
def refused (signed : Bool) (first : Bool) : List UInt8 → Bool
  | [] => false
  | c :: r =>
    let f := charVal signed c
    if f = 46 ∧ first then true
    else if f < 46 ∨ (f > 46 ∧ f < 48) ∨ (f > 57 ∧ f < 65) ∨ (f > 90 ∧ f < 95) ∨ f = 96 ∨ f > 122 then true
    else refused signed false r

/-- A C string: up to the first NUL. -/
def cString (l : List UInt8) : List UInt8 := l.takeWhile (· ≠ 0)

/-- `fgets` with room for `n` bytes: what is read and the rest. -/
def fgets : Nat → List UInt8 → List UInt8 × List UInt8
  | 0, l => ([], l)
  | _ + 1, [] => ([], [])
  | n + 1, c :: r => if c = 10 then ([c], r) else (c :: (fgets n r).1, (fgets n r).2)

/-- coLunacyDNS.c:786-797: up to the first NUL, carriage return or line feed. -/
def stripped (l : List UInt8) : List UInt8 := l.takeWhile fun c => decide (c ≠ 0 ∧ c ≠ 13 ∧ c ≠ 10)

/-- One call; `oneFile` is what is left of the open file. -/
def step (signed : Bool) (dir : List UInt8 → Option (List UInt8)) (oneFile : Option (List UInt8)) : Op → Out × Option (List UInt8)
  | .open name =>
    if refused signed true (cString name) then (.no, none)
    else match dir (cString name) with
      | none => (.no, none)
      | some content => (.yes, some content)
  | .read =>
    match oneFile with
    | none => (.no, none)
    | some [] => (.no, none)
    | some l => (.line (stripped (fgets 499 l).1), some (fgets 499 l).2)
  | .close =>
    match oneFile with
    | none => (.no, none)
    | some _ => (.yes, none)

/-- A sequence of calls: what they give, and the open file at the end. -/
def run (signed : Bool) (dir : List UInt8 → Option (List UInt8)) : Option (List UInt8) → List Op → List Out × Option (List UInt8)
  | s, [] => ([], s)
  | s, o :: os =>
    let (x, s) := step signed dir s o
    let (xs, s) := run signed dir s os
    (x :: xs, s)

end OneFile
end Co
