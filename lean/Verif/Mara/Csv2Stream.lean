import Verif.Deadwood.StrModel
/-!
# Model: reading the characters of a zone file, parse/Csv2_read.c and parse/Csv2_parse.c:1-642

A file is a list of bytes.  Characters are `int` in C; they are `Int` here, with the same special
values: -2 is the end of the file, -164 (`FATAL_CSV2_READ`) is a wrong UTF-8 sequence, -328 is what has
been read last at the beginning of a file.  Messages, line numbers and the context of messages are left
out, memory is taken to be available.  `Res.err` is `exit(1)`.
-/

namespace Mara
namespace Csv2

open Dw (Res)

/-- `csv2_read`, Csv2_read.h:30-46. -/
structure Stream where
  /-- what is left of the file -/
  input : List UInt8
  /-- what is left of the files to go on with, `stack` -/
  stack : List (List UInt8) := []
  /-- `mnum = 2` -/
  newline : Bool := false
  /-- `chars_allowed & 1`; the bit for `{` is never set -/
  tildeOk : Bool
  tildeSeen : Int := 0
  /-- `tilde_handling` -/
  mode : Nat
  justread : Int := -328
  unicode : Int := -1
  /-- `ok_to_read` -/
  isOpen : Bool := true
deriving DecidableEq

/-- `csv2_open`, Csv2_read.c:36-91; `mode` is `csv2_tilde_handling`. -/
def Stream.start (mode : Nat) (input : List UInt8) : Stream :=
  { input := input, tildeOk := mode = 0, mode := mode }

/-- Files that are at their end are left, Csv2_read.c:191-197. -/
def popEmpty : List UInt8 → List (List UInt8) → List UInt8 × List (List UInt8)
  | c :: r, fs => (c :: r, fs)
  | [], [] => ([], [])
  | [], f :: fs => popEmpty f fs

/-- A function that may fail (`none`), and leaves the stream changed in that case as well. -/
def P (α : Type) : Type := Stream → Res (Option α × Stream)

instance : Monad P where
  pure a := fun s => .ok (some a, s)
  bind x f := fun s =>
    match x s with
    | .ok (some a, s) => f a s
    | .ok (none, s) => .ok (none, s)
    | .err => .err
    | .ub => .ub

/-- A failure without a message. -/
def fail : P α := fun s => .ok (none, s)

/-- `csv2_error`, Csv2_read.c:243-306. -/
def close : P Unit := fun s => .ok (some (), { s with isOpen := false })

/-- A failure with a message. -/
def die : P α := fun s => .ok (none, { s with isOpen := false })

def get : P Stream := fun s => .ok (some s, s)

def modify (f : Stream → Stream) : P Unit := fun s => .ok (some (), f s)

/-- Undefined behaviour. -/
def undef : P α := fun _ => .ub

/-- `exit(1)` -/
def quit : P α := fun _ => .err

def orFail (x : Option α) : P α :=
  match x with
  | some a => pure a
  | none => fail

def orDie (x : Option α) : P α :=
  match x with
  | some a => pure a
  | none => die

/-- `csv2_readchar`, Csv2_read.c:132-227. -/
def readChar (s : Stream) : Int × Stream :=
  if s.isOpen = false then (-2, s)
  else if s.newline = true then (10, { s with justread := 10, newline := false })
  else
    match popEmpty s.input s.stack with
    | ([], fs) => (-2, { s with input := [], stack := fs })
    | (c :: r, fs) =>
      let s := { s with input := r, stack := fs, tildeSeen := if c = 126 ∧ s.tildeSeen < 10 then s.tildeSeen + 1 else s.tildeSeen }
      if c = 123 ∨ (c = 126 ∧ s.tildeOk = false) then (c.toNat, { s with isOpen := false })
      else (c.toNat, { s with justread := c.toNat })

/-- `csv2_justread`, Csv2_read.c:234-240. -/
def Stream.just (s : Stream) : Int := if s.isOpen then s.justread else -1

/-- `csv2_get_unicode`, Csv2_read.c:404-410. -/
def Stream.uni (s : Stream) : Int := if s.isOpen then s.unicode else -1

/-- `csv2_utf8_length`, Csv2_parse.c:115-144. -/
def utf8Len (c : Int) : Int :=
  if c ≥ 254 then -2
  else if c < 0 then -1
  else if c < 128 ∧ c > 0 then 0
  else if c ≥ 0x80 ∧ c < 0xc0 then 1
  else if c ≥ 0xc0 ∧ c < 0xe0 then 2
  else if c ≥ 0xe0 ∧ c < 0xf0 then 3
  else if c ≥ 0xf0 ∧ c < 0xf8 then 4
  else if c ≥ 0xf8 ∧ c < 0xfc then 5
  else if c ≥ 0xfc ∧ c < 0xfe then 6
  else -1

/-- The bytes after the first of a UTF-8 sequence, Csv2_parse.c:187-201. -/
def utf8Rest : Nat → Int → Stream → Int × Stream
  | 0, out, s => (out, s)
  | n + 1, out, s =>
    let (c, s) := readChar s
    if c = -2 ∨ c < 0x80 ∨ c ≥ 0xc0 then (-164, { s with isOpen := false })
    else utf8Rest n (out * 64 + c % 64) s

/-- `csv2_get_utf8`, Csv2_parse.c:155-228. -/
def getUtf8 (s : Stream) : Int × Stream :=
  let c := s.just
  let len := utf8Len c
  if len < 2 then (-164, { s with isOpen := false })
  else
    let first := c % (if len = 2 then 32 else if len = 3 then 16 else if len = 4 then 8 else if len = 5 then 4 else 2)
    let (out, s) := utf8Rest (len - 1).toNat first s
    if out = -164 then (-164, s)
    else if out < 0x80 ∨ (out < 0x800 ∧ len > 2) ∨ (out < 0x10000 ∧ len > 3) ∨ (out < 0x200000 ∧ len > 4) ∨
        (out < 0x4000000 ∧ len > 5) then (-164, { s with isOpen := false })
    else (out, if s.isOpen then { s with unicode := out } else s)

/-- `csv2_read_unicode`, Csv2_parse.c:239-249. -/
def readUnicode : P Int := fun s =>
  let (c, s) := readChar s
  if c < 0 then .ok (some c, s)
  else if c > 0x7f then
    let (c, s) := getUtf8 s
    .ok (some c, s)
  else .ok (some c, s)

/-- The groups of six bits of a number, from the left, Csv2_parse.c:289-295. -/
def sixes : Nat → Nat → List Nat
  | 0, _ => []
  | f + 1, n => if n = 0 then [] else sixes f (n / 64) ++ [n % 64]

/-- The bits that the first byte gets, by the number of bytes that follow, Csv2_parse.c:296-309. -/
def lead : Nat → UInt8
  | 5 => 0xfc
  | 4 => 0xf8
  | 3 => 0xf0
  | 2 => 0xe0
  | _ => 0xc0

/-- The bytes that `csv2_append_utf8` adds, Csv2_parse.c:270-322. -/
def utf8Bytes (c : Int) : Option (List UInt8) :=
  if c < 0 then none
  else if c < 0x80 then some [UInt8.ofNat c.toNat]
  else
    match sixes 6 c.toNat with
    | a :: b :: r => some ((UInt8.ofNat a ||| lead (r.length + 1)) :: (b :: r).map fun x => UInt8.ofNat x ||| 0x80)
    | _ => none

/-- `csv2_append_utf8`, Csv2_parse.c:261-324: `max` is the room in the string. -/
def appendUtf8 (max : Nat) (o : List UInt8) (c : Int) : Option (List UInt8) :=
  match utf8Bytes c with
  | none => none
  | some b => if o.length + b.length > max then none else some (o ++ b)

/-- The loop of `process_comment`, Csv2_parse.c:333-344; at most 4999 characters are read. -/
def commentLoop : Nat → Stream → Bool × Stream
  | n, s =>
    let (c, s) := readChar s
    let s := if c = 126 then { s with tildeSeen := s.tildeSeen - 1 } else s
    match n with
    | 0 => (false, { s with isOpen := false })
    | n + 1 => if c = 10 ∨ c = 13 ∨ c = -2 then (true, s) else commentLoop n s

/-- `process_comment`, Csv2_parse.c:327-346. -/
def comment : P Unit := fun s =>
  let allowed := s.tildeOk
  match commentLoop 4999 { s with tildeOk := true } with
  | (true, s) => .ok (some (), { s with tildeOk := allowed })
  | (false, s) => .ok (some (), s)

/-- `csv2_tilde_processing`, Csv2_parse.c:350-408; the result is that of the C function. -/
def tildeProc : P Int := do
  let s ← get
  if s.mode > 100 then
    let permitted : Int := if s.mode = 102 then -2 else if s.mode = 103 then 1 else 0
    if s.tildeSeen > 1 then do close; pure (-1)
    else if permitted ≠ -2 ∧ s.tildeSeen ≠ permitted then do close; pure (-1)
    else do
      if permitted = -2 then modify fun s => { s with mode := if s.tildeSeen = 1 then 103 else 101 }
      else pure ()
      modify fun s => { s with tildeOk := false }
      pure 1
  else if s.mode > 0 ∧ s.mode < 20 then do
    modify fun s => { s with mode := s.mode + 100 }
    pure 1
  else pure 1

/-- `csv2_is_delimiter`, Csv2_parse.c:97-100. -/
def isDelim (c : Int) : Bool := c = 13 ∨ c = 10 ∨ c = 9 ∨ c = 32 ∨ c = 124

/-- The loop of `csv2_get_1st`, Csv2_parse.c:488-544. -/
def firstLoop (isOk : Int → Bool) (opt : Nat) : Nat → (last : Int) → (pipe : Bool) → P Int
  | 0, _, _ => pure (-1)
  | n + 1, last, pipe => do
    let c ← readUnicode
    let s ← get
    if c = -164 then pure (-1)
    else if c = -2 then pure (-2)
    else if c = 35 then do comment; firstLoop isOk opt n 10 pipe
    else if opt ≠ 1 ∧ isOk c then pure 1
    else if opt = 1 ∧ (last = 13 ∨ last = 10 ∨ last = -328) ∧ isOk c then tildeProc
    else if opt = 1 ∧ isOk c then do close; pure (-164)
    else if opt = 1 ∧ c = 46 then tildeProc
    else if c = 124 then
      if pipe then do close; pure (-164)
      else firstLoop isOk opt n c true
    else if c = 126 ∧ opt = 1 ∧ s.mode > 100 then firstLoop isOk opt n c pipe
    else if isDelim c = false then do close; pure (-164)
    else firstLoop isOk opt n c pipe

/-- `csv2_get_1st`, Csv2_parse.c:420-546; `opt` is 0 or 1 (2 is never used).  1 is `JS_SUCCESS`. -/
def get1st (isOk : Int → Bool) (opt : Nat) : P Int := do
  let s ← get
  let c := if s.just > 127 then s.uni else s.just
  if opt ≠ 1 ∧ isOk c then pure 1
  else if opt = 1 ∧ c = -328 ∧ isOk c then tildeProc
  else if opt = 1 ∧ c = 46 then tildeProc
  else if c ≠ -328 ∧ isDelim c = false ∧ ¬ (c = 126 ∧ s.mode = 103) then do close; pure (-164)
  else do
    if opt = 1 then modify fun s =>
      { s with tildeOk := if s.mode = 101 then false else if s.mode = 102 ∨ s.mode = 103 then true else s.tildeOk,
               tildeSeen := if c = 126 then 1 else 0 }
    else pure ()
    firstLoop isOk opt 10000 c (c = 124)

/-- `process_1stchar`, Csv2_parse.c:553-601: strings have room for 256 bytes. -/
def process1st (isOk : Int → Bool) (pre : List UInt8) : P (List UInt8) := do
  let s ← get
  let c ← if s.just ≥ 0xc0 ∧ s.just < 0xfe then (fun s => let (c, s) := getUtf8 s; .ok (some c, s))
    else if s.just ≥ 0x80 then pure s.uni
    else pure s.just
  if c = -164 then fail
  else if isOk c = false then die
  else orDie (appendUtf8 256 pre c)

/-- The loop of `process_something`, Csv2_parse.c:619-639; there is room for 256 characters only. -/
def someLoop (isOk : Int → Bool) : Nat → List UInt8 → P (List UInt8)
  | 0, _ => die
  | n + 1, o => do
    let c ← readUnicode
    if c = -164 then fail
    else if c = 35 then do comment; pure o
    else if isOk c = false ∧ isDelim c = false then die
    else if isOk c then do
      let o ← orDie (appendUtf8 256 o c)
      someLoop isOk n o
    else pure o

/-- `process_something`, Csv2_parse.c:608-642. -/
def something (isOk : Int → Bool) : P (List UInt8) := do
  let o ← process1st isOk []
  someLoop isOk 257 o

end Csv2
end Mara
