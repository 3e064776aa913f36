import Verif.Mara.RcModel

/-!
# Reading a file line by line

`js_buf_read`, `js_buf_getline` and `js_buf_eof` of libs/JsStrOS.c, and the loop in
`read_mararc` that reads the configuration file with them.

Strings are modelled by their contents, of units of one byte; the size of the string that takes
the line is `max`.  A file is the bytes that have not yet been read from it; `read` yields as
many bytes as are asked for, or all there are (as it does for regular files).  Not modelled:
errors of `read`, and the failure of memory allocation.
-/

namespace Mara.Getline

open Mara.Rc (newline mt Reading Next Vars oneLine)

/-- `js_file`, JsStr.h: the bytes not yet read, the buffer, the place in it, and `eof`. -/
structure File where
  rest : List UInt8
  buf : List UInt8
  number : Int
  eof : Bool
  deriving DecidableEq

/-- `js_open`, JsStrOS.c:487-519. -/
def opened (bytes : List UInt8) : File := ⟨bytes, [], -1, false⟩

/-- `js_buf_eof`, JsStrOS.c:719-723. -/
def bufEof (f : File) : Bool := f.eof && f.number ≥ f.buf.length

/-- `js_buf_read`, JsStrOS.c:728-741, and `js_read`, JsStrOS.c:576-616. -/
def bufRead (f : File) : File :=
  { rest := f.rest.drop 1024, buf := f.rest.take 1024, number := 0,
    eof := f.eof || (f.rest.take 1024).length ≠ 1024 }

/-- `js_substr`, JsStr.c:696-735, into a string of size `max`; what that string holds stays
when it fails. -/
def substrTo (max : Nat) (l : List UInt8) (s n : Int) (old : List UInt8) : List UInt8 :=
  if s < 0 ∨ n < 0 ∨ s ≥ l.length ∨ s + n > l.length ∨ n ≥ max then old
  else (l.drop s.toNat).take n.toNat

/-- `js_append`, JsStr.c:660-689, to a string of size `max`. -/
def appendTo (max : Nat) (new old : List UInt8) : List UInt8 :=
  if new.length + old.length ≥ max then old else old ++ new

/-- The loop of JsStrOS.c:796-804.  It reads a full buffer at each turn but the last, so that
the number of bytes left in the file bounds its turns. -/
def skip (max : Nat) : Nat → File → List UInt8 → Bool → File × List UInt8 × Bool
  | 0, f, js, over => (f, js, over)
  | n + 1, f, js, over =>
    if mt newline f.buf 0 = -2 ∧ f.eof = false then
      if js.length + 1024 < max ∧ over = false then
        skip max n (bufRead f) (appendTo max f.buf js) over
      else skip max n (bufRead f) [] true
    else (f, js, over)

/-- JsStrOS.c:812-813 and 844-845. -/
def refill (f : File) : File := if f.number ≥ 1024 then bufRead f else f

/-- JsStrOS.c:781-818: no line end in the buffer, which was filled. -/
def across (max : Nat) (f : File) (js : List UInt8) : Int × File × List UInt8 :=
  let fits : Bool := decide (1024 + 1 - f.number < max)
  let js := if fits then substrTo max f.buf f.number (1024 - f.number) js else []
  let r := skip max (f.rest.length + 1) (bufRead f) js (!fits)
  let f := r.1
  let next := mt newline f.buf 0
  let js := appendTo max (substrTo max f.buf 0 (next + 1) []) r.2.1
  let f := if next ≠ -2 then { f with number := next + 1 } else f
  (if r.2.2 then -2 else 1, refill f, js)

/-- JsStrOS.c:819-838: no line end in the buffer, and nothing left to read. -/
def atEnd (max : Nat) (f : File) (js : List UInt8) : Int × File × List UInt8 :=
  let fits : Bool := decide ((f.buf.length : Int) - f.number < max)
  (if fits then 1 else -2, { f with number := f.buf.length + 1 },
    if fits then substrTo max f.buf f.number (f.buf.length - f.number) js else [])

/-- JsStrOS.c:840-855: the line end is in the buffer. -/
def within (max : Nat) (f : File) (js : List UInt8) (next : Int) : Int × File × List UInt8 :=
  if next + 1 - f.number < max then
    (1, refill { f with number := next + 1 }, substrTo max f.buf f.number (next + 1 - f.number) js)
  else (1, f, [])

/-- `js_buf_getline`, JsStrOS.c:750-857: the code, the file, and what the string then holds. -/
def getline (max : Nat) (f : File) (js : List UInt8) : Int × File × List UInt8 :=
  let f := if f.number = -1 then bufRead f else f
  let next := mt newline f.buf f.number
  if next = -2 ∧ f.eof = false then across max f js
  else if next = -2 then atEnd max f js
  else within max f js next

/-- The lines a program gets that calls `js_buf_getline` until `js_buf_eof` says that the file
is at its end; `none` if it has not come to an end after `n` lines, and if a line is refused
the lines before it and `false`. -/
def readAll (max : Nat) : Nat → File → List UInt8 → Option (List (List UInt8) × Bool)
  | 0, _, _ => none
  | n + 1, f, js =>
    if bufEof f then some ([], true)
    else
      let g := getline max f js
      if g.1 ≤ -1 then some ([], false)
      else (readAll max n g.2.1 g.2.2).map fun r => (g.2.2 :: r.1, r.2)

/-- The loop of `read_mararc`, ParseMaraRc.c:1128-1262, with the reading of the lines; `none`
if it has not come to an end after `n` lines. -/
def mararcLoop : Nat → Reading → Nat → File → List UInt8 → Option Next
  | 0, _, _, _, _ => none
  | n + 1, r, num, f, js =>
    if bufEof f then some (.go r)
    else
      let g := getline 256 f js
      if g.1 ≤ -1 then some .fail
      else match oneLine r num g.2.2 with
        | .go r => mararcLoop n r (num + 1) g.2.1 g.2.2
        | .exit => some .exit
        | .fail => some .fail

/-- `read_mararc`, ParseMaraRc.c:1059-1285, for the bytes of the file. -/
def mararc (n : Nat) (bytes : List UInt8) : Option Next :=
  mararcLoop n ⟨Vars.init, none⟩ 1 (opened bytes) []

end Mara.Getline
