/-!
# Model of the small text tools: `utf8/l1toutf8.c`, `utf8/utf8tol1.c`, `tools/strip.control.c`

Standard input is the list of bytes not read yet.  `getc` at its end gives -1, which the `unsigned char` it is put in
makes 255, and only then `feof` is true.
-/

namespace Mara
namespace TextTools

/-- `iso88591_to_utf8`, utf8/l1toutf8.c:26-36. -/
def l1Char (x : UInt8) : List UInt8 :=
  if x ≤ 0x7f then [x] else [(x >>> 6) ||| 0xc0, (x &&& 0x3f) ||| 0x80]

/-- `main` of utf8/l1toutf8.c:38-46.  Nothing is written for the read that finds the end. -/
def l1toutf8 : List UInt8 → List UInt8
  | [] => []
  | x :: r => l1Char x ++ l1toutf8 r

/-- `main` of utf8/utf8tol1.c:24-54: what is written, and whether the program does not end with `exit(1)`.  The
condition of its inner loop is `c & (0xc0 == 0x80)`, which is zero, so this loop does nothing.  At the end of the
input `c` is 255 and nothing is written.  `printf("%c",v)` writes the lowest byte of `v`. -/
def utf8tol1 : List UInt8 → List UInt8 × Bool
  | [] => ([], true)
  | c :: r =>
    if c < 128 then ((c :: (utf8tol1 r).1), (utf8tol1 r).2)
    else if c < 0xe0 then
      match r with
      | [] => ([], false)
      | d :: r =>
        if d ≠ 255 then
          (UInt8.ofNat ((c.toNat % 32) * 64 + d.toNat % 64) :: (utf8tol1 r).1, (utf8tol1 r).2)
        else ([], false)
    else (35 :: (utf8tol1 r).1, (utf8tol1 r).2)

/-- A digit of `%x`. -/
def hexDigit (n : Nat) : UInt8 := UInt8.ofNat (if n < 10 then 48 + n else 87 + n)

/-- `printf("%x",a)` -/
def hex (a : UInt8) : List UInt8 :=
  if a.toNat < 16 then [hexDigit a.toNat] else [hexDigit (a.toNat / 16), hexDigit (a.toNat % 16)]

/-- The body of the loop of tools/strip.control.c:29-32. -/
def stripChar (a : UInt8) : List UInt8 := if a &&& 0x7f < 32 then 60 :: (hex a ++ [62]) else [a]

/-- `main` of tools/strip.control.c:24-36.  The read that finds the end is treated like a byte 255. -/
def strip : List UInt8 → List UInt8
  | [] => stripChar 255
  | a :: r => stripChar a ++ strip r

end TextTools
end Mara
