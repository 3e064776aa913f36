import Verif.Deadwood.HashModel
/-!
# The cache file

Source: `/repo/deadwood-github/src/DwHash.c:806-1140`.  A file is a list of
bytes; a `FILE *` opened for reading is the unread rest plus the end-of-file
indicator of stdio (set by the first read past the end).
-/

namespace Dw

/-- A file opened for reading. -/
structure Stream where
  rest : List UInt8
  eof : Bool
deriving Repr, DecidableEq

namespace Stream

/-- `fgetc` assigned to a `uint8_t` (end of file reads as 255). -/
def getc (s : Stream) : UInt8 × Stream :=
  match s.rest with
  | [] => (255, { s with eof := true })
  | b :: r => (b, { s with rest := r })

/-- The loops of `dwh_get_int32`/`dwh_get_int64` over the bytes after the first,
DwHash.c:953-960, 987-994.  Simplification: `|=` of shifted bytes is written as
base-256 accumulation. -/
def getMore : Nat → Int → Stream → Int × Stream
  | 0, acc, s => (acc, s)
  | n + 1, acc, s =>
    let r := s.getc
    if r.2.eof then (-2, r.2) else getMore n (acc * 256 + r.1.toNat) r.2

/-- `dwh_get_int32` (`n = 4`) DwHash.c:936-963 and `dwh_get_int64` (`n = 8`)
DwHash.c:970-997. -/
def getInt (n : Nat) (s : Stream) : Int × Stream :=
  if s.eof then (-2, s)
  else
    let r := s.getc
    if 127 < r.1 then (if r.2.eof then (-2, r.2) else (-1, r.2))
    else getMore (n - 1) r.1.toNat r.2

/-- The copying loop of `dwh_get_dwstr`, DwHash.c:1030-1037. -/
def readBytes : Nat → Stream → List UInt8 × Stream
  | 0, s => ([], s)
  | n + 1, s =>
    let r := s.getc
    let q := readBytes n r.2
    ((if r.2.eof then 0 else r.1) :: q.1, q.2)

/-- `dwh_get_dwstr`, DwHash.c:1003-1041; `dw_create(len + 1)` fails above
2^27 - 1 (DwStr.c:51). -/
def getStr (s : Stream) : Option (List UInt8) × Stream :=
  let r := s.getInt 4
  if r.1 = -2 then (none, r.2)
  else
    let len := r.1.toNat
    if 134217728 ≤ len + 1 then (none, r.2)
    else
      let q := readBytes len r.2
      (some q.1, q.2)

/-- `dwh_get_hash_element`, DwHash.c:1044-1080: key, value, expiry. -/
def getElement (s : Stream) : Option (List UInt8 × List UInt8 × Int) × Stream :=
  let k := s.getStr
  let v := k.2.getStr
  let e := v.2.getInt 8
  match k.1, v.1 with
  | some key, some val =>
    if e.1 < 2 then (none, e.2)
    else if key.length = 0 ∨ val.length = 0 then (none, e.2)
    else (some (key, val, e.1), e.2)
  | _, _ => (none, e.2)

end Stream

/-- Big-endian bytes of a number, DwHash.c:817-821, 838-842. -/
def beBytes : Nat → Nat → List UInt8
  | 0, _ => []
  | n + 1, x => UInt8.ofNat (x / 256 ^ n) :: beBytes n x

/-- `dwh_put_int32`, DwHash.c:807-822. -/
def putInt32 (x : Int) : List UInt8 := if x < 0 then [255, 255, 255, 255] else beBytes 4 x.toNat

/-- `dwh_put_int64`, DwHash.c:825-844. -/
def putInt64 (x : Int) : List UInt8 :=
  if x < 0 then [0, 0, 0, 0, 0, 0, 0, 1] else beBytes 8 x.toNat

/-- `dwh_put_dwstr`, DwHash.c:849-871 (the strings of elements are sane). -/
def putStr (s : List UInt8) : List UInt8 :=
  if 16777216 < s.length then putInt32 (-1) else putInt32 s.length ++ s

/-- `dwh_put_hash_element`, DwHash.c:875-885. -/
def putElement (e : Elem) : List UInt8 :=
  if e.expire = 0 ∨ e.key.length = 0 ∨ e.value.length = 0 then []
  else putStr e.key ++ putStr e.value ++ putInt64 e.expire

namespace Hash
variable (hf : List UInt8 → Nat)

/-- The writing loop of `dwh_write_hash`, DwHash.c:919-927, over the queue
nodes from the last to the first; a node whose element was freed is undefined
behaviour. -/
def writeLoop (h : Hash) : List Nat → Res (List UInt8)
  | [] => .ok []
  | id :: ids => do
    let e ← match h.findId id with
      | some e => Res.ok e
      | none => Res.ub
    let r ← writeLoop h ids
    .ok (putElement e ++ r)

/-- `dwh_write_hash`, DwHash.c:889-931: the bytes of the file. -/
def writeHash (h : Hash) : Res (List UInt8) := do
  let r ← h.writeLoop (h.fila.reverse.take 16777217)
  .ok (putInt32 0x00445733 ++ putInt32 0 ++ r)

/-- The reading loop of `dwh_read_hash`, DwHash.c:1121-1132.  The field
`immutable` of an element read from a file is never initialised: `junk` is what
the allocator left there. -/
def readLoop (junk : Nat → Bool) : Nat → Stream → Hash → Res Hash
  | 0, _, h => .ok h
  | fuel + 1, s, h =>
    if s.eof then .ok h
    else
      let r := s.getElement
      match r.1 with
      | none => .ok h
      | some (k, v, x) =>
        match placeNew hf { h with next := h.next + 1 }
            { id := h.next, key := k, value := v, expire := x, immutable := junk h.next } 1 with
        | .ok h' => readLoop junk fuel r.2 h'
        | .err => .ok h
        | .ub => .ub

/-- Capacity of a cache read from a file, DwHash.c:1110-1114. -/
def readMax (cacheSize : Nat) : Nat :=
  if 32 < cacheSize ∧ cacheSize < 16777218 then cacheSize else 1024

/-- `dwh_read_hash`, DwHash.c:1084-1140, on a file that could be opened; `err`
is the null pointer returned for a wrong file marker. -/
def readHash (junk : Nat → Bool) (cacheSize : Nat) (file : List UInt8) : Res Hash :=
  let m := Stream.getInt 4 ⟨file, false⟩
  if m.1 ≠ 0x00445733 then .err
  else readLoop hf junk 16777218 (m.2.getInt 4).2 (Hash.init cacheSize (readMax cacheSize))

end Hash
end Dw
