/-!
# Deadwood strings (`dw_str`), buffer primitives

Source: `/repo/deadwood-github/src/DwStr.c`.  Every definition cites the lines it
models.  `dw_malloc` failure (memory exhaustion) is not modelled.
-/

namespace Dw

/-- Outcome of a C call: a value, the function's own error return (`-1` or the
null pointer; the arguments are unchanged), or C undefined behaviour
(an access outside the allocated block, or signed overflow). -/
inductive Res (α : Type) where
  | ok (a : α)
  | err
  | ub
deriving Repr, DecidableEq

namespace Res
variable {α β : Type}

/-- Sequencing of C calls that propagate errors (not tied to a source line). -/
def bind (x : Res α) (f : α → Res β) : Res β :=
  match x with
  | ok a => f a
  | err => err
  | ub => ub

instance : Monad Res where
  pure := ok
  bind := bind

@[simp] theorem pure_eq (a : α) : (pure a : Res α) = ok a := rfl
@[simp] theorem ok_bind (a : α) (f : α → Res β) : (ok a >>= f) = f a := rfl
@[simp] theorem err_bind (f : α → Res β) : ((err : Res α) >>= f) = err := rfl
@[simp] theorem ub_bind (f : α → Res β) : ((ub : Res α) >>= f) = ub := rfl

end Res

/-- `dw_str`, DwStr.h (struct with `len`, `max`, `sane`, `str`).
`buf` is the heap block `str` points to.  The `sane == 114` tag and the null
pointer are not modelled: a value of this type is a live object. -/
structure DwStr where
  len : Nat
  max : Nat
  buf : List UInt8
deriving Repr, DecidableEq

namespace DwStr

/-- The visible contents of a string: its first `len` bytes. -/
def contents (s : DwStr) : List UInt8 := s.buf.take s.len

/-- The heap block has the size `dw_create` asked for (`size + 2`),
DwStr.c:61. -/
def WF (s : DwStr) : Prop := s.buf.length = s.max + 2

/-- `dw_assert_sanity`, DwStr.c:26-43. -/
def sane (s : DwStr) : Bool := decide (s.len < s.max) && decide (s.len ≤ 0x0fffffff)

/-- Read one byte of the block; outside of it is undefined behaviour. -/
def peek (s : DwStr) (i : Nat) : Res UInt8 :=
  match s.buf[i]? with
  | some b => .ok b
  | none => .ub

/-- Write one byte of the block; outside of it is undefined behaviour. -/
def poke (s : DwStr) (i : Nat) (b : UInt8) : Res DwStr :=
  if i < s.buf.length then .ok { s with buf := s.buf.set i b } else .ub

/-- `dw_create`, DwStr.c:49-70.  `junk` is the unspecified initial contents of
the fresh block. -/
def create (size : Nat) (junk : List UInt8) : Res DwStr :=
  if 134217728 ≤ size then .err
  else .ok { len := 0, max := size
             buf := (junk ++ List.replicate (size + 2) 0).take (size + 2) }

/-- `dw_addchar`, DwStr.c:100-111. -/
def addchar (add : UInt8) (s : DwStr) : Res DwStr :=
  if !s.sane then .err
  else if s.len + 1 < s.max then do
    let s' ← s.poke s.len add
    .ok { s' with len := s'.len + 1 }
  else .err

/-- The copy loop of `dw_cstr_append`, DwStr.c:129-134. -/
def cstrLoop : List UInt8 → DwStr → Res DwStr
  | [], s => .ok s
  | b :: bs, s => do
    let s' ← s.poke s.len b
    cstrLoop bs { s' with len := s'.len + 1 }

/-- `dw_cstr_append`, DwStr.c:116-136.  `add` stands for the `len` bytes at the
source pointer (a negative `len` is an error in C and not representable). -/
def cstrAppend (add : List UInt8) (s : DwStr) : Res DwStr :=
  if !s.sane then .err
  else if s.len + add.length ≥ s.max then .err
  else cstrLoop add s

/-- The copy loop of `dw_qrappend`, DwStr.c:150-154; `add` is the C string
without its terminating null. -/
def qrLoop (nope : UInt8) : List UInt8 → DwStr → Res DwStr
  | [], s => .ok s
  | b :: bs, s =>
    if b = 0 ∨ b = nope then .ok s
    else if s.len < s.max then do
      let s' ← s.poke s.len b
      qrLoop nope bs { s' with len := s'.len + 1 }
    else .ok s

/-- `dw_qrappend`, DwStr.c:143-156.  (`char nope` compared with `uint8_t`: only
`nope < 128` is meaningful, as used by the callers.) -/
def qrappend (add : List UInt8) (s : DwStr) (nope : UInt8) : Res DwStr :=
  if !s.sane then .err else qrLoop nope add s

/-- `uint32_t` conversion of a C `int` (used where the code mixes `int32_t`
offsets with the unsigned `len`). -/
def u32 (i : Int) : Nat := (i % 4294967296).toNat

/-- `dw_fetch_u16`, DwStr.c:319-333.  `offset + 1` overflowing `int32_t` is
undefined behaviour. -/
def fetchU16 (s : DwStr) (offset : Int) : Res Nat :=
  if !s.sane then .err
  else
    let o := if offset < 0 then offset + s.len - 1 else offset
    if o + 1 > 2147483647 then .ub
    else if u32 (o + 1) > s.len ∨ o < 0 then .err
    else do
      let a ← s.peek o.toNat
      let b ← s.peek (o.toNat + 1)
      .ok (a.toNat * 256 + b.toNat)

/-- `dw_pop_u16`, DwStr.c:337-348. -/
def popU16 (s : DwStr) : Res (Nat × DwStr) :=
  if !s.sane then .err
  else if s.len < 2 then .err
  else do
    let a ← s.peek (s.len - 2)
    let b ← s.peek (s.len - 2 + 1)
    .ok (a.toNat * 256 + b.toNat, { s with len := s.len - 2 })

/-- `dw_pop_u8`, DwStr.c:352-363. -/
def popU8 (s : DwStr) : Res (Nat × DwStr) :=
  if !s.sane then .err
  else if s.len < 1 then .err
  else do
    let a ← s.peek (s.len - 1)
    .ok (a.toNat, { s with len := s.len - 1 })

/-- `dw_fetch_u8`, DwStr.c:371-385. -/
def fetchU8 (s : DwStr) (offset : Int) : Res Nat :=
  if !s.sane then .err
  else
    let o := if offset < 0 then s.len + offset else offset
    if u32 o > s.len ∨ o < 0 then .err
    else do
      let a ← s.peek o.toNat
      .ok a.toNat

/-- Low byte of a number (`value & 0xff`). -/
def byte (n : Nat) : UInt8 := UInt8.ofNat n

/-- `dw_put_u16`, DwStr.c:402-433; `value` is a `uint16_t` (callers' wider
numbers are truncated by the parameter type).  Note the 24-bit mask in the
comparison, as in the code. -/
def putU16 (s : DwStr) (value : Nat) (offset : Int) : Res DwStr :=
  if !s.sane then .err
  else
    let o := if offset < 0 then s.len + offset + 1 else offset
    if u32 o > s.len ∨ s.len > 0x0fffffff then .err
    else if o ≥ (s.len % 0x1000000 : Nat) - 1 then
      let expandBy := s.len - o.toNat + 2
      if s.len + expandBy ≥ s.max then .err
      else do
        let s1 := { s with len := s.len + expandBy }
        let s2 ← s1.poke o.toNat (byte (value / 256))
        s2.poke (o.toNat + 1) (byte value)
    else do
      let s2 ← s.poke o.toNat (byte (value / 256))
      s2.poke (o.toNat + 1) (byte value)

/-- `dw_push_u16`, DwStr.h macro / DwStr.c: append a 16-bit number
(`dw_put_u16(obj,value,-1)`). -/
def pushU16 (value : Nat) (s : DwStr) : Res DwStr := s.putU16 value (-1)

/-- `dw_put_u8`, DwStr.c:452-477. -/
def putU8 (s : DwStr) (value : Nat) (offset : Int) : Res DwStr :=
  if !s.sane then .err
  else
    let o := if offset < 0 then s.len + offset + 1 else offset
    if u32 o > s.len ∨ s.len > 0x0fffffff then .err
    else if o = (s.len % 0x1000000 : Nat) then
      if s.len + 1 > s.max then .err
      else { s with len := s.len + 1 }.poke o.toNat (byte value)
    else s.poke o.toNat (byte value)

/-- The comparison loop of `dw_issame`, DwStr.c:522-526; `n` iterations left,
at index `c`. -/
def sameLoop (a b : DwStr) : (n c : Nat) → Res Bool
  | 0, _ => .ok true
  | n + 1, c => do
    let x ← a.peek c
    let y ← b.peek c
    if x ≠ y then .ok false else sameLoop a b n (c + 1)

/-- `dw_issame`, DwStr.c:511-528 (`1` is `true`, `0` is `false`). -/
def issame (a b : DwStr) : Res Bool :=
  if !a.sane then .err
  else if !b.sane then .err
  else if a.len ≠ b.len then .ok false
  else sameLoop a b a.len 0

/-- The copy loop of `dw_append`, DwStr.c:544-546. -/
def appendLoop (src : DwStr) : (n c : Nat) → DwStr → Res DwStr
  | 0, _, t => .ok t
  | n + 1, c, t => do
    let x ← src.peek c
    let t' ← t.poke (t.len + c) x
    appendLoop src n (c + 1) t'

/-- `dw_append`, DwStr.c:533-549.  Source and target are distinct objects. -/
def append (src tgt : DwStr) : Res DwStr :=
  if !src.sane then .err
  else if !tgt.sane then .err
  else if tgt.len + src.len ≥ tgt.max then .err
  else do
    let t ← appendLoop src src.len 0 tgt
    .ok { t with len := t.len + src.len }

/-- The copy loop of `dw_substr`, DwStr.c:291-297: `n` iterations of
`c < amount` left.  Returns the final `c`. -/
def substrLoop (obj : DwStr) (begin : Int) : (n c : Nat) → DwStr → Res (Nat × DwStr)
  | 0, c, copy => .ok (c, copy)
  | n + 1, c, copy =>
    if u32 (c + begin) > obj.len ∨ c ≥ copy.max then .ok (c, copy)
    else do
      let x ← obj.peek (begin + c).toNat
      let copy' ← copy.poke c x
      substrLoop obj begin n (c + 1) copy'

/-- `dw_substr`, DwStr.c:261-311. -/
def substr (obj : DwStr) (begin amount max : Int) (junk : List UInt8) : Res DwStr :=
  if !obj.sane then .err
  else
    let b := if begin < 0 then obj.len + begin else begin
    let a := if amount < 0 then obj.len - b + amount + 1 else amount
    let size : Option Nat :=
      if max ≥ 0 then some (u32 (a + max + 1))
      else if max = -1 then some obj.max
      else none
    if max ≥ 0 ∧ a + max + 1 > 2147483647 then .ub
    else match size with
    | none => .err
    | some sz => do
      let copy ← create sz junk
      let (c, copy') ← substrLoop obj b a.toNat 0 copy
      .ok { copy' with len := c }

/-- `dw_copy(x)`: `dw_substr(x,0,-1,-1)`, DwStr.h. -/
def copy (obj : DwStr) (junk : List UInt8) : Res DwStr := obj.substr 0 (-1) (-1) junk

/-- `dw_substr_append`, DwStr.c:556-572. -/
def substrAppend (splice : DwStr) (begin amount : Int) (tgt : DwStr)
    (junk : List UInt8) : Res DwStr := do
  let tmp ← splice.substr begin amount 1 junk
  append tmp tgt

/-- Read loop of `dw_to_cstr`, DwStr.c:587-589. -/
def cstrReadLoop (obj : DwStr) : (n a : Nat) → Res (List UInt8)
  | 0, _ => .ok []
  | n + 1, a => do
    let x ← obj.peek a
    let r ← cstrReadLoop obj n (a + 1)
    .ok (x :: r)

/-- `dw_to_cstr`, DwStr.c:578-593: the bytes before the terminating null that
the function writes.  (The block it allocates has `len + 3` bytes, so the
writes are in bounds by construction and not modelled as pokes.) -/
def toCstr (obj : DwStr) : Res (List UInt8) :=
  if !obj.sane then .err else cstrReadLoop obj obj.len 0

end DwStr
end Dw
