import Verif.Deadwood.StrModel
/-!
# HalfSip13

Source: `/repo/deadwood-github/src/DwHalfSipHash.c`; the same function is in
`/repo/deadwood-github/tools/blockhash/blockHashMake.c:57-117`.
-/

namespace Dw
namespace HS

/-- The local variables `v0` to `v3`. -/
structure V where
  v0 : UInt32
  v1 : UInt32
  v2 : UInt32
  v3 : UInt32

/-- The permutation, DwHalfSipHash.c:50-61 and again 71-82. -/
def perm (v : V) : V :=
  let v0 := v.v0 + v.v1
  let v1 := (v.v1 <<< 5) ||| (v.v1 >>> 27)
  let v1 := v1 ^^^ v0
  let v0 := (v0 <<< 16) ||| (v0 >>> 16)
  let v2 := v.v2 + v.v3
  let v3 := (v.v3 <<< 8) ||| (v.v3 >>> 24)
  let v3 := v3 ^^^ v2
  let v0 := v0 + v3
  let v3 := (v3 <<< 7) ||| (v3 >>> 25)
  let v3 := v3 ^^^ v0
  let v2 := v2 + v1
  let v1 := (v1 <<< 13) ||| (v1 >>> 19)
  let v1 := v1 ^^^ v2
  let v2 := (v2 <<< 16) ||| (v2 >>> 16)
  ⟨v0, v1, v2, v3⟩

/-- Loop state. -/
structure St where
  offset : Nat
  shift : Nat
  m : UInt32
  v : V

/-- The body of the inner loop, DwHalfSipHash.c:43-65. -/
def pass (l : Nat) (s : St) : St :=
  let s := if s.offset = l ∧ s.shift ≠ 32 then
      { s with m := s.m ||| (UInt32.ofNat (l % 256) <<< 24), offset := s.offset + 1 } else s
  let v := perm { s.v with v3 := s.v.v3 ^^^ s.m }
  { offset := s.offset, shift := 0, m := 0, v := { v with v0 := v.v0 ^^^ s.m } }

/-- The inner loop, DwHalfSipHash.c:42-66.  Its body sets `shift` to 0, so that it can run
again only because of `offset == l`, and then the body moves `offset` on: it runs at most
twice. -/
def inner (l : Nat) (s : St) : St :=
  if s.shift ≥ 32 ∨ s.offset = l then
    let s := pass l s
    if s.shift ≥ 32 ∨ s.offset = l then pass l s else s
  else s

/-- The outer loop, DwHalfSipHash.c:37-68; `n` bounds the number of times it runs (the
offset grows every time).  Reading outside the buffer `str` is undefined. -/
def outer (str : List UInt8) (l : Nat) : Nat → St → Res V
  | 0, s => .ok s.v
  | n + 1, s =>
    if s.offset ≤ l then do
      let s ← if s.offset < l then
          match str[s.offset]? with
          | none => .ub
          | some x => .ok { s with m := s.m ||| (UInt32.ofNat x.toNat <<< UInt32.ofNat s.shift), shift := s.shift + 8 }
        else .ok s
      let s := inner l s
      outer str l n { s with offset := s.offset + 1 }
    else .ok s.v

/-- `HalfSip13`, DwHalfSipHash.c:23-85, for `l ≥ 0`. -/
def halfSip13 (str : List UInt8) (l : Nat) (k1 k2 : UInt32) : Res UInt32 := do
  let v ← outer str l (l + 2) ⟨0, 0, 0, ⟨k1, k2, k1 ^^^ 0x6c796765, k2 ^^^ 0x74656462⟩⟩
  let v := { v with v2 := v.v2 ^^^ 255 }
  let v := perm (perm (perm v))
  .ok (v.v1 ^^^ v.v3)

end HS
end Dw
