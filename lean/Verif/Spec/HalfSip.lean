/-!
# HalfSipHash-1-3

After Aumasson and Bernstein, "SipHash: a fast short-input PRF", in the 32-bit variant
of the reference implementation, with one round for each message word and three rounds
at the end; 32-bit output.
-/

namespace Spec
namespace HalfSip

structure V where
  v0 : UInt32
  v1 : UInt32
  v2 : UInt32
  v3 : UInt32

def rotl (x : UInt32) (r : Nat) : UInt32 := ⟨x.toBitVec.rotateLeft r⟩

/-- One round: two half-rounds on the pairs (v0, v1) and (v2, v3), then two on
(v2, v1) and (v0, v3). -/
def round (v : V) : V :=
  let a := v.v0 + v.v1
  let b := rotl v.v1 5 ^^^ a
  let c := v.v2 + v.v3
  let d := rotl v.v3 8 ^^^ c
  let e := rotl a 16 + d
  let f := c + b
  ⟨e, rotl b 13 ^^^ f, rotl f 16, rotl d 7 ^^^ e⟩

def init (k0 k1 : UInt32) : V := ⟨k0, k1, k0 ^^^ 0x6c796765, k1 ^^^ 0x74656462⟩

/-- Input of one word. -/
def word (v : V) (m : UInt32) : V :=
  let w := round { v with v3 := v.v3 ^^^ m }
  { w with v0 := w.v0 ^^^ m }

/-- Little-endian word of four bytes. -/
def le (a b c d : UInt8) : UInt32 :=
  UInt32.ofNat (a.toNat + b.toNat * 256 + c.toNat * 65536 + d.toNat * 16777216)

/-- Input of a message: whole words, then the remaining bytes, zeros, and as top byte the
length modulo 256. -/
def absorb (n : UInt8) (v : V) : List UInt8 → V
  | a :: b :: c :: d :: l => absorb n (word v (le a b c d)) l
  | [a, b, c] => word v (le a b c n)
  | [a, b] => word v (le a b 0 n)
  | [a] => word v (le a 0 0 n)
  | [] => word v (le 0 0 0 n)

def finish (v : V) : UInt32 :=
  let w := round (round (round { v with v2 := v.v2 ^^^ 0xff }))
  w.v1 ^^^ w.v3

/-- HalfSipHash-1-3. -/
def hash (k0 k1 : UInt32) (msg : List UInt8) : UInt32 :=
  finish (absorb (UInt8.ofNat msg.length) (init k0 k1) msg)

end HalfSip
end Spec
