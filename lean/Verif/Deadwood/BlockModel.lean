import Verif.Deadwood.HalfSipModel
/-!
# Block hash files: the reader

Source: `/repo/deadwood-github/src/DwBlockHash.c` and the use of it in
`/repo/deadwood-github/src/DwUdpSocket.c`.  A file of 2^31 bytes or more is not modelled
(`read` does not deliver that many bytes at once, so that it is refused).  `stat`, `open`
and `read` are taken to succeed; `malloc` too.  The bytes shifted by 24 as `int` are taken
as the shift of the 32-bit word.
-/

namespace Dw
namespace BH

/-- `blockHash`, DwBlockHash.h.  `block` is the heap block; `hashSize` is an `int32_t`
there, but is only used in unsigned expressions, so here it is its value as an unsigned
number. -/
structure Blk where
  block : List UInt8
  max : Nat
  k1 : UInt32
  k2 : UInt32
  hashSize : Nat

/-- Read of one byte of the heap block. -/
def rd (b : List UInt8) (i : Nat) : Res UInt8 :=
  match b[i]? with
  | some x => .ok x
  | none => .ub

/-- `DBH_Read32bitNumber`, DwBlockHash.c:35-45.  The sum `offset + 3` is unsigned. -/
def read32 (b : List UInt8) (offset max : Nat) : Res Nat :=
  if (offset + 3) % 4294967296 ≥ max then .ok 0 else do
    let a ← rd b offset
    let c ← rd b (offset + 1)
    let d ← rd b (offset + 2)
    let e ← rd b (offset + 3)
    .ok (a.toNat * 16777216 + c.toNat * 65536 + d.toNat * 256 + e.toNat)

/-- The comparison of one entry, DwBlockHash.c:86-96: `n` bytes to compare, at `offset`
of the block and `so` of the string. -/
def same (b : List UInt8) (str : List UInt8) : (n offset so : Nat) → Res Bool
  | 0, _, _ => .ok true
  | n + 1, offset, so => do
    let x ← rd b offset
    let y ← rd str so
    if x ≠ y then .ok false else same b str n (offset + 1) (so + 1)

/-- The loop over one chain, DwBlockHash.c:67-99.  The loop moves `offset` on by two or
more every time; `n` bounds the number of times it runs. -/
def chain (b : Blk) (str : List UInt8) (len : Nat) : (n offset : Nat) → Res Int
  | 0, _ => .ok (-1)
  | n + 1, offset =>
    if offset < b.max then do
      let hi ← rd b.block offset
      if hi.toNat = 0xff then .ok 0 else do
        let offset := offset + 1
        if offset ≥ b.max - 1 then .ok (-1) else do
          let lo ← rd b.block offset
          let stringLen := hi.toNat * 256 + lo.toNat
          if stringLen > 0xff00 then .ok (-1) else do
            let offset := offset + 1
            let strEnd := offset + stringLen
            if strEnd > b.max then .ok (-1) else
              if stringLen ≠ len then chain b str len n strEnd else do
                let r ← same b.block str stringLen offset 0
                if r then .ok 1 else chain b str len n strEnd
    else .ok (-1)

/-- `DBH_BlockHasString`, DwBlockHash.c:51-101.  A remainder by zero is undefined. -/
def hasString (b : Blk) (str : List UInt8) (len : Nat) : Res Int :=
  if len > 0xff00 then .ok (-1) else do
    let h ← HS.halfSip13 str len b.k1 b.k2
    if b.hashSize = 0 then .ub else do
      let bucket := h.toNat % b.hashSize
      let offset ← read32 b.block ((16 + 4 * bucket) % 4294967296) b.max
      if offset = 0 then .ok 0
      else if offset ≥ b.max - 1 then .ok (-1)
      else chain b str len b.max offset

/-- `DBH_makeBlockHash`, DwBlockHash.c:104-137: `file` is the contents of the file,
`junk` what is in the three extra bytes of the heap block. -/
def load (file junk : List UInt8) : Res Blk :=
  let max := file.length
  if max < 16 then .err else do
    let block := file ++ junk
    let a ← rd block 0
    let c ← rd block 1
    let d ← rd block 2
    let e ← rd block 3
    if a ≠ 0 ∨ c ≠ 68 ∨ d ≠ 119 ∨ e ≠ 66 then .err else do
      let k1 ← read32 block 4 max
      let k2 ← read32 block 8 max
      let hs ← read32 block 12 max
      if hs > max then .err
      else .ok ⟨block, max, UInt32.ofNat k1, UInt32.ofNat k2, hs⟩

/-- The labels of the query, DwUdpSocket.c:789-797 in `get_local_udp_packet`: where the
last label, the last but one and the one before begin (0 if there is none). `q` is the
query with its two bytes of type; `n` bounds the number of labels. -/
def lastLabels (q : List UInt8) : (n point l1 l2 l3 : Nat) → Res (Nat × Nat × Nat)
  | 0, _, l1, l2, l3 => .ok (l1, l2, l3)
  | n + 1, point, l1, l2, l3 =>
    if point < q.length - 2 then do
      let len ← rd q point
      if len.toNat < 1 ∨ len.toNat > 63 then .ok (l1, l2, l3)
      else lastLabels q n (point + len.toNat + 1) point l1 l2
    else .ok (l1, l2, l3)

/-- Does the file have the rest of the query from `p` on, DwUdpSocket.c:798-815. -/
def tryFrom (b : Blk) (q : List UInt8) (p : Nat) : Res Bool :=
  if 0 < p ∧ p < q.length - 2 then do
    let r ← hasString b (q.drop p) (q.length - p - 2)
    .ok (decide (r = 1))
  else .ok false

/-- Is the query refused because of the block file, DwUdpSocket.c:780-821. -/
def blocked (b : Blk) (q : List UInt8) : Res Bool :=
  if q.length > 2 then do
    let r ← hasString b q (q.length - 2)
    if r = 1 then .ok true else do
      let (l1, l2, l3) ← lastLabels q q.length 0 0 0 0
      let t ← tryFrom b q l1
      if t then .ok true else do
        let t ← tryFrom b q l2
        if t then .ok true else tryFrom b q l3
  else .ok false

end BH
end Dw
