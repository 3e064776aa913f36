import Verif.Deadwood.HalfSipModel
/-!
# Block hash files: the tool that makes them

Source: `/repo/deadwood-github/tools/blockhash/blockHashMake.c`.  A `blStr` is its `len`
bytes; the linked list of a bucket is a list.  Lists that need a block of 2^31 bytes or
more are not modelled (the sums of `uint32_t` are plain sums here); `malloc` and the writing of
the file are taken to succeed; an existing longer file is not overwritten entirely by the
tool (there is no `O_TRUNC`, line 495), which is not modelled either: the file is new.
-/

namespace Dw
namespace BHM

/-- `fgets(line + 1, 1010, inp)`, line 201: the bytes up to a newline, at most 1009. -/
def fgets : Nat → List UInt8 → List UInt8 × List UInt8
  | 0, inp => ([], inp)
  | _ + 1, [] => ([], [])
  | n + 1, c :: inp => if c = 10 then ([c], inp) else ((c :: (fgets n inp).1), (fgets n inp).2)

theorem fgets_le (n : Nat) (inp : List UInt8) : (fgets n inp).2.length ≤ inp.length := by
  induction n generalizing inp with
  | zero => simp [fgets]
  | succ n ih =>
    cases inp with
    | nil => simp [fgets]
    | cons c inp =>
      rw [fgets]
      split
      · simp
      · have := ih inp; simp; omega

/-- `readFile`, lines 191-235: the strings, each with a space in front (`strlen` and
`strncpy` stop at a zero byte).  -/
def readFile : List UInt8 → List (List UInt8)
  | [] => []
  | c :: inp =>
    let line := (fgets 1009 (c :: inp)).1
    let rest := readFile (fgets 1009 (c :: inp)).2
    if c = 35 then rest else (32 :: line.takeWhile (· ≠ 0)) :: rest
termination_by inp => inp.length
decreasing_by
  rw [fgets]
  split
  · simp
  · have := fgets_le 1008 inp; simp; omega

/-- The test for the end of a label, lines 142-143. -/
def isSep (c : UInt8) : Bool := c = 46 || c = 10 || c = 32 || c = 13

/-- The folding of capitals, lines 139-141. -/
def fold (c : UInt8) : UInt8 := if c.toNat ≤ 90 ∧ c.toNat ≥ 65 then UInt8.ofNat (c.toNat + 32) else c

/-- The loop of `dnsConvertString`, lines 135-160: string and return value.  `n` is the
number of bytes left, `len - counter`. -/
def conv (len : Nat) : (n counter point : Nat) → List UInt8 → List UInt8 × Nat
  | 0, counter, point, str =>
    let d := counter - point - 1
    (if d < 64 then str.set point (UInt8.ofNat d) else str, len)
  | n + 1, counter, point, str =>
    if point ≥ len ∨ counter ≥ len then (str, 0) else
      let c := fold (str.getD counter 0)
      let str := str.set counter c
      if isSep c then
        let d := counter - point - 1
        if d < 64 then
          let str := str.set point (UInt8.ofNat d)
          if d = 0 then (str, point + 1) else conv len n (counter + 1) counter str
        else (str, 0)
      else conv len n (counter + 1) point str

/-- `dnsConvertString` and its use in `dnsConvertChain`, lines 128-176: the string that is
kept. -/
def convert (str : List UInt8) : List UInt8 :=
  let len := str.length
  if len > 1040 then str else
    let (s, r) := conv len (len - 1) 1 0 str
    if r > 0 then s.take r else s

/-- The search of one bucket in `fillHash`, lines 322-345: the string goes to the end of
the chain, unless it is there already (`none`). -/
def place (s : List UInt8) : List (List UInt8) → Option (List (List UInt8))
  | [] => some [s]
  | t :: c => if s = t then none else (place s c).map (t :: ·)

/-- `fillHash`, lines 314-352: the chains and `stringsTotalSize`. -/
def fillHash (k1 k2 : UInt32) :
    List (List UInt8) → List (List (List UInt8)) × Nat → Res (List (List (List UInt8)) × Nat)
  | [], st => .ok st
  | s :: l, (chains, total) =>
    match HS.halfSip13 s s.length k1 k2 with
    | .ok h =>
      if chains.length = 0 then .ub else
      let i := h.toNat % chains.length
      let c := chains.getD i []
      match place s c with
      | none => fillHash k1 k2 l (chains, total)
      | some c => fillHash k1 k2 l (chains.set i c, total + s.length + 2)
    | .err => .err
    | .ub => .ub

/-- Write of one byte of the heap block. -/
def wr (b : List UInt8) (i : Nat) (x : UInt8) : Res (List UInt8) :=
  if i < b.length then .ok (b.set i x) else .ub

/-- `write32BitNumber`, lines 355-365; error is `.err`. -/
def write32 (b : List UInt8) (number offset max : Nat) : Res (List UInt8) :=
  if offset + 3 ≥ max then .err else do
    let b ← wr b offset (UInt8.ofNat (number / 16777216))
    let b ← wr b (offset + 1) (UInt8.ofNat (number / 65536))
    let b ← wr b (offset + 2) (UInt8.ofNat (number / 256))
    wr b (offset + 3) (UInt8.ofNat number)

/-- `write16BitNumber`, lines 368-376. -/
def write16 (b : List UInt8) (number offset max : Nat) : Res (List UInt8) :=
  if offset + 1 ≥ max then .err else do
    let b ← wr b offset (UInt8.ofNat (number / 256))
    wr b (offset + 1) (UInt8.ofNat number)

/-- The loop of `writeString`, lines 398-400. -/
def copyIn : List UInt8 → Nat → List UInt8 → Res (List UInt8)
  | b, _, [] => .ok b
  | b, o, x :: l => do
    let b ← wr b o x
    copyIn b (o + 1) l

/-- `writeString`, lines 392-402. -/
def writeString (b str : List UInt8) (offset max : Nat) : Res (List UInt8) :=
  if offset + str.length ≥ max then .err else copyIn b offset str

/-- The loop of `writeStringChain`, lines 428-437. -/
def writeEntries (max : Nat) : List (List UInt8) → List UInt8 → Nat → Res (List UInt8 × Nat)
  | [], b, o => .ok (b, o)
  | s :: c, b, o =>
    if s.length > 1040 then .err else do
      let b ← write16 b s.length o max
      let b ← writeString b s (o + 2) max
      writeEntries max c b (o + 2 + s.length)

/-- `writeHashBucketChainTerminator`, lines 380-390: the block and `maxOffset`. -/
def terminator (b : List UInt8) (offset max maxOffset : Nat) : Res (List UInt8 × Nat) :=
  if offset ≥ max then .err else do
    let b ← wr b offset 255
    .ok (b, if offset > maxOffset then offset else maxOffset)

/-- `writeStringChain`, lines 420-440. -/
def writeChain (c : List (List UInt8)) (b : List UInt8) (o max maxOffset : Nat) : Res (List UInt8 × Nat) :=
  if o ≥ max then .err else do
    let (b, o) ← writeEntries max c b o
    terminator b o max maxOffset

/-- `writeOneBucket`, lines 444-461. -/
def writeBucket (bucket : Nat) (c : List (List UInt8)) (b : List UInt8) (max maxOffset : Nat) :
    Res (List UInt8 × Nat) :=
  if c = [] then do
    let b ← write32 b 0 (16 + 4 * bucket) max
    .ok (b, maxOffset)
  else do
    let b ← write32 b (maxOffset + 1) (16 + 4 * bucket) max
    writeChain c b (maxOffset + 1) max maxOffset

/-- The loop of `writeAllBuckets`, lines 464-471. -/
def writeBuckets (max : Nat) : (bucket : Nat) → List (List (List UInt8)) → List UInt8 → Nat → Res (List UInt8 × Nat)
  | _, [], b, mo => .ok (b, mo)
  | i, c :: cs, b, mo => do
    let (b, mo) ← writeBucket i c b max mo
    writeBuckets max (i + 1) cs b mo

/-- `writeBlockHeader`, lines 405-414. -/
def writeHeader (k1 k2 : UInt32) (hashSize : Nat) (b : List UInt8) (max : Nat) : Res (List UInt8) :=
  if max < 16 then .err else do
    let b ← copyIn b 0 [0, 68, 119, 66]
    let b ← write32 b k1.toNat 4 max
    let b ← write32 b k2.toNat 8 max
    write32 b hashSize 12 max

/-- `makeBlock` and the writing of the file, lines 474-503 and 597: the bytes written.
`junk` gives the bytes of the new heap block. -/
def makeFile (k1 k2 : UInt32) (chains : List (List (List UInt8))) (total : Nat) (junk : Nat → UInt8) :
    Res (List UInt8) := do
  let max := 16 + 4 * chains.length + total + chains.length
  let b ← writeHeader k1 k2 chains.length ((List.range max).map junk) max
  let (b, mo) ← writeBuckets max 0 chains b (16 + chains.length * 4 - 1)
  .ok (b.take (mo + 1))

/-- The number of buckets, lines 577-584. -/
def bucketCount (buckets : Option Nat) (names : Nat) : Nat :=
  match buckets with
  | some n => if n < 1024 then 1024 else n
  | none => names + names / 4

/-- `main`, lines 540-604: the file made from the text `inp`.  `buckets` is the number of
the third argument; without it, a quarter more than there are strings. -/
def make (k1 k2 : UInt32) (buckets : Option Nat) (inp : List UInt8) (junk : Nat → UInt8) : Res (List UInt8) := do
  let buf := (readFile inp).map convert
  let (chains, total) ← fillHash k1 k2 buf (List.replicate (bucketCount buckets buf.length) [], 0)
  makeFile k1 k2 chains total junk

end BHM
end Dw
