import Verif.Deadwood.StrModel
/-!
# The random generator

Source: `/repo/deadwood-github/src/DwRadioGatun.c` (32-bit words, without `RG64`).
Arrays are lists; indices are inside the arrays by construction of the loops (their
bounds are constants), so out-of-range accesses are not a separate outcome here.
The shift `x << q` of an `int` (line 174) is taken as the shift of the 32-bit word, which is
what compilers make of it; in strict C it overflows for a byte of 128 or more at `q = 24`.
-/

namespace Dw
namespace Rg

abbrev W := UInt32

/-- Array element. -/
def at' (a : List W) (i : Nat) : W := a.getD i 0

/-- First loop of `dwr_beltmill`, DwRadioGatun.c:44-55, one row: the row moves up by one
place; the word that falls off goes to place 0. -/
def shiftRow (s : Nat) (b : List W) : List W :=
  let q := at' b (s * 13 + 12)
  let b := [12, 11, 10, 9, 8, 7, 6, 5, 4, 3, 2, 1].foldl (fun b i => b.set (s * 13 + i) (at' b (s * 13 + (i - 1)))) b
  b.set (s * 13) q

/-- The rotation of the third loop of `dwr_beltmill`, DwRadioGatun.c:65-69. -/
def rot (x : W) (r : Nat) : W :=
  if 0 < r ∧ r < 32 then (x >>> UInt32.ofNat r) ||| (x <<< UInt32.ofNat (32 - r)) else x

/-- Second loop of `dwr_beltmill`, DwRadioGatun.c:56-59: the mill feeds the belt. -/
def feedBelt (a b : List W) : List W :=
  (List.range 12).foldl
    (fun b i => let s := (i + 1) + (i % 3) * 13; b.set s (at' b s ^^^ at' a (i + 1))) b

/-- Third loop of `dwr_beltmill`, DwRadioGatun.c:60-70. -/
def rotMill (a : List W) : List W :=
  (List.range 19).map fun i =>
    let y := (i * 7) % 19
    let r := (i * (i + 1) / 2) % 32
    rot (at' a y ^^^ (at' a ((y + 1) % 19) ||| ~~~ at' a ((y + 2) % 19))) r

/-- Fourth loop of `dwr_beltmill`, DwRadioGatun.c:71-76. -/
def thetaMill (A : List W) : List W :=
  (List.range 19).map fun i => at' A i ^^^ at' A ((i + 1) % 19) ^^^ at' A ((i + 4) % 19)

/-- The end of `dwr_beltmill`, DwRadioGatun.c:77-80. -/
def endMill (q0 q1 q2 : W) (a : List W) : List W :=
  let a := a.set 0 (at' a 0 ^^^ 1)
  let a := a.set 13 (at' a 13 ^^^ q0)
  let a := a.set 14 (at' a 14 ^^^ q1)
  a.set 15 (at' a 15 ^^^ q2)

/-- `dwr_beltmill`, DwRadioGatun.c:34-81. -/
def beltmill (a b : List W) : List W × List W :=
  (endMill (at' b 12) (at' b 25) (at' b 38) (thetaMill (rotMill a)),
    feedBelt a (shiftRow 2 (shiftRow 1 (shiftRow 0 b))))

/-- `dwr_rg`, DwRadioGatun.h. -/
structure Gen where
  mill : List W
  belt : List W
  index : Nat
deriving DecidableEq, Repr

/-- `dwr_new`, DwRadioGatun.c:99-126. -/
def new : Gen := ⟨List.replicate 19 0, List.replicate 39 0, 0⟩

/-- `dwr_input_map`, DwRadioGatun.c:128-133. -/
def inputMap (g : Gen) (p0 p1 p2 : W) : Gen :=
  let b := g.belt.set 0 (at' g.belt 0 ^^^ p0)
  let a := g.mill.set 16 (at' g.mill 16 ^^^ p0)
  let b := b.set 13 (at' b 13 ^^^ p1)
  let a := a.set 17 (at' a 17 ^^^ p1)
  let b := b.set 26 (at' b 26 ^^^ p2)
  let a := a.set 18 (at' a 18 ^^^ p2)
  let (a, b) := beltmill a b
  { g with mill := a, belt := b }

/-- `n` blank rounds, DwRadioGatun.c:177-179. -/
def mills : Nat → Gen → Gen
  | 0, g => g
  | n + 1, g => mills n { g with mill := (beltmill g.mill g.belt).1, belt := (beltmill g.mill g.belt).2 }

/-- The inner loops of `dwr_init_rg`, DwRadioGatun.c:159-183: read the next byte (number
`k` of the block) of the key; the result is the words and whether the key ended.
`n` counts the bytes of the block still to come. -/
def readBlock (obj : DwStr) : (n k index : Nat) → (p : List W) → Res (List W × Nat × Bool)
  | 0, _, index, p => .ok (p, index, false)
  | n + 1, k, index, p => do
    let x ← obj.peek index
    let index := index + 1
    let done := decide (index > obj.len)
    let x : W := if done then 1 else UInt32.ofNat x.toNat
    let p := p.set (k / 4) (at' p (k / 4) ||| (x <<< UInt32.ofNat (8 * (k % 4))))
    if done then .ok (p, index, true) else readBlock obj n (k + 1) index p

/-- The outer loop of `dwr_init_rg`, DwRadioGatun.c:157-186. -/
def initLoop (obj : DwStr) : (n index : Nat) → Gen → Res Gen
  | 0, _, _ => .err
  | n + 1, index, g => do
    let (p, index, done) ← readBlock obj 12 0 index [0, 0, 0]
    let g := inputMap g (at' p 0) (at' p 1) (at' p 2)
    if done then .ok (mills 16 g) else initLoop obj n index g

/-- `dwr_init_rg`, DwRadioGatun.c:137-188. -/
def initRg (obj : DwStr) : Res Gen :=
  if !obj.sane then .err else initLoop obj 16777218 0 new

/-- `dwr_rng`, DwRadioGatun.c:191-252. -/
def rng (g : Gen) : Nat × Gen :=
  let g := if g.index ≥ 100000000 then { g with index := 0 } else g
  if g.index % 4 = 0 then
    let (a, b) := beltmill g.mill g.belt
    let o := (at' a 1).toNat
    (((o &&& 0xff) <<< 8) ||| ((o &&& 0xff00) >>> 8), ⟨a, b, g.index + 1⟩)
  else
    let g := { g with index := g.index + 1 }
    let o0 := (at' g.mill 1).toNat
    let o1 := (at' g.mill 2).toNat
    let r :=
      if g.index % 4 = 2 then ((o0 &&& 0xff0000) >>> 8) ||| ((o0 &&& 0xff000000) >>> 24)
      else if g.index % 4 = 3 then ((o1 &&& 0xff) <<< 8) ||| ((o1 &&& 0xff00) >>> 8)
      else if g.index % 4 = 0 then ((o1 &&& 0xff0000) >>> 8) ||| ((o1 &&& 0xff000000) >>> 24)
      else 0
    (r, g)

/-- `n` calls; the numbers returned. -/
def stream : Nat → Gen → List Nat
  | 0, _ => []
  | n + 1, g => (rng g).1 :: stream n (rng g).2

end Rg
end Dw
