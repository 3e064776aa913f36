import Verif.Deadwood.StrModel
/-!
# Model: the associative arrays of MaraDNS, libs/MaraHash.c

Keys are the contents of strings (`Mara.Js`, see `JsModel.lean`; comparison is `js_issame`, see
`issame_exact`); values are of any type and stand for the pointer with its `datatype`.  Memory is
taken to be available.  The table is the list of its chains.  `c` is `mhash_secret_add_constant`,
which is set once, before the first array is made.
-/

namespace Mara
namespace Hash

open Dw (Res)

variable {ν : Type}

/-- `mhash_mask`, MaraHash.c:39-43. -/
def masks : List Nat := [1, 1, 3, 7, 15, 31, 63, 127, 255, 511, 1023, 2047, 4095, 8191, 16383, 32767, 65535, 131071,
  262143, 524287, 1048575, 2097151, 4194303, 8388607, 16777215, 33554431, 67108863, 134217727, 268435455, 536870911,
  1073741823]

/-- The type `mhash`; `count` is `spots`. -/
structure MHash (ν : Type) where
  bits : Nat
  table : List (List (List UInt8 × ν))
  count : Nat

/-- `mhash_create`, MaraHash.c:53-80. -/
def create (bits : Nat) : Res (MHash ν) :=
  match masks[bits]? with
  | none => .ub
  | some m => .ok { bits, table := List.replicate (m + 1) [], count := 0 }

/-- The loop of `mhash_js`, MaraHash.c:105-112.  A byte is shifted as an `int`: an overflow is
undefined. -/
def hashLoop (c : UInt32) (bits : Nat) : List UInt8 → (shift : Nat) → UInt32 → Res UInt32
  | [], _, ret => .ok ret
  | b :: l, shift, ret =>
    if b.toNat * 2 ^ shift ≥ 2 ^ 31 then .ub
    else hashLoop c bits l ((shift + 7) % bits) ((ret + UInt32.ofNat (b.toNat * 2 ^ shift) + c) * 45737)

/-- `mhash_js`, MaraHash.c:89-125. -/
def hashOf (c : UInt32) (bits : Nat) (key : List UInt8) : Res Nat :=
  if bits = 0 ∧ key ≠ [] then .ub
  else do
    let ret ← hashLoop c bits key 0 0
    let ret := ret ^^^ (ret >>> 7)
    match masks[bits]? with
    | none => .ub
    | some m =>
      let ret := ret &&& UInt32.ofNat m
      .ok (if ret = 0 then 1 else ret.toNat)

/-- `mhash_put`, MaraHash.c:133-201; `.err` is `JS_ERROR`. -/
def put (c : UInt32) (h : MHash ν) (key : List UInt8) (v : ν) : Res (MHash ν) := do
  let i ← hashOf c h.bits key
  match h.table[i]? with
  | none => .ub
  | some chain =>
    if chain.any (·.1 == key) then .err
    else .ok { h with table := h.table.set i (chain ++ [(key, v)]), count := h.count + 1 }

/-- `mhash_get`, MaraHash.c:212-257. -/
def get (c : UInt32) (h : MHash ν) (key : List UInt8) : Res (Option ν) := do
  let i ← hashOf c h.bits key
  match h.table[i]? with
  | none => .ub
  | some chain => .ok ((chain.find? (·.1 == key)).map (·.2))

/-- `mhash_undef`, MaraHash.c:303-359. -/
def undef (c : UInt32) (h : MHash ν) (key : List UInt8) : Res (Option ν × MHash ν) := do
  let i ← hashOf c h.bits key
  match h.table[i]? with
  | none => .ub
  | some chain =>
    match chain.find? (·.1 == key) with
    | none => .ok (none, h)
    | some e => .ok (some e.2, { h with table := h.table.set i (chain.eraseP (·.1 == key)), count := h.count - 1 })

/-- The inner loop of `mhash_resize`, MaraHash.c:460-481: the result of `mhash_put` is not looked
at. -/
def refill (c : UInt32) : List (List UInt8 × ν) → MHash ν → Res (MHash ν)
  | [], h => .ok h
  | e :: l, h =>
    match put c h e.1 e.2 with
    | .ok h => refill c l h
    | .err => refill c l h
    | .ub => .ub

/-- `mhash_resize`, MaraHash.c:427-487.  The chain with the number 0 is left out.  The count is
not set to zero before the entries are put in again. -/
def resize (c : UInt32) (h : MHash ν) (bits : Nat) : Res (MHash ν) :=
  if bits < 1 ∨ bits > 29 then .err
  else match masks[bits]? with
    | none => .ub
    | some m => refill c (h.table.drop 1).flatten { bits, table := List.replicate (m + 1) [], count := h.count }

/-- `mhash_autogrow`, MaraHash.c:497-525; the array with the answer whether it grew. -/
def autogrow (c : UInt32) (h : MHash ν) : Res (Bool × MHash ν) :=
  if h.bits < 1 ∨ h.bits > 29 then .err
  else if h.bits < 4 then do
    let h ← resize c h (h.bits + 1)
    .ok (true, h)
  else match masks[h.bits - 1]? with
    | none => .ub
    | some m =>
      if h.count ≥ m then do
        let h ← resize c h (h.bits + 1)
        .ok (true, h)
      else .ok (false, h)

/-- What the search for a key to go on with finds. -/
inductive Step where
  | key (k : List UInt8)
  | last
deriving DecidableEq

/-- The first key in a list of chains, MaraHash.c:539-549, 606-616; `max` is the room for it. -/
def firstIn (max : Nat) : List (List (List UInt8 × ν)) → Res Step
  | [] => .ok .last
  | [] :: t => firstIn max t
  | (e :: _) :: _ => if e.1.length > max then .err else .ok (.key e.1)

/-- `mhash_firstkey`, MaraHash.c:535-553. -/
def firstkey (max : Nat) (h : MHash ν) : Res Step := firstIn max h.table

/-- `mhash_nextkey`, MaraHash.c:565-620. -/
def nextkey (c : UInt32) (max : Nat) (h : MHash ν) (key : List UInt8) : Res Step := do
  let i ← hashOf c h.bits key
  match h.table[i]? with
  | none => .ub
  | some chain =>
    match chain.dropWhile (·.1 != key) with
    | [] => .err
    | _ :: e :: _ => if e.1.length > max then .err else .ok (.key e.1)
    | [_] => firstIn max (h.table.drop (i + 1))

end Hash
end Mara
