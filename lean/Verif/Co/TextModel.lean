import Verif.Deadwood.StrModel
/-!
# coLunacyDNS: addresses and names as text

Source: `/repo/coLunacyDNS/coLunacyDNS.c`.  Text is a string of bytes without its final zero byte (and
without zero bytes in it).  The places of the input are checked: reading behind a block of memory is
undefined behaviour (`ub`).
-/

namespace Co
open Dw (Res)

/-! ## IPv6 addresses -/

/-- What the first pass over an address knows, coLunacyDNS.c:242-254: the last character (0 at the start),
the place of the second of two colons, the colons seen after that, all colons, the number of characters. -/
structure Seen where
  last : UInt8
  double : Option Nat
  after : Nat
  colons : Nat
  index : Nat
deriving DecidableEq

/-- The first pass, coLunacyDNS.c:259-272. -/
def pass1 : List UInt8 → Seen → Option Seen
  | [], s => some s
  | c :: cs, s =>
    if s.index < 100 then
      if s.last = 58 ∧ c = 58 ∧ s.double ≠ none then none
      else
        let double := if s.last = 58 ∧ c = 58 then some s.index else s.double
        pass1 cs ⟨c, double, if s.last ≠ 58 ∧ c = 58 ∧ double ≠ none then s.after + 1 else s.after,
          if c = 58 then s.colons + 1 else s.colons, s.index + 1⟩
    else some s

/-- What the second pass knows: the number being read and how many of its digits were read, the place to
write to, the number of groups, the number of digits, the address. -/
structure Acc where
  quad : Nat
  digits : Nat
  place : Nat
  quads : Nat
  hex : Nat
  ip : List UInt8
deriving DecidableEq

/-- The value of a digit, coLunacyDNS.c:287-295. -/
def digit (colons : Nat) (c : UInt8) : Option Nat :=
  if 48 ≤ c ∧ c ≤ 57 then some (c.toNat - 48)
  else if c = 95 ∧ colons = 0 then some 0
  else if 97 ≤ c ∧ c ≤ 102 then some (c.toNat - 87)
  else if 65 ≤ c ∧ c ≤ 70 then some (c.toNat - 55)
  else none

/-- A digit is taken in, coLunacyDNS.c:301-310; `none` is an error. -/
def takeDigit (colons : Nat) (d : Nat) (s : Acc) : Option Acc :=
  if s.digits + 1 = 5 ∧ colons ≠ 0 then none
  else some { s with quad := (s.quad * 16 + d) % 65536, digits := s.digits + 1, hex := s.hex + 1 }

/-- A colon, coLunacyDNS.c:313-334; `none` is an error. -/
def takeColon (seen : Seen) (i : Nat) (s : Acc) : Option Acc :=
  if seen.double = some i then
    if s.quad ≠ 0 ∨ s.digits ≠ 0 then none
    else if 8 ≤ s.quads + seen.after then none
    else some { s with quads := 8 - seen.after, place := (8 - seen.after) * 2 }
  else if s.digits = 4 then some { s with digits := 0 }
  else if s.digits ≠ 0 then some { s with digits := 8 }
  else some s

/-- The end of a group, coLunacyDNS.c:339-352; `none` is an error. -/
def endGroup (digit last : Bool) (s : Acc) : Option Acc :=
  if (s.digits = 4 ∧ digit) ∨ s.digits = 8 ∨ last then
    if 16 ≤ s.place + 1 then none
    else some ⟨0, if s.digits = 8 then 0 else s.digits, s.place + 2, s.quads + 1, s.hex,
      (s.ip.set (s.place + 1) (UInt8.ofNat s.quad)).set s.place (UInt8.ofNat (s.quad / 256))⟩
  else some s

/-- The second pass, coLunacyDNS.c:285-354. -/
def pass2 (seen : Seen) : List UInt8 → Nat → Acc → Option Acc
  | [], _, s => some s
  | c :: cs, i, s => do
    let s1 ← match digit seen.colons c with
      | some d => takeDigit seen.colons d s
      | none => if c = 58 then takeColon seen i s else if c = 45 ∨ c = 32 then some s else none
    let s2 ← endGroup (digit seen.colons c).isSome cs.isEmpty s1
    pass2 seen cs (i + 1) s2

/-- `ip6Parse(human, -1, ip6)`, coLunacyDNS.c:241-360, with the sixteen bytes if the result is 1.  (The
numbers of the errors are not modelled.) -/
def ip6Parse (human : List UInt8) : Option (List UInt8) :=
  match pass1 human ⟨0, none, 1, 0, 0⟩ with
  | none => none
  | some s =>
    if s.last = 58 ∧ s.double ≠ some (s.index - 1) then none
    else if 100 ≤ s.index then none
    else match pass2 s human 0 ⟨0, 0, 0, 0, 0, List.replicate 16 0⟩ with
      | none => none
      | some r =>
        if s.colons = 0 ∧ r.hex ≠ 32 then none
        else if s.colons ≠ 0 ∧ r.quads ≠ 8 then none
        else some r.ip

/-- One hexadecimal digit (`%02x`, and coLunacyDNS.c:967-977). -/
def hexChar (n : Nat) : UInt8 := if n < 10 then UInt8.ofNat (48 + n) else UInt8.ofNat (87 + n)

/-- `%02x`. -/
def hex2 (b : UInt8) : List UInt8 := [hexChar (b.toNat / 16), hexChar (b.toNat % 16)]

/-- An IPv6 address as coLunacyDNS writes it, coLunacyDNS.c:1692-1703 and 1833-1840. -/
def ip6Show (b : List UInt8) : List UInt8 :=
  let w (i : Nat) := hex2 (b.getD (2 * i) 0) ++ hex2 (b.getD (2 * i + 1) 0)
  w 0 ++ [45] ++ w 1 ++ [45] ++ w 2 ++ [45] ++ w 3 ++ [32] ++ w 4 ++ [45] ++ w 5 ++ [45] ++ w 6 ++ [45] ++ w 7

/-! ## Names -/

/-- The characters that are shown as they are, coLunacyDNS.c:957-960. -/
def safe (c : UInt8) : Bool :=
  (48 ≤ c && c ≤ 57) || (97 ≤ c && c ≤ 122) || (65 ≤ c && c ≤ 90) || c == 45 || c == 95

/-- The others, coLunacyDNS.c:965-980. -/
def escape (c : UInt8) : List UInt8 := [123] ++ hex2 c ++ [125]

/-- The loop of `humanDNSname`, coLunacyDNS.c:953-1000.  `l` characters of the label are left, `i` is the place
behind `base`.  The result `none` is -1. -/
def humanLoop (buf : List UInt8) (base max : Nat) (l i : Nat) (out : List UInt8) : Res (Option (Nat × List UInt8)) :=
  if l = 0 then
    if max ≤ out.length then .ok none else .ok (some (i, out))
  else if max ≤ i ∨ max ≤ out.length then .ok none
  else match buf[base + i + 1]? with
    | none => .ub
    | some see =>
      if !safe see ∧ max ≤ out.length + 5 then .ok none
      else
        let out := out ++ (if safe see then [see] else escape see)
        if l = 1 then
          match buf[base + i + 2]? with
          | none => .ub
          | some n =>
            if 64 ≤ n then
              if max ≤ out.length + 1 then .ok none else .ok (some (i + 3, out ++ [42]))
            else if max ≤ out.length then .ok none
            else humanLoop buf base max n.toNat (i + 2) (out ++ [46])
        else humanLoop buf base max (l - 1) (i + 1) out
termination_by max - i

/-- `humanDNSname(in, out, max)`, coLunacyDNS.c:936-1001, with `in` at the place `base` of a block of memory. -/
def human (buf : List UInt8) (base max : Nat) : Res (Option (Nat × List UInt8)) :=
  match buf[base]? with
  | none => .ub
  | some n =>
    if 64 ≤ n then
      if max ≤ 1 then .ok none else .ok (some (1, [42]))
    else humanLoop buf base max n.toNat 0 []

/-- Memory is written to. -/
def poke (buf : List UInt8) (i : Nat) (v : UInt8) : Res (List UInt8) := if i < buf.length then .ok (buf.set i v) else .ub

/-- The letter with the other case if the bit is 1, coLunacyDNS.c:1466-1470.  (A random bit is made for letters
only.) -/
def recase (bit : Bool) (c : UInt8) : UInt8 :=
  if 97 ≤ c ∧ c ≤ 122 then (if bit then c - 32 else c)
  else if 65 ≤ c ∧ c ≤ 90 then (if bit then c + 32 else c)
  else c

/-- A letter. -/
def isLetter (c : UInt8) : Bool := (97 ≤ c && c ≤ 122) || (65 ≤ c && c ≤ 90)

/-- The inner loop of `human2DNS`, coLunacyDNS.c:1462-1486: text, place, length of the label, memory, random
bits used.  The result `none` is a null pointer. -/
def labelLoop (rnd : Nat → Bool) (a : Nat) : List UInt8 → Nat → Nat → List UInt8 → Nat →
    Res (Option (List UInt8 × Nat × Nat × List UInt8 × Nat))
  | [], p, len, buf, k => .ok (some ([], p, len, buf, k))
  | c :: z, p, len, buf, k =>
    if p < a ∧ c ≠ 46 ∧ len < 64 then do
      let buf ← poke buf p (recase (rnd k) c)
      if 64 ≤ len + 1 ∨ z = [] ∨ a ≤ p + 1 then .ok none
      else labelLoop rnd a z (p + 1) (len + 1) buf (if isLetter c then k + 1 else k)
    else .ok (some (c :: z, p, len, buf, k))

/-- The outer loop, coLunacyDNS.c:1460-1505: the text, the place of the next length, the place behind it. -/
def nameLoop (rnd : Nat → Bool) (a : Nat) : Nat → List UInt8 → Nat → Nat → List UInt8 → Nat → Res (Option (List UInt8 × Nat))
  | 0, _, _, _, _, _ => .ub
  | fuel + 1, z, label, p, buf, k => do
    let some (z, p, len, buf, k) ← labelLoop rnd a z p 0 buf k | .ok none
    let buf ← poke buf label (UInt8.ofNat len)
    match z with
    | 46 :: z =>
      if z = [] then do
        let buf ← poke buf p 0
        .ok (some (buf.take (p + 1), k))
      else if len = 0 then .ok (some (buf.take (p + 1), k))
      else nameLoop rnd a fuel z p (p + 1) buf k
    | _ => .ok none

/-- `human2DNS`, coLunacyDNS.c:1442-1508: the bytes up to the length it returns, and the random bits used.  `junk` is
what fresh memory holds. -/
def human2DNS (rnd : Nat → Bool) (junk z : List UInt8) : Res (Option (List UInt8 × Nat)) := do
  let a := min z.length 256 + 1
  let buf ← poke ((junk ++ List.replicate (a + 2) 0).take (a + 2)) a 0
  nameLoop rnd a (z.length + 1) z 0 1 buf 0

end Co
