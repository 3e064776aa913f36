import Verif.Mara.JsList
/-!
# Access lists of MaraDNS

Source: `/repo/parse/ParseIpAcl.c`, `/repo/server/MaraDNS.c` and `/repo/tcp/zoneserver.c`.
Strings are lists of bytes (see `JsList`).  A JS_ERROR is `Res.err`; all callers then stop the
program.  The shift `x << 24` of an `int` into its sign bit is taken to give the bits one
expects.
-/

namespace Mara
namespace Acl
open Dw (Res)
open L

def dotq : List UInt8 := [46]
def slashq : List UInt8 := [47]
/-- `js_numbers` and a dot, ParseIpAcl.c:110-125. -/
def numdotq : List UInt8 := [48, 49, 50, 51, 52, 53, 54, 55, 56, 57, 46]

/-- `masks`, ParseIpAcl.c:51-84. -/
def masks : List UInt32 := [
  0x00000000, 0x80000000, 0xc0000000, 0xe0000000, 0xf0000000, 0xf8000000, 0xfc000000, 0xfe000000,
  0xff000000, 0xff800000, 0xffc00000, 0xffe00000, 0xfff00000, 0xfff80000, 0xfffc0000, 0xfffe0000,
  0xffff0000, 0xffff8000, 0xffffc000, 0xffffe000, 0xfffff000, 0xfffff800, 0xfffffc00, 0xfffffe00,
  0xffffff00, 0xffffff80, 0xffffffc0, 0xffffffe0, 0xfffffff0, 0xfffffff8, 0xfffffffc, 0xfffffffe,
  0xffffffff]

/-- The two loops over the numbers of an address, ParseIpAcl.c:160-184 and 216-238: `n` numbers
are left.  A dot that is not found (-2) leaves the offset at -1, which the test for -2 does not
see. -/
def quad (l : List UInt8) : (n : Nat) → (offset : Int) → (acc : UInt32) → Res UInt32
  | 0, _, acc => .ok acc
  | n + 1, offset, acc =>
    if offset = -2 then .err
    else do
      let qr ← atoi l offset
      if qr > 255 then .err
      else
        let acc := acc ||| (UInt32.ofNat qr <<< UInt32.ofNat (8 * n))
        let offset : Int := match find true dotq l (offset + 1).toNat with
          | none => -1
          | some i => i + 1
        quad l n offset acc

/-- `ddip_ip_mask`, ParseIpAcl.c:43-244, at offset 0 (as in the only call).  The number returned
on success is not used by the caller. -/
def ddipIpMask (l : List UInt8) : Res (UInt32 × UInt32) :=
  let ret := find false numdotq l 0
  if ret = some 0 then .err
  else if l.length < 1 then .err
  else do
    let ip ← quad l 4 0 0
    match find true slashq l 0 with
    | none => .ok (ip, 0xffffffff)
    | some slashp =>
      if ret ≠ some slashp then .ok (ip, 0xffffffff)
      else
        let dot := find true dotq l (slashp + 1)
        let non := find false numdotq l (slashp + 1)
        let short := match dot, non with
          | none, _ => true
          | some d, some n => decide (n < d)
          | some _, none => false
        if short then do
          let n ← atoi l (slashp + 1 : Nat)
          match masks[n]? with
          | none => .err
          | some m => .ok (ip, m)
        else do
          let m ← quad l 4 (slashp + 1 : Nat) 0
          .ok (ip, m)

/-- Skip leading blanks, ParseIpAcl.c:305-307 (`tab = false`) and 330-333. -/
def skipLead (tab : Bool) (l : List UInt8) : (n start : Nat) → Nat
  | 0, start => start
  | n + 1, start =>
    if l[start]? = some 32 ∨ (tab ∧ l[start]? = some 9) then skipLead tab l n (start + 1) else start

/-- Cut trailing blanks, ParseIpAcl.c:309-318 (`comma = false`) and 335-345.  The byte compared
with a tab is the first one. -/
def cutTail (comma : Bool) (l : List UInt8) (start : Nat) : (nx : Nat) → Nat
  | 0 => 0
  | nx + 1 =>
    if start < nx + 1 ∧ (l[nx + 1]? = some 32 ∨ l[start]? = some 9 ∨ (comma ∧ l[nx + 1]? = some 44)) then
      cutTail comma l start nx
    else nx + 1

/-- The next entry of the list, ParseIpAcl.c:290-352: its text and the place of the comma. -/
def nextItem (l : List UInt8) (start : Nat) : Res (List UInt8 × Option Nat) :=
  match find true [44] l start with
  | none =>
    let nx := l.length - 1
    let start := skipLead false l (nx - start) start
    match substr l start (cutTail false l start nx + 1 - start) 256 with
    | none => .err
    | some s => .ok (s, none)
  | some next =>
    let start := skipLead true l (next - start) start
    match substr l start (cutTail true l start next + 1 - start) 256 with
    | none => .err
    | some s => .ok (s, some next)

/-- An `ipv4pair`: address and mask. -/
abbrev Pair := UInt32 × UInt32

/-- The end of the array, ParseIpAcl.c:369-370. -/
def firstFree (max : Nat) (out : List Pair) : (n index : Nat) → Nat
  | 0, index => index
  | n + 1, index =>
    if index < max ∧ (out[index]?).map (·.1) ≠ some 0xffffffff then firstFree max out n (index + 1) else index

/-- The loop over a list, ParseIpAcl.c:290-383; `sub` is the recursive call for a list with a
name, `names` the dictionary `ipv4_alias`; `n` bounds the number of entries. -/
def loop (names : List UInt8 → Option (List UInt8)) (sub : List UInt8 → List Pair → Res (List Pair)) (max : Nat)
    (l : List UInt8) : (n start index : Nat) → (out : List Pair) → Res (List Pair)
  | 0, _, _, _ => .err
  | n + 1, start, index, out => do
    let (t, next) ← nextItem l start
    let (index, out) ← (match names t with
      | some u => do
        let out ← sub u out
        .ok (index, out)
      | none =>
        let index := firstFree max out max index
        if index ≥ max then .err
        else do
          let p ← ddipIpMask t
          .ok (index, out.set index p))
    match next with
    | none => .ok out
    | some k => loop names sub max l n (k + 1) index out

/-- `make_ip_acl`, ParseIpAcl.c:263-389; the depth 0 call is `makeAcl 33` (a depth over 32 is an
error). -/
def makeAcl (names : List UInt8 → Option (List UInt8)) (max : Nat) : (depth : Nat) → List UInt8 → List Pair → Res (List Pair)
  | 0, _, _ => .err
  | d + 1, l, out => loop names (makeAcl names max d) max l (l.length + 1) 0 0 out

/-- The empty list as the callers set it up (MaraDNS.c:4126-4130 and the like): 512 places with
the address 255.255.255.255. -/
def blank : List Pair := List.replicate 512 (0xffffffff, 0)

/-- `check_ipv4_acl`, MaraDNS.c:2392-2404; `n` is `500 - counter`. -/
def checkFrom (ip : UInt32) : (n : Nat) → List Pair → Bool
  | 0, _ => false
  | _, [] => false
  | n + 1, p :: ps =>
    if p.1 = 0xffffffff then false
    else if ip &&& p.2 = p.1 &&& p.2 then true
    else checkFrom ip n ps

def check (ip : UInt32) (list : List Pair) : Bool := checkFrom ip 500 list

/-- One of the three loops of `gettcp`, zoneserver.c:340-364: `add` is applied for every entry
that matches. -/
def permLoop (ip : UInt32) (add : Nat → Nat) : (n : Nat) → List Pair → Nat → Nat
  | 0, _, perm => perm
  | _, [], perm => perm
  | n + 1, p :: ps, perm =>
    if p.1 = 0xffffffff then perm
    else permLoop ip add n ps (if ip &&& p.2 = p.1 &&& p.2 then add perm else perm)

/-- `gettcp`, zoneserver.c:323-388, for an accepted connection: the rights of the client, none
when the connection is closed.  `max` is 500. -/
def gettcp (ip : UInt32) (acl1 acl2 acl3 : List Pair) : Option Nat :=
  let perm := permLoop ip (fun _ => 1) 500 acl1 0
  let perm := permLoop ip (· + 2) 500 acl2 perm
  let perm := permLoop ip (· + 4) 500 acl3 perm
  if perm &&& 3 = 0 then none else some perm

end Acl
end Mara
