import Verif.Deadwood.Str2Model
import Verif.Spec.Net
/-!
# Access lists

Source: `/repo/deadwood-github/src/DwSys.c` and `DwSocket.c` (with IPv6 enabled, that
is without `NOIP6`).  `inet_pton` is the operating system's and is a parameter
(`Spec.AddrText`).
-/

namespace Dw
namespace Acl
open DwStr Spec

/-- Write a byte into a C array; outside of it is undefined. -/
def wr (a : List UInt8) (i : Nat) (b : UInt8) : Res (List UInt8) :=
  if i < a.length then .ok (a.set i b) else .ub

/-- Read a byte of a C array. -/
def rd (a : List UInt8) (i : Nat) : Res UInt8 :=
  match a[i]? with
  | some b => .ok b
  | none => .ub

/-- Write the same byte `n` times from place `i` on (the `while` loops of
`make_netmask`). -/
def fill (b : UInt8) : (n i : Nat) → List UInt8 → Res (List UInt8)
  | 0, _, a => .ok a
  | n + 1, i, a => do
    let a ← wr a i b
    fill b n (i + 1) a

/-- `make_netmask`, DwSys.c:954-992.  `str` is the array that receives the mask. -/
def makeNetmask (num : Int) (str : List UInt8) (len : Nat) : Res (List UInt8) :=
  if len < 1 ∨ len > 64 then .ok str
  else
    let div := num / 8
    let rem := (num % 8).toNat
    if div < 0 ∨ div > len then .ok str
    else
      let d := div.toNat
      let last : UInt8 := UInt8.ofNat (255 * 2 ^ (8 - rem))
      do
        let str ← fill 255 d 0 str
        if len - d > 0 then do
          let str ← wr str d last
          fill 0 (len - d - 1) (d + 1) str
        else .ok str

/-- `ip_mask_T`, DwSocket.h:113-122. -/
structure IpMask where
  len : Nat
  ip : List UInt8
  mask : List UInt8
deriving DecidableEq, Repr

/-- The C string held by an array: what precedes the first zero byte. -/
def cstr (l : List UInt8) : List UInt8 := l.takeWhile (· != 0)

/-- `pop_last_item`, DwSys.c:924-948, and `dw_to_cstr`, DwStr.c:578-593: the item and
the shortened list.  `none` is the null pointer. -/
def popLastItem (list : DwStr) (junk : List UInt8) : Res (Option (List UInt8) × DwStr) :=
  match list.qspop junk with
  | .ub => .ub
  | .err => .ok (none, list)
  | .ok (a, list) =>
    match a.zapLws junk with
    | .ub => .ub
    | .err => .ok (none, list)
    | .ok b => .ok (if b.sane then some (cstr b.contents) else none, list)

/-- Copy an address into `ip->ip` (what `inet_pton` does on success). -/
def putAddr (t : List UInt8) (a : List UInt8) : Res (List UInt8) :=
  if a.length ≤ t.length then .ok (a ++ t.drop a.length) else .ub

/-- `pop_ip_core`, DwSocket.c:231-246. -/
def popIpCore (t : AddrText) (ip : IpMask) (c : List UInt8) : Res IpMask :=
  match t.v4 c with
  | some a => do
    let x ← putAddr ip.ip a
    .ok { ip with len := 4, ip := x }
  | none =>
    match t.v6 c with
    | some a => do
      let x ← putAddr ip.ip a
      .ok { ip with len := 16, ip := x }
    | none => .ok { ip with len := 0 }

def isSpace (b : UInt8) : Bool := b == 32 || (9 ≤ b && b ≤ 13)
def isDigit (b : UInt8) : Bool := 48 ≤ b && b ≤ 57

/-- The optional sign of a number. -/
def sign : List UInt8 → Bool × List UInt8
  | 45 :: r => (true, r)
  | 43 :: r => (false, r)
  | r => (false, r)

/-- C `atoi`: white space, an optional sign, decimal digits.  A value that does not
fit an `int` is undefined. -/
def catoi (s : List UInt8) : Res Int :=
  let s := s.dropWhile isSpace
  let v : Nat := decVal ((sign s).2.takeWhile isDigit)
  let v : Int := if (sign s).1 then -(v : Int) else v
  if -2147483648 ≤ v ∧ v ≤ 2147483647 then .ok v else .ub

/-- `pop_ip_mask`, DwSocket.c:340-379. -/
def popIpMask (t : AddrText) (list : DwStr) (m : IpMask) (junk : List UInt8) : Res (IpMask × DwStr) := do
  let (c, list) ← popLastItem list junk
  match c with
  | none => .ok (m, list)
  | some c =>
    if 47 ∈ c then do
      let m ← popIpCore t m (c.takeWhile (· != 47))
      let q := (c.dropWhile (· != 47)).drop 1
      if q = [] then .ok (m, list)
      else do
        let n ← catoi q
        if m.len ≠ 4 ∧ m.len ≠ 16 then .ok (m, list)
        else
          let n : Int := if n < 0 ∨ n > m.len * 8 then m.len * 8 else n
          let k ← makeNetmask n m.mask m.len
          .ok ({ m with mask := k }, list)
    else do
      let m ← popIpCore t m c
      let k ← makeNetmask (m.len * 8) m.mask m.len
      .ok ({ m with mask := k }, list)

/-- First loop of `set_ipmask_list`, DwSocket.c:407-427: the entries made, `n` turns at
most.  The second loop clears the rest, so an entry with length zero follows. -/
def setLoop (t : AddrText) (junk : List UInt8) : (n : Nat) → List IpMask → DwStr → Res (List IpMask)
  | 0, _, _ => .ok []
  | _ + 1, [], _ => .ub
  | n + 1, m :: rest, s => do
    let (m, s) ← popIpMask t s m junk
    if m.len = 0 then .ok []
    else do
      let r ← setLoop t junk n rest s
      .ok (m :: r)

/-- `recursive_acl` before the configuration is read (DwSocket.c:49, static
storage). -/
def blank : IpMask := ⟨0, List.replicate 17 0, List.replicate 17 0⟩

/-- `set_ipmask_list` on the blank list (DwSocket.c:841); the result is the part of
the list before its first unset entry. -/
def setIpmaskList (t : AddrText) (s : DwStr) (junk : List UInt8) : Res (List IpMask) :=
  setLoop t junk 127 (List.replicate 129 blank) s

/-- Inner loop of `check_ip_acl`, DwSocket.c:473-478: `true` if it runs to the end. -/
def maskLoop (m : IpMask) (ip : List UInt8) : (n b : Nat) → Res Bool
  | 0, _ => .ok true
  | n + 1, b => do
    let k ← rd m.mask b
    let x ← rd m.ip b
    let y ← rd ip b
    if x &&& k ≠ y &&& k then .ok false else maskLoop m ip n (b + 1)

/-- `check_ip_acl`, DwSocket.c:461-484; `acl` is the list up to its first unset
entry. -/
def checkIpAcl : (acl : List IpMask) → (iplen : Nat) → (ip : List UInt8) → Res Bool
  | [], _, _ => .ok false
  | m :: r, iplen, ip =>
    if m.len = 0 then .ok false
    else if iplen ≠ m.len then checkIpAcl r iplen ip
    else do
      let b ← maskLoop m ip iplen 0
      if b then .ok true else checkIpAcl r iplen ip

end Acl
end Dw
