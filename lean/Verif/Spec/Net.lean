/-!
# Networks

An address is a list of bytes (4 for IPv4, 16 for IPv6).  A network is an address
and a number of leading bits.
-/

namespace Spec

/-- The bits of a byte, most significant first. -/
def byteBits (b : UInt8) : List Bool := [7, 6, 5, 4, 3, 2, 1, 0].map fun i => b.toNat.testBit i

/-- The bits of an address, in the order in which they are written. -/
def bits (l : List UInt8) : List Bool := l.flatMap byteBits

structure Network where
  addr : List UInt8
  pre : Nat
deriving DecidableEq

/-- `ip` belongs to the network: same kind of address and same first `pre` bits. -/
def Network.Has (n : Network) (ip : List UInt8) : Prop :=
  ip.length = n.addr.length ∧ (bits ip).take n.pre = (bits n.addr).take n.pre

instance (n : Network) (ip : List UInt8) : Decidable (n.Has ip) := by
  unfold Network.Has; infer_instance

/-- The number written by decimal digits. -/
def decVal (ds : List UInt8) : Nat := ds.foldl (fun v d => v * 10 + (d.toNat - 48)) 0

def IsDec (ds : List UInt8) : Prop := ds ≠ [] ∧ ∀ d ∈ ds, 48 ≤ d ∧ d ≤ 57

/-- How addresses are written: a text reader for each family (the operating
system's `inet_pton`). -/
structure AddrText where
  v4 : List UInt8 → Option (List UInt8)
  v6 : List UInt8 → Option (List UInt8)

/-- The address written by a text. -/
def AddrText.read (t : AddrText) (s : List UInt8) : Option (List UInt8) :=
  match t.v4 s with
  | some a => some a
  | none => t.v6 s

/-- Characters of a written address: digits, letters `a` to `f`, dot and colon. -/
def AddrChar (c : UInt8) : Prop :=
  (48 ≤ c ∧ c ≤ 57) ∨ (97 ≤ c ∧ c ≤ 102) ∨ (65 ≤ c ∧ c ≤ 70) ∨ c = 46 ∨ c = 58

/-- The readers give 4 and 16 bytes, and take only texts of address characters. -/
structure AddrText.Ok (t : AddrText) : Prop where
  v4 : ∀ {s a}, t.v4 s = some a → a.length = 4
  v6 : ∀ {s a}, t.v6 s = some a → a.length = 16
  chars : ∀ {s a}, t.read s = some a → s ≠ [] ∧ ∀ c ∈ s, AddrChar c

/-- Entries of an access list as the documentation describes them: an address, or an
address, a slash and a number of bits. -/
inductive AclItem (t : AddrText) : List UInt8 → Network → Prop
  | host {s a} : t.read s = some a → AclItem t s ⟨a, 8 * a.length⟩
  | net {s a ds} : t.read s = some a → IsDec ds → decVal ds ≤ 8 * a.length →
      AclItem t (s ++ 47 :: ds) ⟨a, decVal ds⟩

end Spec
