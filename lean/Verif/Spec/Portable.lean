import Verif.Spec.Host
/-!
# Specification: records that another program can read
-/

namespace Spec

/-- A record that makes no trouble for a resolver: no name of more than 99 labels, a time to live of at most 31 bits, and
the whole of an IPv6 address. -/
structure Given.Portable (g : Given) : Prop where
  name : g.name.length < 100
  names : ∀ r : Rec, r.Sound → r.type = g.type → r.rdata = g.data → ∀ x ∈ r.names, x.length < 100
  ttl : g.ttl < 2147483648
  aaaa : g.type = 28 → 16 ≤ g.data.length

/-- A name a resolver can ask for and compare. -/
structure Askable (n : Name) (t : Nat) : Prop where
  name : NameOk n
  printable : ∀ l ∈ n, ∀ x ∈ l, 32 ≤ x.toNat
  cost : (n.map fun l => l.length + 2).sum < 260
  type : t < 65392 ∨ 65407 < t ∧ t < 65536

end Spec
