import Verif.Spec.Unpacked
/-!
# Specification: where the pointers of a message lead to

Names may be compressed with pointers to the names in the question and to places behind the question (RFC 1035 4.1.4),
but not to the header.
-/

namespace Spec

/-- Reading a name of a record in `n` steps (labels and pointers), where `qn` is the name in the question.  A pointer
leads to the end of the name in the question (`b` is what is there), or to a place behind the question. -/
inductive NameFrom (m : Mem) (qn : List (List UInt8)) : Nat → Nat → List (List UInt8) → Prop
  | root {i} : m i = some 0 → NameFrom m qn 0 i []
  | label {n i l ls} : LabelAt m i l → NameFrom m qn n (i + (l.length + 1)) ls → NameFrom m qn (n + 1) i (l :: ls)
  | asked {i x y a b} : m i = some x → 192 ≤ x → m (i + 1) = some y →
      x.toNat % 64 * 256 + y.toNat = 12 + (encLabels a).length → qn = a ++ b → NameFrom m qn (b.length + 1) i b
  | behind {n i x y ls} : m i = some x → 192 ≤ x → m (i + 1) = some y →
      16 + (encName qn).length ≤ x.toNat % 64 * 256 + y.toNat →
      NameFrom m qn n (x.toNat % 64 * 256 + y.toNat) ls → NameFrom m qn (n + 1) i ls

/-- In the message `p` with the bytes `c`, every name of a record can be read in at most two steps for each of its labels. -/
def Msg.Clear (p : Msg) (c : List UInt8) : Prop :=
  RecsVia (fun i ls => ∃ n, n ≤ 2 * ls.length ∧ NameFrom (memOf c) p.qname n i ls) (memOf c)
    (p.header ++ p.question).length p.all c.length

end Spec
