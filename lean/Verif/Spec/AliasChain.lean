import Verif.Spec.Believe
/-!
# Specification: the answer for a name that is an alias

The aliases from the name asked for to the name at the end, as records, followed by the records of that name.
-/

namespace Spec

/-- The record saying that `a` is an alias for `b`. -/
def aliasRec (ttl : Nat) (a b : List (List UInt8)) : Rec := ⟨a, 5, [0, 1], ttl, [], [b], []⟩

/-- The records leading from `a` over each of the names to the last. -/
def links (ttl : Nat) : (a : List (List UInt8)) → List (List (List UInt8)) → List Rec
  | _, [] => []
  | a, b :: bs => aliasRec ttl a b :: links ttl b bs

/-- A name of legal length without control characters. -/
def Readable (n : List (List UInt8)) : Prop := NameOk n ∧ ∀ l ∈ n, ∀ x ∈ l, 32 ≤ x.toNat

/-- The answer: records and nothing else. -/
def onlyAnswers (rs : List Rec) : Answers := ⟨rs, [], [], 0⟩

/-- How many bytes the answer takes where it is kept. -/
def keptSize (rs : List Rec) : Nat := sizes (rs.map Rec.toRR) + 4 * rs.length + 7

end Spec
