import Verif.Spec.Packet
/-!
# Specification: messages with the names written out

A message with or without a question, and what it means that some bytes are this message with compressed names.
-/

namespace Spec

/-- A message: header, question (name, type and class) and records. -/
structure Parcel where
  head : List UInt8
  question : Option (List (List UInt8) × List UInt8)
  recs : List Rec
deriving DecidableEq

namespace Parcel

/-- The message with all names written out. -/
def bytes (p : Parcel) : List UInt8 :=
  p.head ++ (match p.question with | none => [] | some (n, t) => encName n ++ t) ++ (p.recs.map Rec.toRR).flatMap RR.enc

/-- The number at place `i` of a header. -/
def count (l : List UInt8) (i : Nat) : Nat := (l.getD i 0).toNat * 256 + (l.getD (i + 1) 0).toNat

/-- The header has twelve bytes, and it counts questions and records. -/
structure Ok (p : Parcel) : Prop where
  head : p.head.length = 12
  question : count p.head 4 = if p.question.isSome then 1 else 0
  class_ : ∀ x, p.question = some x → x.2.length = 4
  recs : p.recs.length = count p.head 6 + count p.head 8 + count p.head 10
  data : ∀ r ∈ p.recs, r.Ok
  a : ∀ r ∈ p.recs, r.type = 1 → r.tail.length = 4
  txt : ∀ r ∈ p.recs, r.type = 16 → ∃ n rest, r.tail = n :: rest ∧ n.toNat ≤ rest.length

end Parcel

/-- Reading a name in `n` steps, without going to the header. -/
inductive NameBy (m : Mem) : Nat → Nat → List (List UInt8) → Prop
  | root {i} : m i = some 0 → NameBy m 1 i []
  | label {n i l ls} : LabelAt m i l → NameBy m n (i + (l.length + 1)) ls → NameBy m (n + 1) i (l :: ls)
  | pointer {n i x y ls} : m i = some x → 192 ≤ x → m (i + 1) = some y →
      x.toNat % 64 * 256 + y.toNat < i → 12 ≤ x.toNat % 64 * 256 + y.toNat →
      NameBy m n (x.toNat % 64 * 256 + y.toNat) ls → NameBy m (n + 1) i ls

/-- A name with at most 255 bytes that can be read in 255 steps without going to the header. -/
def Legible (m : Mem) (i : Nat) (ls : List (List UInt8)) : Prop :=
  (encName ls).length ≤ 255 ∧ ∃ n, n ≤ 255 ∧ NameBy m n i ls

/-- Names one after another, from `i` up to `e`; `N` says what is a name. -/
inductive NamesVia (N : Nat → List (List UInt8) → Prop) (m : Mem) : Nat → List (List (List UInt8)) → Nat → Prop
  | nil {i} : NamesVia N m i [] i
  | cons {i e k ls rest} : N i ls → EndsAt m i e → NamesVia N m e rest k → NamesVia N m i (ls :: rest) k

/-- The record `r` is at place `i`, its last byte is before place `e`. -/
structure RecVia (N : Nat → List (List UInt8) → Prop) (m : Mem) (i : Nat) (r : Rec) (e : Nat) : Prop where
  at_ : ∃ a k, N i r.name ∧ EndsAt m i a ∧
    BytesAt m a (be16 r.type ++ r.cls ++ be32 r.ttl ++ be16 (e - (a + 10))) ∧ e - (a + 10) < 65536 ∧
    a + 10 ≤ e ∧
    BytesAt m (a + 10) r.lead ∧ NamesVia N m (a + 10 + r.lead.length) r.names k ∧
    BytesAt m k r.tail ∧ e = k + r.tail.length

/-- Records one after another. -/
inductive RecsVia (N : Nat → List (List UInt8) → Prop) (m : Mem) : Nat → List Rec → Nat → Prop
  | nil {i} : RecsVia N m i [] i
  | cons {i e k r rs} : RecVia N m i r e → RecsVia N m e rs k → RecsVia N m i (r :: rs) k

/-- The bytes `c` begin with the message `p`; names are what `N` says. -/
structure Parcel.Via (N : Nat → List (List UInt8) → Prop) (p : Parcel) (c : List UInt8) : Prop where
  head : p.head <+: c
  body : ∃ a e, (match p.question with
    | none => a = 12
    | some (n, t) => ∃ k, N 12 n ∧ EndsAt (memOf c) 12 k ∧ BytesAt (memOf c) k t ∧ a = k + t.length) ∧
    RecsVia N (memOf c) a p.recs e ∧ e ≤ c.length

end Spec
