import Verif.Spec.Wire
/-!
# Specification: names with compression pointers

A message is read as: a 12-byte header, the question (`q`, name and type), the
two bytes of the question's class, and the rest (`p`).  RFC 1035 4.1.4: a name is
a sequence of labels ended by the root label or by a pointer to another name.
-/

namespace Spec

/-- Known bytes of a string. -/
abbrev Mem := Nat → Option UInt8

/-- All bytes of a string are known. -/
def memOf (l : List UInt8) : Mem := fun i => l[i]?

/-- The label `l`, preceded by its length, is at place `i`. -/
structure LabelAt (m : Mem) (i : Nat) (l : List UInt8) : Prop where
  pos : 1 ≤ l.length
  le : l.length ≤ 63
  len : m i = some (UInt8.ofNat l.length)
  bytes : ∀ j (h : j < l.length), m (i + 1 + j) = some l[j]

/-- Question or rest. -/
def sel (p q : Mem) (inQ : Bool) : Mem := if inQ then q else p

/-- What the pointer value `v` (an offset from the start of the message) refers
to: a place in the question (`true`) or in the rest (`false`).  A pointer into
the header is taken for a place in the first ten bytes of the rest (no RFC would
allow it); a pointer to the class or outside the message refers to nothing. -/
def ptrTarget (plen qlen v : Nat) : Option (Bool × Nat) :=
  if v < 12 + qlen ∧ 0 < qlen then
    if 12 ≤ v then some (true, v - 12) else if v = 11 then none else some (false, 10 - v)
  else if 14 + qlen ≤ v ∧ v - (14 + qlen) ≤ plen then some (false, v - (14 + qlen)) else none

/-- Reading a name from a place: after `n` steps (labels and pointers) the labels
`ls` were seen and the reader is at another place. -/
inductive Walk (p q : Mem) (plen qlen : Nat) :
    (n : Nat) → Bool → Nat → List (List UInt8) → Bool → Nat → Prop
  | here {b i} : Walk p q plen qlen 0 b i [] b i
  | label {n b i l ls b' i'} : LabelAt (sel p q b) i l →
      Walk p q plen qlen n b (i + (l.length + 1)) ls b' i' →
      Walk p q plen qlen (n + 1) b i (l :: ls) b' i'
  | pointer {n i x y b₁ i₁ ls b' i'} : p i = some x → 192 ≤ x → p (i + 1) = some y →
      ptrTarget plen qlen (x.toNat % 64 * 256 + y.toNat) = some (b₁, i₁) →
      Walk p q plen qlen n b₁ i₁ ls b' i' →
      Walk p q plen qlen (n + 1) false i ls b' i'

/-- The name at a place is `ls`; it takes `n` steps to read. -/
def NameAt (p q : Mem) (plen qlen n : Nat) (b : Bool) (i : Nat) (ls : List (List UInt8)) : Prop :=
  ∃ b' i', Walk p q plen qlen n b i ls b' i' ∧ sel p q b' i' = some 0

/-- The bytes of the name at `i` (without what pointers refer to) end at `e`. -/
inductive EndsAt (p : Mem) : Nat → Nat → Prop
  | root {i} : p i = some 0 → EndsAt p i (i + 1)
  | pointer {i x} : p i = some x → 192 ≤ x → EndsAt p i (i + 2)
  | label {i l e} : LabelAt p i l → EndsAt p (i + (l.length + 1)) e → EndsAt p i e

/-- Appending pieces to a string of bounded size, leaving out the ones that do
not fit. -/
def squeeze (cap : Nat) (acc : List UInt8) (pieces : List (List UInt8)) : List UInt8 :=
  pieces.foldl (fun a p => if a.length + p.length < cap then a ++ p else a) acc

/-- The pieces of a name: its labels with their lengths and the root label. -/
def pieces (ls : List (List UInt8)) : List (List UInt8) :=
  ls.map (fun l => UInt8.ofNat l.length :: l) ++ [[0]]

theorem pieces_flatten (ls : List (List UInt8)) : (pieces ls).flatten = encName ls := by
  simp [pieces, encName, encLabels, List.flatMap]

theorem squeeze_fits (cap : Nat) : ∀ (ps : List (List UInt8)) (acc : List UInt8),
    acc.length + ps.flatten.length < cap → squeeze cap acc ps = acc ++ ps.flatten := by
  intro ps
  induction ps with
  | nil => intro acc _; simp [squeeze]
  | cons p ps ih =>
    intro acc h
    simp only [List.flatten_cons, List.length_append] at h
    have := ih (acc ++ p) (by rw [List.length_append]; omega)
    rw [squeeze, List.foldl_cons, if_pos (by omega)]
    rw [squeeze] at this
    rw [this]; simp

end Spec
