/-!
# What the string operations of MaraDNS are for

A string is a list of bytes with a limit.  This file does not mention the C code or its model.
-/

namespace Spec

/-- A string with a limit on its length. -/
structure JStr where
  max : Nat
  bytes : List UInt8
deriving Repr, DecidableEq

namespace JStr

/-- Put `a` at the end of `t`; the limit may not be reached. -/
def append (a t : JStr) : Option JStr :=
  if a.bytes.length + t.bytes.length < t.max then some ⟨t.max, t.bytes ++ a.bytes⟩ else none

/-- Put `a` before byte `i` of `t`.  At the very end this is `append`; elsewhere the limit may
be reached. -/
def insert (a t : JStr) (i : Nat) : Option JStr :=
  if i = t.bytes.length then append a t
  else if i < t.bytes.length ∧ a.bytes.length + t.bytes.length ≤ t.max then
    some ⟨t.max, t.bytes.take i ++ a.bytes ++ t.bytes.drop i⟩
  else none

/-- The `n` bytes of `s` from `i` on, put into a string with the limit of `d`. -/
def substr (s d : JStr) (i n : Nat) : Option JStr :=
  if i < s.bytes.length ∧ i + n ≤ s.bytes.length ∧ n < d.max then
    some ⟨d.max, (s.bytes.drop i).take n⟩
  else none

/-- A copy of `s` with the limit of `d`. -/
def copy (s d : JStr) : Option JStr :=
  if s.bytes.length < d.max then some ⟨d.max, s.bytes⟩ else none

/-- Add bytes at the end. -/
def add (s : JStr) (l : List UInt8) : Option JStr :=
  if s.bytes.length + l.length < s.max then some ⟨s.max, s.bytes ++ l⟩ else none

/-- Change one byte. -/
def change (s : JStr) (i : Nat) (b : UInt8) : Option JStr :=
  if i < s.bytes.length then some ⟨s.max, s.bytes.set i b⟩ else none

/-- `e` occurs in `s` at `i`. -/
def OccursAt (e s : List UInt8) (i : Nat) : Prop := e <+: s.drop i

end JStr
end Spec
