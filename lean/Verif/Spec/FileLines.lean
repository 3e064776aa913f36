import Mathlib.Data.List.Basic

/-!
# The lines of a file

Nothing here refers to the functions that read files.
-/

namespace Spec.FileLines

/-- Line feed and carriage return end lines. -/
def ends (c : UInt8) : Prop := c = 10 ∨ c = 13

/-- A text of one line, without its end. -/
def OneLine (t : List UInt8) : Prop := ∀ c ∈ t, ¬ ends c

/-- A line with its end. -/
def Whole (l : List UInt8) : Prop := ∃ t c, l = t ++ [c] ∧ OneLine t ∧ ends c

/-- What is got from a text at the end of a file that has no line end.  MaraDNS reads files in
blocks of 1024 bytes and takes what stands before and after the start of a block for two
lines. -/
def tail (before : Nat) (t : List UInt8) : List (List UInt8) :=
  if t = [] then []
  else if t.length ≤ 1024 - before % 1024 then [t]
  else [t.take (1024 - before % 1024), t.drop (1024 - before % 1024)]

end Spec.FileLines
