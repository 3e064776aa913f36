import Mathlib.Data.List.Basic

/-!
# What a configuration file of MaraDNS says

The statements the manual page `mararc` describes, how they are written, and what a file made
of them means.  Nothing here refers to the parser.
-/

namespace Spec.MaraRc

/-- A byte of the name of a variable. -/
def wordByte (c : UInt8) : Bool :=
  (97 ≤ c && c ≤ 122) || (65 ≤ c && c ≤ 90) || (48 ≤ c && c ≤ 57) || c = 95

/-- A byte of a number. -/
def numByte (c : UInt8) : Bool := 48 ≤ c && c ≤ 57

/-- Space and tab. -/
def padByte (c : UInt8) : Bool := c = 32 || c = 9

/-- A byte of a quoted value or of a comment: no quote, no line end, and none of `+`, `[` and
the backslash, which MaraDNS does not take even there. -/
def textByte (c : UInt8) : Bool :=
  c ≠ 34 && c ≠ 43 && c ≠ 91 && c ≠ 92 && c ≠ 10 && c ≠ 13

/-- A byte of a key. -/
def keyByte (c : UInt8) : Bool := textByte c && c ≠ 93 && c ≠ 61

/-- A statement of a configuration file. -/
inductive Stmt
  /-- An empty line or a comment. -/
  | note
  /-- `name = "value"`, or with `+=`. -/
  | text (name value : List UInt8) (add : Bool)
  /-- `name = 123`, or with `+=`. -/
  | number (name value : List UInt8) (add : Bool)
  /-- `name = {}`. -/
  | dict (name : List UInt8)
  /-- `name["key"] = "value"`, or with `+=`. -/
  | entry (name key value : List UInt8) (add : Bool)
  deriving DecidableEq

/-- How a statement is laid out: the blanks before the name, before the equals sign, after it
and after the value, and the comment at the end of the line. -/
structure Layout where
  p1 : List UInt8
  p2 : List UInt8
  p3 : List UInt8
  p4 : List UInt8
  comment : Option (List UInt8)

def Layout.Ok (y : Layout) : Prop :=
  y.p1.all padByte = true ∧ y.p2.all padByte = true ∧ y.p3.all padByte = true ∧
  y.p4.all padByte = true ∧ ∀ c ∈ y.comment, c.all textByte = true

/-- The comment, as it is written. -/
def Layout.tail (y : Layout) : List UInt8 :=
  match y.comment with
  | none => [10]
  | some c => 35 :: c ++ [10]

def sign (add : Bool) : List UInt8 := if add then [43, 61] else [61]

/-- A statement as it is written; with its line end. -/
def Stmt.line (y : Layout) : Stmt → List UInt8
  | .note => y.p1 ++ y.tail
  | .text n v a => y.p1 ++ n ++ y.p2 ++ sign a ++ y.p3 ++ 34 :: v ++ 34 :: y.p4 ++ y.tail
  | .number n v a => y.p1 ++ n ++ y.p2 ++ sign a ++ y.p3 ++ v ++ y.p4 ++ y.tail
  | .dict n => y.p1 ++ n ++ y.p2 ++ [61] ++ y.p3 ++ [123, 125] ++ y.p4 ++ y.tail
  | .entry n k v a =>
    y.p1 ++ n ++ [91, 34] ++ k ++ [34, 93] ++ y.p2 ++ sign a ++ y.p3 ++ 34 :: v ++
      34 :: y.p4 ++ y.tail

def Stmt.Ok : Stmt → Prop
  | .note => True
  | .text n v _ => n ≠ [] ∧ n.all wordByte = true ∧ v.all textByte = true
  | .number n v _ => n ≠ [] ∧ n.all wordByte = true ∧ v ≠ [] ∧ v.all numByte = true
  | .dict n => n ≠ [] ∧ n.all wordByte = true
  | .entry n k v _ =>
    n ≠ [] ∧ n.all wordByte = true ∧ k.all keyByte = true ∧ v.all textByte = true

/-- The settings: the value of each variable, the empty text where it is not set; and for each
dictionary that has been declared its entries. -/
structure Settings where
  value : List UInt8 → List UInt8
  entries : List UInt8 → Option (List UInt8 → Option (List UInt8))

/-- Nothing is set. -/
def Settings.none : Settings := ⟨fun _ => [], fun _ => .none⟩

/-- What the program knows: the names of variables and of dictionaries, and the dictionaries
whose keys are domain names, for which the case of letters makes no difference. -/
structure Known where
  vars : List (List UInt8)
  dicts : List (List UInt8)
  domains : List (List UInt8)

/-- A letter in lower case. -/
def lower (c : UInt8) : UInt8 := if 65 ≤ c ∧ c ≤ 90 then c + 32 else c

/-- What is added to a value: the two texts in a row; but MaraDNS drops, without a word, what
would make the value longer than 255 bytes. -/
def added (old new : List UInt8) : List UInt8 :=
  if old.length + new.length ≤ 255 then old ++ new else old

/-- Something can be added only to what has been set, and is not a number. -/
def canAdd (old : List UInt8) : Bool := old ≠ [] && !old.all numByte

/-- What a statement does; `none`: the program refuses to start. -/
def Stmt.does (w : Known) (s : Settings) : Stmt → Option Settings
  | .note => some s
  | .text n v a | .number n v a =>
    if n ∉ w.vars then none
    else if a then
      if canAdd (s.value n) then
        some { s with value := Function.update s.value n (added (s.value n) v) }
      else none
    else some { s with value := Function.update s.value n v }
  | .dict n =>
    if n ∈ w.dicts ∧ s.entries n = .none then
      some { s with entries := Function.update s.entries n (some fun _ => .none) }
    else some s
  | .entry n k v a =>
    if n ∉ w.dicts then some s
    else
      let k := if n ∈ w.domains then k.map lower else k
      match s.entries n with
      | .none => none
      | some f =>
        match f k, a with
        | .none, false =>
          some { s with entries := (Function.update s.entries n
            (some (Function.update f k (some v)))) }
        | .none, true => none
        | some _, false => none
        | some old, true =>
          if old.all numByte ∧ old ≠ [] then none
          else some { s with entries := (Function.update s.entries n
            (some (Function.update f k (some (added old v))))) }

/-- What a file does. -/
def meaning (w : Known) : Settings → List Stmt → Option Settings
  | s, [] => some s
  | s, x :: xs =>
    match x.does w s with
    | .none => .none
    | some s => meaning w s xs

end Spec.MaraRc
