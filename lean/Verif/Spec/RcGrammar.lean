/-!
# The grammar of `dwood3rc` lines

Written from the documentation (`deadwood-github/doc/Deadwood` and `doc/internals/MARARC.parser`);
does not use the model of the parser.
-/

namespace Spec
namespace Rc

def lower (c : UInt8) : Prop := 97 ≤ c.toNat ∧ c.toNat ≤ 122
def upper (c : UInt8) : Prop := 65 ≤ c.toNat ∧ c.toNat ≤ 90
def digit (c : UInt8) : Prop := 48 ≤ c.toNat ∧ c.toNat ≤ 57
def letter (c : UInt8) : Prop := lower c ∨ upper c
def alnum (c : UInt8) : Prop := lower c ∨ upper c ∨ digit c
def blank (c : UInt8) : Prop := c = 32 ∨ c = 9
/-- Printable ASCII, tab, and bytes above 127. -/
def any (c : UInt8) : Prop := (32 ≤ c.toNat ∧ c.toNat ≤ 126) ∨ c = 9 ∨ 127 < c.toNat
/-- What a quoted string is made of: printable ASCII without `#` and `"`. -/
def inString (c : UInt8) : Prop := 32 ≤ c.toNat ∧ c.toNat ≤ 126 ∧ c ≠ 35 ∧ c ≠ 34

def All (P : UInt8 → Prop) (l : List UInt8) : Prop := ∀ c ∈ l, P c

/-- End of a line: blanks, perhaps a comment, and the line's end. -/
def End (l : List UInt8) : Prop :=
  ∃ w c e, All blank w ∧ (c = [] ∨ ∃ t, c = 35 :: t ∧ All any t) ∧ (e = [10] ∨ e = [13, 10]) ∧
    l = w ++ (c ++ e)

/-- A name of a parameter: a letter, then letters, digits and `_`. -/
def Name (l : List UInt8) : Prop := ∃ c t, l = c :: t ∧ letter c ∧ All (fun c => alnum c ∨ c = 95) t

/-- A key: `.`, or letters, digits, `-`, `_` and, except at the start, `.`. -/
def Key (l : List UInt8) : Prop :=
  l = [46] ∨ ∃ c t, l = c :: t ∧ (alnum c ∨ c = 45 ∨ c = 95) ∧
    All (fun c => alnum c ∨ c = 45 ∨ c = 46 ∨ c = 95) t

/-- The right hand side of an assignment. -/
inductive Value where
  | num (digits : List UInt8)
  | str (text : List UInt8)
  | empty
deriving DecidableEq, Repr

/-- How it is written. -/
def Value.Text : Value → List UInt8 → Prop
  | .num d, l => l = d ∧ d ≠ [] ∧ All digit d
  | .str s, l => l = 34 :: (s ++ [34]) ∧ s ≠ [] ∧ All inString s
  | .empty, l => l = [123, 125]

/-- A line's meaning. -/
inductive Stmt where
  | blank
  /-- `name = value` or `name += value` -/
  | set (name : List UInt8) (plus : Bool) (v : Value)
  /-- `name["key"] = "value"` or `+=` -/
  | entry (name key : List UInt8) (plus : Bool) (value : List UInt8)
  /-- `name("file")` -/
  | call (name file : List UInt8)
deriving DecidableEq, Repr

def eq (plus : Bool) : List UInt8 := if plus then [43, 61] else [61]

/-- How a line is written. -/
def Stmt.Text : Stmt → List UInt8 → Prop
  | .blank, l =>
    End l ∨
    -- a comment over several lines, `_rem={...}`
    ∃ w t e, All Rc.blank w ∧ All (fun c => c ≠ 125 ∧ (any c ∨ c = 10 ∨ c = 13)) t ∧ End e ∧
      l = w ++ ([95, 114, 101, 109, 61, 123] ++ (t ++ (125 :: e)))
  | .set name plus v, l =>
    ∃ w w1 w2 vt e, All Rc.blank w ∧ Name name ∧ All Rc.blank w1 ∧ All Rc.blank w2 ∧ v.Text vt ∧ End e ∧
      l = w ++ (name ++ (w1 ++ (eq plus ++ (w2 ++ (vt ++ e)))))
  | .entry name key plus value, l =>
    ∃ w w1 w2 w3 w4 w5 e, All Rc.blank w ∧ Name name ∧ All Rc.blank w1 ∧ All Rc.blank w2 ∧ Key key ∧
      All Rc.blank w3 ∧ All Rc.blank w4 ∧ All Rc.blank w5 ∧ value ≠ [] ∧ All inString value ∧ End e ∧
      l = w ++ (name ++ (w1 ++ (91 :: (w2 ++ (34 :: (key ++ (34 :: (w3 ++ (93 :: (w4 ++
        (eq plus ++ (w5 ++ (34 :: (value ++ (34 :: e)))))))))))))))
  | .call name file, l =>
    ∃ w e, All Rc.blank w ∧ Name name ∧ All inString file ∧ End e ∧
      l = w ++ (name ++ (40 :: 34 :: (file ++ (34 :: 41 :: e))))

end Rc
end Spec
