/-!
# Specification vocabulary: DNS names

Independent of the model.  A name is a list of labels (byte strings).
-/

namespace Spec

/-- Legal labels: 1 to 63 bytes. -/
def LabelsOk (ls : List (List UInt8)) : Prop := ∀ l ∈ ls, 1 ≤ l.length ∧ l.length ≤ 63

/-- Labels in wire form (each preceded by its length), without the final root label. -/
def encLabels (ls : List (List UInt8)) : List UInt8 :=
  ls.flatMap (fun l => UInt8.ofNat l.length :: l)

/-- Wire form of a name, RFC 1035 3.1. -/
def encName (ls : List (List UInt8)) : List UInt8 := encLabels ls ++ [0]

/-- Text form: every label followed by a dot. -/
def dotted (ls : List (List UInt8)) : List UInt8 := ls.flatMap (fun l => l ++ [46])

/-- Lower-case one ASCII byte. -/
def lower (c : UInt8) : UInt8 := if 65 ≤ c.toNat ∧ c.toNat ≤ 90 then UInt8.ofNat (c.toNat + 32) else c

theorem encLabels_cons (l : List UInt8) (ls : List (List UInt8)) :
    encLabels (l :: ls) = UInt8.ofNat l.length :: l ++ encLabels ls := rfl

theorem encLabels_append (a b : List (List UInt8)) :
    encLabels (a ++ b) = encLabels a ++ encLabels b := by
  simp [encLabels]

theorem encName_cons (l : List UInt8) (ls : List (List UInt8)) :
    encName (l :: ls) = UInt8.ofNat l.length :: l ++ encName ls := by
  simp [encName, encLabels_cons]

theorem dotted_cons (l : List UInt8) (ls : List (List UInt8)) :
    dotted (l :: ls) = l ++ 46 :: dotted ls := by
  simp [dotted]

theorem LabelsOk.tail {l : List UInt8} {ls : List (List UInt8)} (h : LabelsOk (l :: ls)) : LabelsOk ls :=
  fun x hx => h x (by simp [hx])

theorem LabelsOk.head {l : List UInt8} {ls : List (List UInt8)} (h : LabelsOk (l :: ls)) :
    1 ≤ l.length ∧ l.length ≤ 63 := h l (by simp)

end Spec
