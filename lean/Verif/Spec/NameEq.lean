import Verif.Spec.Names
/-!
# Specification: equality of names and the place of a name in a message
-/

namespace Spec

/-- Names are equal if their labels are, ignoring the case of ASCII letters
(RFC 1035 2.3.3). -/
def SameName (a b : List (List UInt8)) : Prop := a.map (·.map lower) = b.map (·.map lower)

instance (a b : List (List UInt8)) : Decidable (SameName a b) :=
  inferInstanceAs (Decidable (_ = _))

/-- `a` is `b` or a name below `b`. -/
def Below (a b : List (List UInt8)) : Prop := b.map (·.map lower) <:+ a.map (·.map lower)

/-- A name without pointers. -/
inductive PlainAt (m : Mem) : Nat → List (List UInt8) → Prop
  | root {i} : m i = some 0 → PlainAt m i []
  | label {i l ls} : LabelAt m i l → PlainAt m (i + (l.length + 1)) ls → PlainAt m i (l :: ls)

/-- A name none of whose pointers leads directly to another pointer. -/
inductive OneHop (p q : Mem) (plen qlen : Nat) : Bool → Nat → List (List UInt8) → Prop
  | root {b i} : sel p q b i = some 0 → OneHop p q plen qlen b i []
  | label {b i l ls} : LabelAt (sel p q b) i l → OneHop p q plen qlen b (i + (l.length + 1)) ls →
      OneHop p q plen qlen b i (l :: ls)
  | pointer {i x y z b₁ i₁ ls} : p i = some x → 192 ≤ x → p (i + 1) = some y →
      ptrTarget plen qlen (x.toNat % 64 * 256 + y.toNat) = some (b₁, i₁) →
      sel p q b₁ i₁ = some z → z < 64 → OneHop p q plen qlen b₁ i₁ ls →
      OneHop p q plen qlen false i ls

theorem PlainAt.oneHop {p q : Mem} {plen qlen : Nat} {b : Bool} {i : Nat} {ls : List (List UInt8)}
    (h : PlainAt (sel p q b) i ls) : OneHop p q plen qlen b i ls := by
  induction h with
  | root h => exact .root h
  | label h _ ih => exact .label h ih

theorem OneHop.nameAt {p q : Mem} {plen qlen : Nat} {b : Bool} {i : Nat} {ls : List (List UInt8)}
    (h : OneHop p q plen qlen b i ls) : ∃ n, NameAt p q plen qlen n b i ls := by
  induction h with
  | root h => exact ⟨0, _, _, .here, h⟩
  | label h _ ih =>
    obtain ⟨n, b', i', w, w0⟩ := ih
    exact ⟨n + 1, b', i', .label h w, w0⟩
  | pointer h1 h2 h3 h4 _ _ _ ih =>
    obtain ⟨n, b', i', w, w0⟩ := ih
    exact ⟨n + 1, b', i', .pointer h1 h2 h3 h4 w, w0⟩

/-- The pieces of `encName` make a plain name. -/
theorem PlainAt.of_encName {m : Mem} : ∀ {i : Nat} {ls : List (List UInt8)}, LabelsOk ls →
    (∀ j (h : j < (encName ls).length), m (i + j) = some (encName ls)[j]) → PlainAt m i ls := by
  intro i ls
  induction ls generalizing i with
  | nil => intro _ h; exact .root (by simpa [encName, encLabels] using h 0 (by simp [encName, encLabels]))
  | cons l ls ih =>
    intro hok h
    have hl := hok l (by simp)
    have hc : encName (l :: ls) = (UInt8.ofNat l.length :: l) ++ encName ls := by
      simp [encName, encLabels, List.flatMap]
    have hlen : (encName (l :: ls)).length = l.length + 1 + (encName ls).length := by rw [hc]; simp; omega
    refine .label ⟨hl.1, hl.2, ?_, ?_⟩ (ih (fun x hx => hok x (by simp [hx])) ?_)
    · have := h 0 (by omega)
      simpa [hc] using this
    · intro j hj
      have := h (j + 1) (by omega)
      rw [show i + 1 + j = i + (j + 1) by omega, this]
      simp [hc, hj]
    · intro j hj
      have := h (l.length + 1 + j) (by omega)
      rw [show i + (l.length + 1) + j = i + (l.length + 1 + j) by omega, this]
      congr 1
      simp only [hc]
      rw [List.getElem_append_right (by simp)]
      simp

end Spec
