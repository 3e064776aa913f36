import Verif.Mara.TextToolsModel
/-!
# C125 and C126: the small text tools
-/

namespace Mara
namespace TextTools

/-- The bytes of a text in UTF-8, as Lean's library has it. -/
def utf8 (cs : List Char) : List UInt8 := cs.flatMap String.utf8EncodeChar

/-- The characters of a text in Latin-1: a byte is the number of its character. -/
def latin1 (bs : List UInt8) : List Char := bs.map fun b => Char.ofNat b.toNat

theorem char_table : ∀ n : Fin 256, String.utf8EncodeChar (Char.ofNat n.val) = l1Char (UInt8.ofNat n.val) := by
  decide +kernel

theorem l1Char_eq (b : UInt8) : l1Char b = String.utf8EncodeChar (Char.ofNat b.toNat) := by
  have := char_table ⟨b.toNat, b.toNat_lt⟩
  simpa using this.symm

/-- **C125.** `l1toutf8` writes the UTF-8 of the text it reads. -/
theorem l1toutf8_exact (t : List UInt8) : l1toutf8 t = utf8 (latin1 t) := by
  induction t with
  | nil => rfl
  | cons b t ih =>
    rw [l1toutf8, ih, l1Char_eq]
    rfl

theorem pair_table : ∀ n : Fin 256, 128 ≤ n.val →
    ∃ c d, l1Char (UInt8.ofNat n.val) = [c, d] ∧ ¬ c < 128 ∧ c < 0xe0 ∧ d ≠ 255 ∧
      UInt8.ofNat ((c.toNat % 32) * 64 + d.toNat % 64) = UInt8.ofNat n.val := by
  intro n hn
  refine ⟨(UInt8.ofNat n.val >>> 6) ||| 0xc0, (UInt8.ofNat n.val &&& 0x3f) ||| 0x80, ?_⟩
  revert n
  decide +kernel

theorem low {c : UInt8} (h : c < 128) (r : List UInt8) : utf8tol1 (c :: r) = (c :: (utf8tol1 r).1, (utf8tol1 r).2) := by
  rw [utf8tol1.eq_def]
  simp only [if_pos h]

theorem two {c d : UInt8} (h1 : ¬ c < 128) (h2 : c < 0xe0) (h3 : d ≠ 255) (r : List UInt8) : utf8tol1 (c :: d :: r) =
    (UInt8.ofNat ((c.toNat % 32) * 64 + d.toNat % 64) :: (utf8tol1 r).1, (utf8tol1 r).2) := by
  rw [utf8tol1.eq_def]
  simp only [if_neg h1, if_pos h2, if_pos h3]

theorem mark {c : UInt8} (h1 : ¬ c < 128) (h2 : ¬ c < 0xe0) (r : List UInt8) :
    utf8tol1 (c :: r) = (35 :: (utf8tol1 r).1, (utf8tol1 r).2) := by
  rw [utf8tol1.eq_def]
  simp only [if_neg h1, if_neg h2]

theorem back_char (b : UInt8) (r : List UInt8) :
    utf8tol1 (l1Char b ++ r) = (b :: (utf8tol1 r).1, (utf8tol1 r).2) := by
  by_cases hb : b < 128
  · have h1 : l1Char b = [b] := by
      unfold l1Char
      rw [if_pos]
      rw [UInt8.le_iff_toNat_le]
      rw [UInt8.lt_iff_toNat_lt] at hb
      have e : (128 : UInt8).toNat = 128 := rfl
      have e' : (0x7f : UInt8).toNat = 127 := rfl
      omega
    rw [h1, List.singleton_append, low hb]
  · have hn : 128 ≤ b.toNat := by
      rw [UInt8.lt_iff_toNat_lt] at hb
      have e : (128 : UInt8).toNat = 128 := rfl
      omega
    obtain ⟨c, d, h1, h2, h3, h4, h5⟩ := pair_table ⟨b.toNat, b.toNat_lt⟩ hn
    simp only [UInt8.ofNat_toNat] at h1 h5
    rw [h1]
    show utf8tol1 (c :: d :: r) = _
    rw [two h2 h3 h4, h5]

/-- **C125.** What `l1toutf8` wrote is read back by `utf8tol1` as it was, for every text. -/
theorem round_trip (t : List UInt8) : utf8tol1 (l1toutf8 t) = (t, true) := by
  induction t with
  | nil => rfl
  | cons b t ih => rw [l1toutf8, back_char, ih]

/-- **C125 (partial).** `utf8tol1` turns the UTF-8 of every text whose characters Latin-1 has into that text.  (Partial:
other characters do not become hash marks: see `other_wrong` and `swallows_next`.) -/
theorem utf8tol1_exact_partial (cs : List Char) (h : ∀ c ∈ cs, c.toNat < 256) :
    ∃ t, utf8tol1 (utf8 cs) = (t, true) ∧ latin1 t = cs := by
  refine ⟨cs.map fun c => UInt8.ofNat c.toNat, ?_, ?_⟩
  · have e : latin1 (cs.map fun c => UInt8.ofNat c.toNat) = cs := by
      unfold latin1
      rw [List.map_map]
      conv => rhs; rw [← List.map_id cs]
      apply List.map_congr_left
      intro c hc
      have := h c hc
      simp [Nat.mod_eq_of_lt this]
    conv => lhs; rw [← e]
    rw [← l1toutf8_exact, round_trip]
  · unfold latin1
    rw [List.map_map]
    conv => rhs; rw [← List.map_id cs]
    apply List.map_congr_left
    intro c hc
    have := h c hc
    simp [Nat.mod_eq_of_lt this]

/-- `aéz` -/
example : utf8tol1 (utf8 ['a', 'é', 'z']) = ([97, 233, 122], true) := by decide +kernel

/-- As the code has it: a character of two bytes that Latin-1 does not have becomes another character, one of three
bytes a hash mark and another character. -/
theorem other_wrong : utf8tol1 (utf8 ['ł']) = ([66], true) ∧ utf8tol1 (utf8 ['€']) = ([35, 172], true) := by
  decide +kernel

/-- As the code has it: a character of four bytes takes the character after it along, and at the end of the input it makes
the program fail. -/
theorem swallows_next (c : UInt8) (h : c ≠ 255) (r : List UInt8) :
    utf8tol1 (utf8 ['😀'] ++ c :: r) = (35 :: 216 :: UInt8.ofNat (c.toNat % 64) :: (utf8tol1 r).1, (utf8tol1 r).2) ∧
    utf8tol1 (utf8 ['😀']) = ([35, 216], false) := by
  refine ⟨?_, by decide +kernel⟩
  have e : utf8 ['😀'] = [240, 159, 152, 128] := by decide +kernel
  rw [e]
  simp only [List.cons_append, List.nil_append]
  rw [mark (by decide) (by decide), two (by decide) (by decide) (by decide), two (by decide) (by decide) h]
  simp

/-! ### Control characters -/

/-- A control character of Latin-1, other than the one with the number 127. -/
def Control (b : UInt8) : Prop := b.toNat < 32 ∨ 128 ≤ b.toNat ∧ b.toNat < 160

instance (b : UInt8) : Decidable (Control b) := by unfold Control; infer_instance

theorem strip_table : ∀ n : Fin 256, (∀ b ∈ stripChar (UInt8.ofNat n.val), ¬ Control b) ∧
    (¬ Control (UInt8.ofNat n.val) → stripChar (UInt8.ofNat n.val) = [UInt8.ofNat n.val]) := by
  decide +kernel

/-- **C126.** Whatever `strip.control` reads, what it writes has no control characters. -/
theorem strip_clean (t : List UInt8) : ∀ b ∈ strip t, ¬ Control b := by
  induction t with
  | nil => exact (strip_table 255).1
  | cons a t ih =>
    intro b hb
    rw [strip] at hb
    rcases List.mem_append.1 hb with hb | hb
    · have := (strip_table ⟨a.toNat, a.toNat_lt⟩).1
      simp only [UInt8.ofNat_toNat] at this
      exact this b hb
    · exact ih b hb

/-- **C126 (partial).** Text without control characters is kept.  (Partial: a byte 255 that is not there comes behind it.) -/
theorem strip_keeps_partial (t : List UInt8) (h : ∀ b ∈ t, ¬ Control b) : strip t = t ++ [255] := by
  induction t with
  | nil => rfl
  | cons a t ih =>
    have := (strip_table ⟨a.toNat, a.toNat_lt⟩).2
    simp only [UInt8.ofNat_toNat] at this
    rw [strip, this (h a (by simp)), ih (fun b hb => h b (by simp [hb]))]
    rfl

theorem shown_table : ∀ n : Fin 256, Control (UInt8.ofNat n.val) →
    stripChar (UInt8.ofNat n.val) = [60] ++ ((Nat.toDigits 16 n.val).map fun c => UInt8.ofNat c.toNat) ++ [62] := by
  decide +kernel

/-- **C126.** A control character is shown as its number, written with base 16, between angle brackets, and what is
around it does not change that. -/
theorem strip_shows (a b : List UInt8) (ha : ∀ x ∈ a, ¬ Control x) (c : UInt8) (hc : Control c) :
    strip (a ++ c :: b) = a ++ [60] ++ ((Nat.toDigits 16 c.toNat).map fun d => UInt8.ofNat d.toNat) ++ [62] ++ strip b := by
  induction a with
  | nil =>
    have := shown_table ⟨c.toNat, c.toNat_lt⟩
    simp only [UInt8.ofNat_toNat] at this
    rw [List.nil_append, strip, this hc]
    simp
  | cons x a ih =>
    have := (strip_table ⟨x.toNat, x.toNat_lt⟩).2
    simp only [UInt8.ofNat_toNat] at this
    rw [List.cons_append, strip, this (ha x (by simp)), ih (fun y hy => ha y (by simp [hy]))]
    simp

/-- `a`, a tab, `b`: `a<9>b` and a byte 255. -/
example : strip [97, 9, 98] = [97, 60, 57, 62, 98, 255] ∧ Control 9 ∧ ¬ Control 97 := by decide

/-- So it is not true that text without control characters is unchanged. -/
theorem strip_not_kept : ∃ t : List UInt8, (∀ b ∈ t, ¬ Control b) ∧ strip t ≠ t := ⟨[97], by decide, by decide⟩

end TextTools
end Mara
