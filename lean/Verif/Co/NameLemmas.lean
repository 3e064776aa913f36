import Verif.Co.TextModel
import Verif.Spec.Shown
import Mathlib.Tactic.SplitIfs
/-!
# coLunacyDNS: names, helper lemmas
-/

namespace Co
open Dw (Res)
open Spec (encName shown shownLabel shownByte LabelsOk)

theorem safe_plain (c : UInt8) : safe c = true ↔ Spec.PlainChar c := by
  unfold safe Spec.PlainChar
  simp only [Bool.or_eq_true, Bool.and_eq_true, decide_eq_true_eq, beq_iff_eq, UInt8.le_iff_toNat_le, ← UInt8.toNat_inj]
  simp
  omega

theorem hexChar_digits (n : Nat) (h : n < 16) : hexChar n = Spec.digits16.getD n 0 := by
  revert h n; decide

theorem shown_byte (c : UInt8) : (if safe c then [c] else escape c) = shownByte c := by
  have := c.toNat_lt
  unfold shownByte
  by_cases h : safe c = true
  · simp [h, (safe_plain c).mp h]
  · have : ¬ Spec.PlainChar c := fun hp => h ((safe_plain c).mpr hp)
    simp only [h, this, if_false, escape, hex2]
    rw [hexChar_digits _ (by omega), hexChar_digits _ (by omega)]
    rfl

theorem shownByte_len (c : UInt8) : (shownByte c).length = if safe c then 1 else 4 := by
  rw [← shown_byte]; split <;> rfl

theorem flat_len (l : List UInt8) : l.length ≤ (l.flatMap shownByte).length := by
  induction l with
  | nil => simp
  | cons c l ih =>
    simp only [List.flatMap_cons, List.length_append, List.length_cons, shownByte_len]
    split <;> omega

theorem drop_get {α : Type} {buf r : List α} {n : Nat} {a : α} (h : buf.drop n = a :: r) : buf[n]? = some a ∧ buf.drop (n + 1) = r := by
  constructor
  · have := congrArg (·[0]?) h
    simpa using this
  · have := congrArg (·.drop 1) h
    simpa [List.drop_drop] using this

/-- The cases in which a byte is not taken. -/
def full (c : UInt8) (max i : Nat) (out : List UInt8) : Prop := max ≤ i ∨ max ≤ out.length ∨ (safe c = false ∧ max ≤ out.length + 5)

instance (c : UInt8) (max i : Nat) (out : List UInt8) : Decidable (full c max i out) := by unfold full; infer_instance

theorem full_len {c : UInt8} {max i : Nat} {out : List UInt8} (hi : i ≤ out.length) (h : full c max i out) :
    max ≤ out.length + (shownByte c).length + 1 := by
  rw [shownByte_len]
  rcases h with h | h | ⟨h1, h2⟩
  · omega
  · omega
  · rw [h1]; simp; omega

theorem loop_mid {buf : List UInt8} {base max l i : Nat} {out : List UInt8} {c : UInt8} (g : buf[base + i + 1]? = some c) (hl : 1 ≤ l) :
    humanLoop buf base max (l + 1) i out = if full c max i out then .ok none else humanLoop buf base max l (i + 1) (out ++ shownByte c) := by
  rw [humanLoop, if_neg (by omega), g]
  simp only
  by_cases h1 : max ≤ i ∨ max ≤ out.length
  · rw [if_pos h1, if_pos (h1.elim .inl fun h => .inr (.inl h))]
  · rw [if_neg h1]
    by_cases h2 : (!safe c) = true ∧ max ≤ out.length + 5
    · rw [if_pos h2, if_pos (.inr (.inr ⟨by simpa using h2.1, h2.2⟩))]
    · have nf : ¬ full c max i out := by
        rintro (h | h | ⟨h, h'⟩)
        · exact h1 (.inl h)
        · exact h1 (.inr h)
        · exact h2 ⟨by simp [h], h'⟩
      rw [if_neg h2, if_neg nf, if_neg (by omega)]
      rw [shown_byte]
      rfl

theorem loop_last {buf : List UInt8} {base max i : Nat} {out : List UInt8} {c n : UInt8} (g : buf[base + i + 1]? = some c)
    (g2 : buf[base + i + 2]? = some n) (hn : ¬ 64 ≤ n) :
    humanLoop buf base max 1 i out = if full c max i out then .ok none else
      if max ≤ (out ++ shownByte c).length then .ok none else humanLoop buf base max n.toNat (i + 2) (out ++ shownByte c ++ [46]) := by
  rw [humanLoop, if_neg (by omega), g]
  simp only
  by_cases h1 : max ≤ i ∨ max ≤ out.length
  · rw [if_pos h1, if_pos (h1.elim .inl fun h => .inr (.inl h))]
  · rw [if_neg h1]
    by_cases h2 : (!safe c) = true ∧ max ≤ out.length + 5
    · rw [if_pos h2, if_pos (.inr (.inr ⟨by simpa using h2.1, h2.2⟩))]
    · have nf : ¬ full c max i out := by
        rintro (h | h | ⟨h, h'⟩)
        · exact h1 (.inl h)
        · exact h1 (.inr h)
        · exact h2 ⟨by simp [h], h'⟩
      rw [if_neg h2, if_neg nf]
      simp only [if_true]
      rw [shown_byte, g2]
      simp only [hn, if_false]

/-- The loop on labels that follow. -/
theorem human_loop (buf : List UInt8) (base max : Nat) (rest : List UInt8) (ls : List (List UInt8)) (hls : LabelsOk ls) :
    ∀ (lab : List UInt8) (i : Nat) (out : List UInt8), lab ≠ [] →
      buf.drop (base + i + 1) = lab ++ (encName ls ++ rest) → i ≤ out.length →
      humanLoop buf base max lab.length i out =
        .ok (if (out ++ (shownLabel lab ++ shown ls)).length < max then
          some (i + lab.length + (encName ls).length, out ++ (shownLabel lab ++ shown ls)) else none) := by
  induction ls with
  | nil =>
    intro lab
    induction lab with
    | nil => simp
    | cons c lab ih =>
      intro i out _ hb hi
      rw [List.cons_append] at hb
      obtain ⟨g1, hb⟩ := drop_get hb
      cases lab with
      | nil =>
        obtain ⟨g2, -⟩ := drop_get (a := (0 : UInt8)) (r := rest) (by simpa [encName, Spec.encLabels] using hb)
        have e : out ++ shownByte c ++ [46] = out ++ (shownLabel [c] ++ shown []) := by simp [shownLabel, shown]
        have tot : (out ++ (shownLabel [c] ++ shown [])).length = (out ++ shownByte c).length + 1 := by rw [← e]; simp; omega
        rw [show [c].length = 1 from rfl, loop_last g1 g2 (by decide)]
        by_cases hf : full c max i out
        · have := full_len hi hf
          rw [if_pos hf, if_neg (by rw [tot, List.length_append]; omega)]
        · rw [if_neg hf]
          by_cases h3 : max ≤ (out ++ shownByte c).length
          · rw [if_pos h3, if_neg (by rw [tot]; omega)]
          · rw [if_neg h3, humanLoop, if_pos (show (0 : UInt8).toNat = 0 from rfl), e]
            by_cases h4 : max ≤ (out ++ (shownLabel [c] ++ shown [])).length
            · rw [if_pos h4, if_neg (by omega)]
            · rw [if_neg h4, if_pos (by omega)]
              simp [encName, Spec.encLabels]
      | cons d lab =>
        have e : out ++ shownByte c ++ (shownLabel (d :: lab) ++ shown []) = out ++ (shownLabel (c :: d :: lab) ++ shown []) := by
          simp [shownLabel, shown]
        have tot : out.length + (shownByte c).length + 1 ≤ (out ++ (shownLabel (c :: d :: lab) ++ shown [])).length := by
          rw [← e]; simp [shownLabel, shown]; omega
        rw [List.length_cons, loop_mid g1 (by simp)]
        by_cases hf : full c max i out
        · have := full_len hi hf
          rw [if_pos hf, if_neg (by omega)]
        · rw [if_neg hf, ih (i + 1) (out ++ shownByte c) (by simp) hb (by
            rw [List.length_append, shownByte_len]; split <;> omega), e]
          simp only [List.length_cons]
          rw [show i + 1 + (lab.length + 1) = i + (lab.length + 1 + 1) by omega]
  | cons l2 ls ihl =>
    have ih2 := ihl hls.tail
    have l2ok := hls.head
    intro lab
    induction lab with
    | nil => simp
    | cons c lab ih =>
      intro i out _ hb hi
      rw [List.cons_append] at hb
      obtain ⟨g1, hb⟩ := drop_get hb
      cases lab with
      | nil =>
        rw [Spec.encName_cons, List.nil_append, List.cons_append] at hb
        obtain ⟨g2, hb⟩ := drop_get hb
        have l2n : (UInt8.ofNat l2.length).toNat = l2.length := by rw [UInt8.toNat_ofNat']; omega
        have e : out ++ shownByte c ++ [46] ++ (shownLabel l2 ++ shown ls) = out ++ (shownLabel [c] ++ shown (l2 :: ls)) := by
          simp [shownLabel, shown]
        have tot : (out ++ shownByte c).length + 1 ≤ (out ++ (shownLabel [c] ++ shown (l2 :: ls))).length := by rw [← e]; simp; omega
        rw [show [c].length = 1 from rfl, loop_last g1 g2 (by rw [UInt8.le_iff_toNat_le, l2n]; simp; omega), l2n]
        by_cases hf : full c max i out
        · have := full_len hi hf
          rw [List.length_append] at tot
          rw [if_pos hf, if_neg (by omega)]
        · rw [if_neg hf]
          by_cases h3 : max ≤ (out ++ shownByte c).length
          · rw [if_pos h3, if_neg (by omega)]
          · rw [if_neg h3, ih2 l2 (i + 2) (out ++ shownByte c ++ [46]) (by intro h; simp [h] at l2ok) (by rw [← List.append_assoc]; exact hb) (by
                simp only [List.length_append, shownByte_len, List.length_singleton]; split <;> omega), e]
            simp only [Spec.encName_cons, List.length_append, List.length_cons]
            rw [show i + 2 + l2.length + (encName ls).length = i + 1 + (l2.length + 1 + (encName ls).length) by omega]
      | cons d lab =>
        have e : out ++ shownByte c ++ (shownLabel (d :: lab) ++ shown (l2 :: ls)) = out ++ (shownLabel (c :: d :: lab) ++ shown (l2 :: ls)) := by
          simp [shownLabel]
        have tot : out.length + (shownByte c).length + 1 ≤ (out ++ (shownLabel (c :: d :: lab) ++ shown (l2 :: ls))).length := by
          rw [← e]; simp [shownLabel]; omega
        rw [List.length_cons, loop_mid g1 (by simp)]
        by_cases hf : full c max i out
        · have := full_len hi hf
          rw [if_pos hf, if_neg (by omega)]
        · rw [if_neg hf, ih (i + 1) (out ++ shownByte c) (by simp) hb (by
            rw [List.length_append, shownByte_len]; split <;> omega), e]
          simp only [List.length_cons]
          rw [show i + 1 + (lab.length + 1) = i + (lab.length + 1 + 1) by omega]

/-- `humanDNSname` on a name. -/
theorem human_name (buf : List UInt8) (base max : Nat) (rest : List UInt8) (ls : List (List UInt8)) (hls : LabelsOk ls) (hn : ls ≠ [])
    (hb : buf.drop base = encName ls ++ rest) :
    human buf base max = .ok (if (shown ls).length < max then some ((encName ls).length - 1, shown ls) else none) := by
  cases ls with
  | nil => simp at hn
  | cons l ls =>
    have lok := hls.head
    rw [Spec.encName_cons, List.cons_append] at hb
    obtain ⟨g, hb⟩ := drop_get hb
    have ln : (UInt8.ofNat l.length).toNat = l.length := by rw [UInt8.toNat_ofNat']; omega
    unfold human
    simp only [g, show ¬ (64 : UInt8) ≤ UInt8.ofNat l.length by rw [UInt8.le_iff_toNat_le, ln]; simp; omega, if_false, ln]
    rw [human_loop buf base max rest ls hls.tail l 0 [] (by intro h; simp [h] at lok) (by rw [← List.append_assoc]; exact hb) (by simp)]
    have e : [] ++ (shownLabel l ++ shown ls) = shown (l :: ls) := by simp [shown]
    rw [e]
    simp [Spec.encName_cons]

/-- The root. -/
theorem human_root (buf : List UInt8) (base max : Nat) (hm : 0 < max) (h : buf[base]? = some 0) : human buf base max = .ok (some (0, [])) := by
  unfold human
  simp only [h, show ¬ (64 : UInt8) ≤ 0 by decide, if_false, show (0 : UInt8).toNat = 0 from rfl]
  rw [humanLoop]
  simp; omega

/-- A pointer. -/
theorem human_pointer (buf : List UInt8) (base max : Nat) (hm : 1 < max) {n : UInt8} (h : buf[base]? = some n) (hn : 64 ≤ n) :
    human buf base max = .ok (some (1, [42])) := by
  unfold human
  simp only [h, hn, if_true]
  rw [if_neg (by omega)]

/-! ## Shown names are different for different names -/

theorem shownByte_split (a b : UInt8) (x y : List UInt8) (h : shownByte a ++ x = shownByte b ++ y) : a = b ∧ x = y := by
  have la := a.toNat_lt
  have lb := b.toNat_lt
  have p123 : ¬ Spec.PlainChar 123 := by decide
  unfold shownByte at h
  split_ifs at h with ha hb hb
  · simpa using h
  · simp at h; exact absurd (h.1 ▸ ha) p123
  · simp at h; exact absurd (h.1 ▸ hb) p123
  · simp only [List.cons_append, List.nil_append, List.cons.injEq, true_and] at h
    have inj : ∀ m < 16, ∀ n < 16, Spec.digits16.getD m 0 = Spec.digits16.getD n 0 → m = n := by decide
    have h1 := inj _ (by omega) _ (by omega) h.1
    have h2 := inj _ (by omega) _ (by omega) h.2.1
    exact ⟨UInt8.toNat_inj.mp (by omega), h.2.2⟩

theorem shownByte_head (a : UInt8) : ∃ c r, shownByte a = c :: r ∧ c ≠ 46 := by
  unfold shownByte
  split_ifs with h
  · exact ⟨a, [], rfl, by rintro rfl; exact absurd h (by decide)⟩
  · exact ⟨123, _, rfl, by decide⟩

theorem shownLabel_split (a b x y : List UInt8) (h : shownLabel a ++ x = shownLabel b ++ y) : a = b ∧ x = y := by
  induction a generalizing b with
  | nil =>
    cases b with
    | nil => simpa [shownLabel] using h
    | cons d b =>
      obtain ⟨c, r, e, hc⟩ := shownByte_head d
      simp [shownLabel, e] at h
      exact absurd h.1.symm hc
  | cons d a ih =>
    cases b with
    | nil =>
      obtain ⟨c, r, e, hc⟩ := shownByte_head d
      simp [shownLabel, e] at h
      exact absurd h.1 hc
    | cons e b =>
      have : shownByte d ++ (shownLabel a ++ x) = shownByte e ++ (shownLabel b ++ y) := by simpa [shownLabel] using h
      obtain ⟨h1, h2⟩ := shownByte_split _ _ _ _ this
      obtain ⟨h3, h4⟩ := ih b h2
      exact ⟨by rw [h1, h3], h4⟩

theorem shown_inj (a b : List (List UInt8)) (h : shown a = shown b) : a = b := by
  induction a generalizing b with
  | nil =>
    cases b with
    | nil => rfl
    | cons l b => simp [shown, shownLabel] at h
  | cons l a ih =>
    cases b with
    | nil => simp [shown, shownLabel] at h
    | cons m b =>
      obtain ⟨h1, h2⟩ := shownLabel_split l m (shown a) (shown b) (by simpa [shown] using h)
      rw [h1, ih b h2]

theorem shown_plain (ls : List (List UInt8)) (h : ∀ l ∈ ls, ∀ c ∈ l, Spec.PlainChar c) : shown ls = Spec.dotted ls := by
  unfold shown Spec.dotted
  induction ls with
  | nil => rfl
  | cons l ls ih =>
    simp only [List.flatMap_cons]
    rw [ih fun x hx => h x (by simp [hx])]
    congr 1
    unfold shownLabel
    congr 1
    have := h l (by simp)
    clear ih h
    induction l with
    | nil => rfl
    | cons c l ih =>
      rw [List.flatMap_cons, ih fun x hx => this x (by simp [hx]), shownByte, if_pos (this c (by simp))]
      rfl

end Co
