import Verif.Deadwood.RemoteProps
/-!
# Lemmas: the end of the first answer of a packet
-/

namespace Dw
namespace Remote
open Acl (rd wr)
open Spec SR

/-- The search never leaves the packet, and never makes it longer. -/
theorem cut_total (a : List UInt8) (n z y x count : Nat) (h : count ≤ a.length) :
    ∃ r, cut a n z y x count = .ok r ∧ ∀ k, r = some k → k ≤ count := by
  induction n generalizing z y x count with
  | zero => exact ⟨_, rfl, by simp⟩
  | succ n ih =>
    rw [cut]
    by_cases hz : z < count
    · rw [if_pos hz, rd_ok (by omega)]
      simp only [Res.ok_bind]
      split_ifs
      all_goals first
        | exact ⟨_, rfl, by simp⟩
        | exact ih _ _ _ _ h
        | (obtain ⟨r, h1, h2⟩ := ih (z + 1) 8 x (z + a[z].toNat + 1) (by omega)
           exact ⟨r, h1, fun k hk => by have := h2 k hk; omega⟩)
    · rw [if_neg hz]
      exact ⟨_, rfl, by simp⟩

/-- Once the end is found nothing changes any more. -/
theorem cut_done (a : List UInt8) (n z x count : Nat) (h : count ≤ a.length) : cut a n z 8 x count = .ok (some count) := by
  induction n generalizing z x with
  | zero => rfl
  | succ n ih =>
    rw [cut]
    by_cases hz : z < count
    · rw [if_pos hz, rd_ok (by omega)]
      simp only [Res.ok_bind]
      simp [ih]
    · rw [if_neg hz]

/-- The state after the last of the bytes that are skipped. -/
def after (y : Nat) : Nat := if y = 1 then 0 else if y = 7 then 2 else 5

theorem cut_skip (a : List UInt8) {y : Nat} (hy : y = 1 ∨ y = 7 ∨ y = 4) (k n z count : Nat) (hk : z + (k + 1) ≤ count)
    (h : count ≤ a.length) : cut a (n + (k + 1)) z y (k + 1) count = cut a n (z + (k + 1)) (after y) 0 count := by
  induction k generalizing z with
  | zero =>
    rw [Nat.zero_add, cut, if_pos (by omega), rd_ok (by omega)]
    simp only [Res.ok_bind]
    rcases hy with rfl | rfl | rfl <;> rfl
  | succ k ih =>
    have e : n + (k + 1 + 1) = (n + (k + 1)) + 1 := by omega
    rw [e, cut, if_pos (by omega), rd_ok (by omega)]
    simp only [Res.ok_bind]
    have e2 : z + (k + 1 + 1) = z + 1 + (k + 1) := by omega
    rw [e2, ← ih (z + 1) (by omega)]
    rcases hy with rfl | rfl | rfl <;> simp

/-- The packet ends while bytes are skipped: it is left as it is. -/
theorem cut_skip_short (a : List UInt8) {y : Nat} (hy : y = 1 ∨ y = 7 ∨ y = 4) (k n z count : Nat) (hk : count < z + (k + 1))
    (h : count ≤ a.length) : cut a n z y (k + 1) count = .ok (some count) := by
  induction n generalizing z k with
  | zero => rfl
  | succ n ih =>
    rw [cut]
    by_cases hz : z < count
    · rw [if_pos hz, rd_ok (by omega)]
      simp only [Res.ok_bind]
      match k with
      | 0 => omega
      | k + 1 =>
        have := ih k (z + 1) (by omega)
        rcases hy with rfl | rfl | rfl <;> simpa using this
    · rw [if_neg hz]

/-- The name of the question is skipped. -/
theorem cut_name (a : List UInt8) {ls : List (List UInt8)} (hok : LabelsOk ls) (n z x count : Nat) (rest : List UInt8)
    (hd : a.drop z = encName ls ++ rest) (hc : z + (encName ls).length ≤ count) (h : count ≤ a.length) :
    cut a (n + (encName ls).length) z 0 x count = cut a n (z + (encName ls).length) 7 4 count := by
  induction ls generalizing z x with
  | nil =>
    have hz : z < a.length := by simp [encName, encLabels] at hc; omega
    have h0 : a[z] = 0 := by
      rw [List.drop_eq_getElem_cons hz] at hd
      simp only [encName, encLabels, List.flatMap_nil, List.nil_append, List.cons_append, List.cons.injEq] at hd
      exact hd.1
    have e : (encName ([] : List (List UInt8))).length = 1 := rfl
    rw [e, cut, if_pos (by rw [e] at hc; omega), rd_ok hz]
    simp only [Res.ok_bind, h0]
    simp
  | cons l ls ih =>
    have hl := hok.head
    have hlen : (encName (l :: ls)).length = l.length + 1 + (encName ls).length := by
      rw [encName_cons]; simp; omega
    have hz : z < a.length := by omega
    rw [encName_cons] at hd
    have hd' := hd
    rw [List.drop_eq_getElem_cons hz] at hd'
    simp only [List.cons_append, List.cons.injEq] at hd'
    have hc0 : a[z] ≠ 0 := by rw [hd'.1]; exact ofLen_ne hl.1 hl.2
    have hcl : a[z].toNat = l.length := by rw [hd'.1, UInt8.toNat_ofNat']; omega
    have e : n + (encName (l :: ls)).length = (n + (encName ls).length + l.length) + 1 := by omega
    rw [e, cut, if_pos (by omega), rd_ok hz]
    simp only [Res.ok_bind]
    rw [if_pos trivial, if_neg (by omega), if_neg hc0, hcl]
    obtain ⟨k, hk⟩ : ∃ k, l.length = k + 1 := ⟨l.length - 1, by omega⟩
    rw [hk, cut_skip a (Or.inl rfl) k _ (z + 1) count (by omega) h]
    show cut a _ _ 0 0 count = _
    rw [ih hok.tail (z + 1 + (k + 1)) 0 ?_ (by omega)]
    · congr 1; omega
    · have : a.drop (z + 1 + (k + 1)) = (a.drop (z + 1)).drop (k + 1) := by rw [List.drop_drop]
      rw [this, hd'.2, ← hk, List.append_assoc, List.drop_left']
      rfl

theorem cut_end (a : List UInt8) (n z y x count : Nat) (hz : count ≤ z) : cut a n z y x count = .ok (some count) := by
  cases n with
  | zero => rfl
  | succ n => rw [cut, if_neg (by omega)]

/-- A record with a pointer to the question for its name and data shorter than 256 bytes
lies at `z`, inside the packet. -/
def Rec16 (a : List UInt8) (z count : Nat) : Prop :=
  a[z + 4]? = some 0xc0 ∧ a[z + 5]? = some 0x0c ∧ a[z + 14]? = some 0 ∧ ∃ c, a[z + 15]? = some c ∧ z + 16 + c.toNat ≤ count

theorem cut_short (a : List UInt8) (n z y x count : Nat) (h : count ≤ a.length)
    (hs : (y = 7 ∧ 1 ≤ x ∧ count ≤ z + (x + 11)) ∨ (y = 2 ∧ count ≤ z + 11) ∨ (y = 3 ∧ count ≤ z + 10) ∨
      (y = 4 ∧ 1 ≤ x ∧ count ≤ z + (x + 1)) ∨ (y = 5 ∧ count ≤ z + 1) ∨ (y = 6 ∧ count ≤ z)) :
    cut a n z y x count = .ok (some count) ∨ cut a n z y x count = .ok none := by
  induction n generalizing z y x with
  | zero => exact Or.inl rfl
  | succ n ih =>
    by_cases hz : z < count
    · rw [cut, if_pos hz, rd_ok (by omega)]
      simp only [Res.ok_bind]
      rcases hs with ⟨rfl, hx, hs⟩ | ⟨rfl, hs⟩ | ⟨rfl, hs⟩ | ⟨rfl, hx, hs⟩ | ⟨rfl, hs⟩ | ⟨rfl, hs⟩
      · by_cases h1 : x - 1 = 0
        · simpa [h1] using ih (z + 1) 2 (x - 1) (by omega)
        · simpa [h1] using ih (z + 1) 7 (x - 1) (by omega)
      · by_cases h1 : a[z] = 0xc0
        · simpa [h1] using ih (z + 1) 3 x (by omega)
        · simp [h1]
      · by_cases h1 : a[z] = 0x0c
        · simpa [h1] using ih (z + 1) 4 8 (by omega)
        · simp [h1]
      · by_cases h1 : x - 1 = 0
        · simpa [h1] using ih (z + 1) 5 (x - 1) (by omega)
        · simpa [h1] using ih (z + 1) 4 (x - 1) (by omega)
      · by_cases h1 : a[z] = 0
        · simpa [h1] using ih (z + 1) 6 x (by omega)
        · simp [h1]
      · omega
    · exact Or.inl (cut_end a _ _ _ _ _ (by omega))

theorem cut_record_short (a : List UInt8) (n z count : Nat) (h : count ≤ a.length) (hs : count < z + 16) :
    cut a n z 7 4 count = .ok (some count) ∨ cut a n z 7 4 count = .ok none :=
  cut_short a n z 7 4 count h (Or.inl ⟨rfl, by omega, by omega⟩)

theorem cut_record (a : List UInt8) (n z count : Nat) (h : count ≤ a.length) (hn : count ≤ z + n) (hs : z + 16 ≤ count) :
    (Rec16 a z count ∧ ∃ c, a[z + 15]? = some c ∧ cut a n z 7 4 count = .ok (some (z + 16 + c.toNat))) ∨
    (¬ Rec16 a z count ∧ cut a n z 7 4 count = .ok none) := by
  obtain ⟨m, rfl⟩ : ∃ m, n = m + 16 := ⟨n - 16, by omega⟩
  have e1 : cut a (m + 16) z 7 4 count = cut a (m + 12) (z + 4) 2 0 count := cut_skip a (y := 7) (by simp) 3 (m + 12) z count (by omega) h
  have g : ∀ i, i < 16 → a[z + i]? = some (a[z + i]?.getD 0) := by
    intro i hi
    rw [List.getElem?_eq_getElem (by omega)]; rfl
  have r : ∀ i, i < 16 → rd a (z + i) = .ok (a[z + i]?.getD 0) := by
    intro i hi
    rw [rd_ok (by omega), List.getElem?_eq_getElem (by omega)]; rfl
  rw [e1, cut, if_pos (by omega), r 4 (by omega)]
  simp only [Res.ok_bind]
  by_cases c4 : a[z + 4]?.getD 0 = 0xc0
  · simp only [show ¬ ((2 : Nat) = 0) by decide, show ¬ ((2 : Nat) = 1) by decide, show ¬ ((2 : Nat) = 7) by decide, if_false, if_true]
    rw [if_neg (not_not.2 c4), show z + 4 + 1 = z + 5 from rfl, cut, if_pos (by omega), r 5 (by omega)]
    simp only [Res.ok_bind]
    by_cases c5 : a[z + 5]?.getD 0 = 0x0c
    · simp only [show ¬ ((3 : Nat) = 0) by decide, show ¬ ((3 : Nat) = 1) by decide, show ¬ ((3 : Nat) = 7) by decide,
        show ¬ ((3 : Nat) = 2) by decide, if_false, if_true]
      rw [if_neg (not_not.2 c5), show z + 5 + 1 = z + 6 from rfl]
      have e2 : cut a (m + 10) (z + 6) 4 8 count = cut a (m + 2) (z + 14) 5 0 count :=
        cut_skip a (y := 4) (by simp) 7 (m + 2) (z + 6) count (by omega) h
      rw [e2, cut, if_pos (by omega), r 14 (by omega)]
      simp only [Res.ok_bind]
      by_cases c14 : a[z + 14]?.getD 0 = 0
      · simp only [show ¬ ((5 : Nat) = 0) by decide, show ¬ ((5 : Nat) = 1) by decide, show ¬ ((5 : Nat) = 7) by decide,
          show ¬ ((5 : Nat) = 2) by decide, show ¬ ((5 : Nat) = 3) by decide, show ¬ ((5 : Nat) = 4) by decide, if_false, if_true]
        rw [if_neg (not_not.2 c14), show z + 14 + 1 = z + 15 from rfl, cut, if_pos (by omega), r 15 (by omega)]
        simp only [Res.ok_bind]
        simp only [show ¬ ((6 : Nat) = 0) by decide, show ¬ ((6 : Nat) = 1) by decide, show ¬ ((6 : Nat) = 7) by decide,
          show ¬ ((6 : Nat) = 2) by decide, show ¬ ((6 : Nat) = 3) by decide, show ¬ ((6 : Nat) = 4) by decide,
          show ¬ ((6 : Nat) = 5) by decide, if_false, if_true]
        by_cases c15 : z + 15 + (a[z + 15]?.getD 0).toNat + 1 > count
        · rw [if_pos c15]
          refine Or.inr ⟨?_, rfl⟩
          rintro ⟨-, -, -, c, hc, hle⟩
          rw [hc] at c15
          simp only [Option.getD_some] at c15
          omega
        · rw [if_neg c15, cut_done _ _ _ _ _ (by omega)]
          refine Or.inl ⟨⟨by rw [g 4 (by omega), c4], by rw [g 5 (by omega), c5], by rw [g 14 (by omega), c14],
            _, g 15 (by omega), by omega⟩, _, g 15 (by omega), ?_⟩
          congr 2
          omega
      · simp only [show ¬ ((5 : Nat) = 0) by decide, show ¬ ((5 : Nat) = 1) by decide, show ¬ ((5 : Nat) = 7) by decide,
          show ¬ ((5 : Nat) = 2) by decide, show ¬ ((5 : Nat) = 3) by decide, show ¬ ((5 : Nat) = 4) by decide, if_false, if_true]
        rw [if_pos c14]
        exact Or.inr ⟨fun hh => c14 (by rw [hh.2.2.1]; rfl), rfl⟩
    · simp only [show ¬ ((3 : Nat) = 0) by decide, show ¬ ((3 : Nat) = 1) by decide, show ¬ ((3 : Nat) = 7) by decide,
        show ¬ ((3 : Nat) = 2) by decide, if_false, if_true]
      rw [if_pos c5]
      exact Or.inr ⟨fun hh => c5 (by rw [hh.2.1]; rfl), rfl⟩
  · simp only [show ¬ ((2 : Nat) = 0) by decide, show ¬ ((2 : Nat) = 1) by decide, show ¬ ((2 : Nat) = 7) by decide, if_false, if_true]
    rw [if_pos c4]
    exact Or.inr ⟨fun hh => c4 (by rw [hh.1]; rfl), rfl⟩

end Remote
end Dw
