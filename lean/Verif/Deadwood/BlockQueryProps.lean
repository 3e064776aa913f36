import Verif.Deadwood.BlockTextProps
/-!
# Which queries a block file refuses
-/

namespace Dw
namespace BH
open Spec

/-- Where label `i` begins. -/
def off (ls : List (List UInt8)) (i : Nat) : Nat := (encLabels (ls.take i)).length

theorem off_succ {ls : List (List UInt8)} {i : Nat} (h : i < ls.length) : off ls (i + 1) = off ls i + (ls[i]).length + 1 := by
  rw [off, off, List.take_succ_eq_append_getElem h, encLabels_append, List.length_append]
  simp [encLabels]; omega

theorem encName_split (ls : List (List UInt8)) (i : Nat) : encName ls = encLabels (ls.take i) ++ encName (ls.drop i) := by
  rw [encName, encName, ← List.append_assoc, ← encLabels_append, List.take_append_drop]

theorem off_lt (ls : List (List UInt8)) (i : Nat) : off ls i < (encName ls).length := by
  rw [encName_split ls i, List.length_append, off]
  simp [encName]

/-- Where the last label but `k - 1` begins, of the first `i` labels. -/
def back (ls : List (List UInt8)) (i k : Nat) : Nat := if k ≤ i then off ls (i - k) else 0

theorem back_succ (ls : List (List UInt8)) (i k : Nat) : back ls (i + 1) (k + 1) = back ls i k := by
  unfold back
  by_cases h : k ≤ i
  · rw [if_pos h, if_pos (by omega)]; congr 1; omega
  · rw [if_neg h, if_neg (by omega)]

theorem byte_at {ls : List (List UInt8)} (hok : LabelsOk ls) (t : List UInt8) {i : Nat} (h : i ≤ ls.length) :
    ∃ x, rd (encName ls ++ t) (off ls i) = .ok x ∧
      ((hi : i < ls.length) → x.toNat = ls[i].length) ∧ (i = ls.length → x = 0) := by
  have hlt := off_lt ls i
  have hg : (encName ls ++ t)[off ls i]? = (encName (ls.drop i))[0]? := by
    rw [List.getElem?_append_left hlt, encName_split ls i, List.getElem?_append_right (by simp [off])]
    congr 1; simp [off]
  rw [rd, hg]
  by_cases hi : i < ls.length
  · rw [List.drop_eq_getElem_cons hi, encName_cons]
    refine ⟨UInt8.ofNat ls[i].length, rfl, fun _ => ?_, fun h => by omega⟩
    have := hok ls[i] (List.getElem_mem hi)
    rw [UInt8.toNat_ofNat']; omega
  · have : ls.drop i = [] := List.drop_eq_nil_of_le (by omega)
    rw [this]
    exact ⟨0, rfl, fun h => absurd h hi, fun _ => rfl⟩

theorem lastLabels_exact {ls : List (List UInt8)} (hok : LabelsOk ls) (a b : UInt8) (n i : Nat) (hi : i ≤ ls.length)
    (hn : ls.length - i < n) :
    lastLabels (encName ls ++ [a, b]) n (off ls i) (back ls i 1) (back ls i 2) (back ls i 3) =
      .ok (back ls ls.length 1, back ls ls.length 2, back ls ls.length 3) := by
  induction n generalizing i with
  | zero => omega
  | succ n ih =>
    have hlt := off_lt ls i
    obtain ⟨x, h1, h2, h3⟩ := byte_at hok [a, b] hi
    rw [lastLabels, if_pos (by simp; omega), h1]
    simp only [Res.ok_bind]
    by_cases hil : i < ls.length
    · have hx := h2 hil
      have hb := hok ls[i] (List.getElem_mem hil)
      rw [if_neg (by omega), hx, ← off_succ hil]
      have := ih (i + 1) hil (by omega)
      rw [back_succ, back_succ, back_succ] at this
      rw [← this]
      congr 1
    · have : i = ls.length := by omega
      subst this
      rw [h3 rfl]
      simp

/-- The answers of a loaded block file: exactly the strings of `names`. -/
def Answers (b : Blk) (names : List (List UInt8)) : Prop :=
  ∀ (str : List UInt8) (len : Nat), len ≤ str.length → len ≤ 0xff00 →
    hasString b str len = .ok (if str.take len ∈ names then 1 else 0)

theorem tryFrom_exact {b : Blk} {names : List (List UInt8)} (hb : Answers b names) {ls : List (List UInt8)}
    (hl : (encName ls).length ≤ 0xff00) (x y : UInt8) (k : Nat) :
    tryFrom b (encName ls ++ [x, y]) (back ls ls.length k) =
      .ok (decide (k < ls.length ∧ encName (ls.drop (ls.length - k)) ∈ names)) := by
  rw [tryFrom]
  by_cases h : k < ls.length
  · have hlt := off_lt ls (ls.length - k)
    have h0 : 0 < off ls (ls.length - k) := by
      obtain ⟨j, hj⟩ : ∃ j, ls.length - k = j + 1 := ⟨ls.length - k - 1, by omega⟩
      rw [hj, off_succ (by omega)]; omega
    have hbk : back ls ls.length k = off ls (ls.length - k) := by rw [back, if_pos (by omega)]
    rw [hbk, if_pos (by simp; omega)]
    have hd : (encName ls ++ [x, y]).drop (off ls (ls.length - k)) = encName (ls.drop (ls.length - k)) ++ [x, y] := by
      rw [List.drop_append_of_le_length (by omega)]
      congr 1
      conv => lhs; rw [encName_split ls (ls.length - k)]
      rw [off, List.drop_left' rfl]
    have hlen : (encName ls ++ [x, y]).length - off ls (ls.length - k) - 2 =
        (encName (ls.drop (ls.length - k))).length := by
      have := congrArg List.length hd
      rw [List.length_drop] at this
      simp at this ⊢
      omega
    rw [hd, hlen, hb _ _ (by simp) (by
      have := congrArg List.length (encName_split ls (ls.length - k))
      rw [List.length_append] at this; omega)]
    rw [List.take_left' rfl]
    simp only [Res.ok_bind, h, true_and]
    congr 1
    by_cases hm : encName (ls.drop (ls.length - k)) ∈ names <;> simp [hm]
  · have hbk : back ls ls.length k = 0 := by
      rw [back]
      split
      · have : ls.length - k = 0 := by omega
        rw [this]; rfl
      · rfl
    rw [hbk]
    simp [h]

/-- A query is refused because of the block file exactly if its name, or the name made of
its last one, two or three labels, is in the list of names of the file. -/
theorem blocked_exact {b : Blk} {names : List (List UInt8)} (hb : Answers b names) {ls : List (List UInt8)}
    (hok : LabelsOk ls) (hl : (encName ls).length ≤ 0xff00) (x y : UInt8) :
    ∃ r, blocked b (encName ls ++ [x, y]) = .ok r ∧ (r = true ↔ Refused names ls) := by
  have hlast := lastLabels_exact hok x y (encName ls ++ [x, y]).length 0 (by omega) (by
    have : ls.length ≤ (encLabels ls).length := by
      clear hok hl
      induction ls with
      | nil => simp
      | cons l ls ih => rw [encLabels_cons, List.cons_append, List.length_cons, List.length_cons, List.length_append]; omega
    simp [encName]; omega)
  have e0 : off ls 0 = 0 := rfl
  have e1 : ∀ k, 0 < k → back ls 0 k = 0 := fun k hk => by rw [back, if_neg (by omega)]
  rw [e0, e1 1 (by omega), e1 2 (by omega), e1 3 (by omega)] at hlast
  rw [blocked, if_pos (by simp [encName]), hb _ _ (by simp) (by simp; omega), hlast]
  rw [show (encName ls ++ [x, y]).length - 2 = (encName ls).length by simp, List.take_left' rfl]
  simp only [Res.ok_bind]
  rw [tryFrom_exact hb hl x y 1, tryFrom_exact hb hl x y 2,
    tryFrom_exact hb hl x y 3]
  simp only [Res.ok_bind]
  have hex : (∃ k, 1 ≤ k ∧ k ≤ 3 ∧ k < ls.length ∧ encName (ls.drop (ls.length - k)) ∈ names) ↔
      (1 < ls.length ∧ encName (ls.drop (ls.length - 1)) ∈ names) ∨
      (2 < ls.length ∧ encName (ls.drop (ls.length - 2)) ∈ names) ∨
      (3 < ls.length ∧ encName (ls.drop (ls.length - 3)) ∈ names) := by
    constructor
    · rintro ⟨k, h1, h2, h3, h4⟩
      have : k = 1 ∨ k = 2 ∨ k = 3 := by omega
      rcases this with rfl | rfl | rfl
      · exact Or.inl ⟨h3, h4⟩
      · exact Or.inr (Or.inl ⟨h3, h4⟩)
      · exact Or.inr (Or.inr ⟨h3, h4⟩)
    · rintro (⟨h3, h4⟩ | ⟨h3, h4⟩ | ⟨h3, h4⟩)
      · exact ⟨1, by omega, by omega, h3, h4⟩
      · exact ⟨2, by omega, by omega, h3, h4⟩
      · exact ⟨3, by omega, by omega, h3, h4⟩
  rw [Refused, hex]
  by_cases h0 : encName ls ∈ names
  · exact ⟨true, by simp [h0], by simp [h0]⟩
  · simp only [h0, if_false, false_or, show ¬ ((0 : Int) = 1) by decide]
    by_cases h1 : 1 < ls.length ∧ encName (ls.drop (ls.length - 1)) ∈ names
    · exact ⟨true, by simp [h1], by simp [h1]⟩
    · simp only [h1, decide_false, Bool.false_eq_true, if_false, false_or]
      by_cases h2 : 2 < ls.length ∧ encName (ls.drop (ls.length - 2)) ∈ names
      · exact ⟨true, by simp [h2], by simp [h2]⟩
      · exact ⟨_, by simp only [h2, decide_false, Bool.false_eq_true, if_false]; rfl, by simp [h2]⟩

/-- From the list of names to the refusal of queries. -/
theorem blocked_by_list (k1 k2 : UInt32) (buckets : Option Nat) (xs : List Line) (junk : Nat → UInt8)
    (h : ∀ x ∈ xs, x.Ok) (hne : xs ≠ []) (hlen : (xs.flatMap Line.text).length < 100000000)
    (hbk : ∀ n, buckets = some n → n < 100000000) :
    ∃ file, BHM.make k1 k2 buckets (xs.flatMap Line.text) junk = .ok file ∧
      ∀ junk2, ∃ b, load file junk2 = .ok b ∧
        ∀ (ls : List (List UInt8)) (x y : UInt8), LabelsOk ls → (encName ls).length ≤ 255 →
          ∃ r, blocked b (encName ls ++ [x, y]) = .ok r ∧ (r = true ↔ Refused (xs.map Line.name) ls) := by
  obtain ⟨file, h1, -, h2⟩ := BHM.make_exact k1 k2 buckets xs junk h hne hlen hbk
  refine ⟨file, h1, fun junk2 => ?_⟩
  rcases hld : load file junk2 with b | _ | _
  · refine ⟨b, rfl, fun ls x y hok hl => ?_⟩
    refine blocked_exact (fun str len ha hb => ?_) hok (by omega) x y
    have := h2 junk2 str len ha hb
    rw [hld] at this
    exact this
  · have := h2 junk2 [] 0 (by simp) (by omega)
    rw [hld] at this
    exact absurd this (by intro h; cases h)
  · have := h2 junk2 [] 0 (by simp) (by omega)
    rw [hld] at this
    exact absurd this (by intro h; cases h)

/-- `www.ad.ex` with `Ad.ex` listed. -/
example : Refused ([(⟨[[65, 100], [101, 120]], [10]⟩ : Line)].map Line.name) [[119, 119, 119], [97, 100], [101, 120]] :=
  Or.inr ⟨2, by decide, by decide, by decide, by decide⟩

end BH
end Dw
