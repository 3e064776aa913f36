import Verif.Mara.RcModel
import Verif.Spec.RcFile
import Mathlib.Tactic.SplitIfs

/-!
# Searching a line: lemmas
-/

namespace Mara.Rc

theorem search_skip (s : UInt8 → Bool) (a x : List UInt8) (i : Nat)
    (h : ∀ c ∈ a, s c = false) : search s (a ++ x) i = search s x (i + a.length) := by
  induction a generalizing i with
  | nil => simp
  | cons c a ih =>
    have hc := h c (by simp)
    rw [List.cons_append, search, if_neg (by simp [hc]), ih _ fun c hm => h c (by simp [hm])]
    congr 1; simp; omega

theorem search_none (s : UInt8 → Bool) (a : List UInt8) (i : Nat)
    (h : ∀ c ∈ a, s c = false) : search s a i = -2 := by
  have := search_skip s a [] i h
  simpa [search] using this

theorem search_within (s : UInt8 → Bool) (a x : List UInt8) (i : Nat)
    (h : ∃ c ∈ a, s c = true) :
    (i : Int) ≤ search s (a ++ x) i ∧ search s (a ++ x) i < i + a.length := by
  induction a generalizing i with
  | nil => simp at h
  | cons c a ih =>
    rw [List.cons_append, search]
    by_cases hc : s c = true
    · rw [if_pos hc]; simp; omega
    · rw [if_neg hc]
      obtain ⟨d, hd, hs⟩ := h
      have hd : d ∈ a := by
        rcases List.mem_cons.1 hd with rfl | hd
        · exact absurd hs hc
        · exact hd
      have := ih (i + 1) ⟨d, hd, hs⟩
      simp only [List.length_cons]; push_cast at this ⊢; omega

/-- The search from a place in the line. -/
theorem mt_at (s : UInt8 → Bool) (l a x : List UInt8) (o : Int) (hl : l = a ++ x)
    (ho : o = a.length) : mt s l o = search s x a.length := by
  subst hl ho
  have h : ¬ ((a.length : Int) < 0) := by omega
  simp [mt, h]

/-- The first byte of the set is found. -/
theorem mt_hit (s : UInt8 → Bool) (l a m x : List UInt8) (c : UInt8) (o r : Int)
    (hl : l = a ++ (m ++ c :: x)) (ho : o = a.length) (hr : r = a.length + m.length)
    (hm : ∀ y ∈ m, s y = false) (hc : s c = true) : mt s l o = r := by
  rw [mt_at s l a _ o hl ho, search_skip s m _ _ hm, search, if_pos hc, hr]; simp

/-- No byte of the set is there. -/
theorem mt_miss (s : UInt8 → Bool) (l a x : List UInt8) (o : Int)
    (hl : l = a ++ x) (ho : o = a.length) (hm : ∀ y ∈ x, s y = false) : mt s l o = -2 := by
  rw [mt_at s l a _ o hl ho, search_none s x _ hm]

/-- The first byte of the set is in a part of the line. -/
theorem mt_within (s : UInt8 → Bool) (l a m b x : List UInt8) (o : Int)
    (hl : l = a ++ (m ++ (b ++ x))) (ho : o = a.length)
    (hm : ∀ y ∈ m, s y = false) (hb : ∃ c ∈ b, s c = true) :
    (a.length + m.length : Int) ≤ mt s l o ∧ mt s l o < a.length + m.length + b.length := by
  rw [mt_at s l a _ o hl ho, search_skip s m _ _ hm]
  have := search_within s b x (a.length + m.length) hb
  push_cast at this; exact this

theorem search_ge (s : UInt8 → Bool) (x : List UInt8) (i : Nat) :
    search s x i = -2 ∨ (i : Int) ≤ search s x i := by
  induction x generalizing i with
  | nil => simp [search]
  | cons c x ih =>
    rw [search]; split_ifs
    · right; omega
    · rcases ih (i + 1) with h | h
      · exact .inl h
      · right; push_cast at h; omega

/-- A byte of the set is not before a place. -/
theorem mt_after (s : UInt8 → Bool) (l a m x : List UInt8) (o r : Int)
    (hl : l = a ++ (m ++ x)) (ho : o = a.length) (hr : r = a.length + m.length)
    (hm : ∀ y ∈ m, s y = false) : mt s l o = -2 ∨ r ≤ mt s l o := by
  rw [mt_at s l a _ o hl ho, search_skip s m _ _ hm, hr]
  exact_mod_cast search_ge s x _

theorem takeWhile_stop (s : UInt8 → Bool) (a : List UInt8) (c : UInt8) (x : List UInt8)
    (ha : ∀ y ∈ a, s y = true) (hc : s c = false) :
    (a ++ c :: x).takeWhile s = a := by
  induction a with
  | nil => simp [hc]
  | cons d a ih =>
    rw [List.cons_append, List.takeWhile_cons, if_pos (ha d (by simp)),
      ih fun y hy => ha y (by simp [hy])]

/-- The end of a word. -/
theorem wordEnd_eq (l a w x : List UInt8) (d c : UInt8) (p r : Int)
    (hl : l = a ++ (d :: w ++ c :: x)) (hp : p = a.length) (hr : r = a.length + w.length)
    (hw : ∀ y ∈ w, an y = true) (hc : an c = false) : wordEnd l p = r := by
  subst hl hp hr
  have e : (a ++ (d :: w ++ c :: x)).drop ((a.length : Int) + 1).toNat = w ++ c :: x := by
    have : ((a.length : Int) + 1).toNat = a.length + 1 := by omega
    rw [this, List.drop_append]
    simp
  rw [wordEnd, e, takeWhile_stop an w c x hw hc]

/-- A part of the line. -/
theorem substr_eq (l a w x : List UInt8) (s n : Int) (hl : l = a ++ (w ++ x)) (hs : s = a.length)
    (hn : n = w.length) (hx : x ≠ []) (h : w.length < 256) : substr l s n = some w := by
  subst hl hs hn
  have := List.length_pos_iff.2 hx
  rw [substr, if_neg]
  · simp
  · simp only [List.length_append]; push_cast; omega

/-- A byte that is in one set is not in another. -/
theorem apart {c d : UInt8} {f : UInt8 → Bool} (h : f c = true) (hd : f d = false) :
    decide (c = d) = false := by
  by_cases e : c = d
  · subst e; rw [h] at hd; cases hd
  · simpa using e

open Spec.MaraRc

theorem word_an {c : UInt8} (h : wordByte c = true) : an c = true := by
  simp only [wordByte, an, digit, Bool.or_eq_true] at *
  tauto

theorem num_an {c : UInt8} (h : numByte c = true) : an c = true := by
  simp only [numByte, an, digit, Bool.or_eq_true] at *
  tauto

theorem num_digit {c : UInt8} (h : numByte c = true) : digit c = true := h

/-- The sets a byte is in that is none of a few special ones. -/
structure Plain (c : UInt8) : Prop where
  quote : quote c = false
  equal : equal c = false
  plus : plus c = false
  hash : hash c = false
  bslash : bslash c = false
  left : left c = false
  right : right c = false
  cleft : cleft c = false
  cright : cright c = false
  all : (!all c) = false

theorem an_plain {c : UInt8} (h : an c = true) : Plain c where
  quote := apart h (by decide)
  equal := apart h (by decide)
  plus := apart h (by decide)
  hash := apart h (by decide)
  bslash := apart h (by decide)
  left := apart h (by decide)
  right := apart h (by decide)
  cleft := apart h (by decide)
  cright := apart h (by decide)
  all := by simp [Rc.all, h]

theorem pad_cases {c : UInt8} (h : padByte c = true) : c = 32 ∨ c = 9 := by
  simpa [padByte] using h

theorem pad_plain {c : UInt8} (h : padByte c = true) :
    Plain c ∧ an c = false ∧ digit c = false ∧ (!rest c) = false ∧ (!blank c) = false := by
  rcases pad_cases h with rfl | rfl <;> exact ⟨⟨by decide, by decide, by decide, by decide,
    by decide, by decide, by decide, by decide, by decide, by decide⟩, by decide, by decide,
    by decide, by decide⟩

theorem text_cases {c : UInt8} (h : textByte c = true) :
    quote c = false ∧ plus c = false ∧ left c = false ∧ bslash c = false := by
  simp only [textByte, Bool.and_eq_true, decide_eq_true_eq] at h
  simp [quote, plus, left, bslash, h]

theorem key_cases {c : UInt8} (h : keyByte c = true) :
    quote c = false ∧ plus c = false ∧ left c = false ∧ bslash c = false ∧ right c = false ∧
      equal c = false := by
  simp only [keyByte, Bool.and_eq_true, decide_eq_true_eq] at h
  obtain ⟨⟨h1, h2⟩, h3⟩ := h
  have := text_cases h1
  simp [this, right, equal, h2, h3]

/-- A byte that cannot be a blank. -/
theorem an_nblank {c : UInt8} (h : an c = true) : (!blank c) = true := by
  have h1 := apart h (d := 32) (by decide)
  have h2 := apart h (d := 9) (by decide)
  have h3 := apart h (d := 160) (by decide)
  have h4 := apart h (d := 13) (by decide)
  have h5 := apart h (d := 10) (by decide)
  simp [blank, space, newline, h1, h2, h3, h4, h5]

/-- The sets a blank is in. -/
theorem pads {p : List UInt8} (h : p.all padByte = true) : ∀ c ∈ p,
    quote c = false ∧ equal c = false ∧ plus c = false ∧ hash c = false ∧ bslash c = false ∧
    left c = false ∧ right c = false ∧ cleft c = false ∧ cright c = false ∧
    (!all c) = false ∧ an c = false ∧ digit c = false ∧ (!rest c) = false ∧
    (!blank c) = false := by
  intro c hc
  obtain ⟨p, q⟩ := pad_plain (List.all_eq_true.1 h c hc)
  exact ⟨p.quote, p.equal, p.plus, p.hash, p.bslash, p.left, p.right, p.cleft, p.cright, p.all,
    q⟩

/-- The sets a letter is in. -/
theorem words {p : List UInt8} (h : ∀ c ∈ p, an c = true) : ∀ c ∈ p,
    quote c = false ∧ equal c = false ∧ plus c = false ∧ hash c = false ∧ bslash c = false ∧
    left c = false ∧ right c = false ∧ cleft c = false ∧ cright c = false ∧
    (!all c) = false := by
  intro c hc
  have p := an_plain (h c hc)
  exact ⟨p.quote, p.equal, p.plus, p.hash, p.bslash, p.left, p.right, p.cleft, p.cright, p.all⟩

theorem texts {p : List UInt8} (h : p.all textByte = true) : ∀ c ∈ p,
    quote c = false ∧ plus c = false ∧ left c = false ∧ bslash c = false :=
  fun c hc => text_cases (List.all_eq_true.1 h c hc)

theorem keys {p : List UInt8} (h : p.all keyByte = true) : ∀ c ∈ p,
    quote c = false ∧ plus c = false ∧ left c = false ∧ bslash c = false ∧ right c = false ∧
      equal c = false :=
  fun c hc => key_cases (List.all_eq_true.1 h c hc)

/-- The end of a line. -/
theorem tails {y : Layout} (h : y.Ok) : ∀ c ∈ y.tail,
    quote c = false ∧ plus c = false ∧ left c = false ∧ bslash c = false := by
  intro c hc
  obtain ⟨-, -, -, -, h⟩ := h
  cases e : y.comment with
  | none =>
    simp only [Layout.tail, e, List.mem_singleton] at hc
    subst hc; decide
  | some m =>
    simp only [Layout.tail, e, List.cons_append, List.mem_cons, List.mem_append,
      List.not_mem_nil, or_false] at hc
    rcases hc with rfl | hc | rfl
    · decide
    · exact texts (h m (by simp [e])) c hc
    · decide

theorem tail_search (s : UInt8 → Bool) (y : Layout) (i : Nat) (h1 : s 35 = true)
    (h2 : s 10 = false) : search s y.tail i = if y.comment = none then -2 else (i : Int) := by
  cases e : y.comment with
  | none => simp [Layout.tail, e, search, h2]
  | some m => simp [Layout.tail, e, search, h1]

theorem tail_length (y : Layout) (h : y.comment = none) : y.tail.length = 1 := by
  simp [Layout.tail, h]

theorem tail_cons (y : Layout) : ∃ c x, y.tail = c :: x ∧ an c = false := by
  cases e : y.comment with
  | none => exact ⟨10, [], by simp [Layout.tail, e], by decide⟩
  | some m => exact ⟨35, m ++ [10], by simp [Layout.tail, e], by decide⟩

/-- Where the comment begins: one past the end of the line if there is none. -/
def hashPos (y : Layout) (l : List UInt8) : Int :=
  if y.comment = none then l.length + 1 else l.length - y.tail.length

theorem mt_tail (s : UInt8 → Bool) (y : Layout) (l a m : List UInt8) (o : Int)
    (hl : l = a ++ (m ++ y.tail)) (ho : o = a.length) (hm : ∀ c ∈ m, s c = false)
    (h1 : s 35 = true) (h2 : s 10 = false) :
    mt s l o = if y.comment = none then -2 else (l.length - y.tail.length : Int) := by
  rw [mt_at s l a _ o hl ho, search_skip s m _ _ hm, tail_search s y _ h1 h2]
  split_ifs
  · rfl
  · rw [hl]; simp only [List.length_append]; push_cast; omega

end Mara.Rc
