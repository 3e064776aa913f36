import Verif.Deadwood.MararcStates
/-!
# What each state of the `dwood3rc` automaton accepts
-/

namespace Dw
namespace Rc

open Spec.Rc

theorem all_nil (P : UInt8 → Prop) : All P [] := by simp [All]

theorem all_cons {P : UInt8 → Prop} {c : UInt8} {l : List UInt8} : All P (c :: l) ↔ P c ∧ All P l := by
  simp [All]

/-- Characters on which the automaton stays where it is. -/
theorem loop_join {s : Nat} {P : UInt8 → Prop} {f : Acts → UInt8 → Acts}
    (h : ∀ c, P c → ∀ A l, acc s A (c :: l) = acc s (f A c) l) :
    ∀ (w : List UInt8) (A : Acts) (l : List UInt8), All P w → acc s A (w ++ l) = acc s (w.foldl f A) l
  | [], _, _, _ => rfl
  | c :: w, A, l, hw => by
    rw [all_cons] at hw
    rw [List.cons_append, h c hw.1, loop_join h w _ _ hw.2]
    rfl

theorem loop_split {s : Nat} {P : UInt8 → Prop} [DecidablePred P] {f : Acts → UInt8 → Acts}
    (h : ∀ c, P c → ∀ A l, acc s A (c :: l) = acc s (f A c) l) :
    ∀ (l : List UInt8) (A : Acts) (r : Acts × List UInt8), acc s A l = some r →
      ∃ w c t, l = w ++ c :: t ∧ All P w ∧ ¬ P c ∧ acc s (w.foldl f A) (c :: t) = some r
  | [], _, _, hr => by simp [acc] at hr
  | c :: l, A, r, hr => by
    by_cases hc : P c
    · rw [h c hc] at hr
      obtain ⟨w, d, t, h1, h2, h3, h4⟩ := loop_split h l _ r hr
      exact ⟨c :: w, d, t, by rw [h1]; rfl, all_cons.2 ⟨hc, h2⟩, h3, h4⟩
    · exact ⟨[], c, l, rfl, all_nil _, hc, hr⟩

/-- Several bytes added to one string. -/
def addAll (w : List UInt8) (o : Option (List UInt8)) : Option (List UInt8) :=
  w.foldl (fun o c => addTo c o) o

theorem addTo_some {c : UInt8} {x : List UInt8} : addTo c (some (x.take 383)) = some ((x ++ [c]).take 383) := by
  simp only [addTo, Option.getD_some, List.length_take, Option.some.injEq]
  by_cases h : x.length < 383
  · rw [if_pos (by omega), List.take_of_length_le (by omega), List.take_of_length_le (by simp; omega)]
  · rw [if_neg (by omega), List.take_append_of_le_length (by omega)]

theorem addAll_some : ∀ (w x : List UInt8), addAll w (some (x.take 383)) = some ((x ++ w).take 383)
  | [], x => by simp [addAll]
  | c :: w, x => by
    show addAll w (addTo c (some (x.take 383))) = _
    rw [addTo_some, addAll_some w]
    simp

theorem addAll_none {w : List UInt8} (h : w ≠ []) : addAll w none = some (w.take 383) := by
  cases w with
  | nil => exact absurd rfl h
  | cons c w =>
    show addAll w (addTo c none) = _
    have : addTo c none = some ([c].take 383) := by simp [addTo]
    rw [this, addAll_some]
    rfl

theorem foldl_id (w : List UInt8) (A : Acts) : w.foldl (fun (a : Acts) _ => a) A = A := by
  induction w with
  | nil => rfl
  | cons _ _ ih => simpa using ih

theorem foldl_name : ∀ (w : List UInt8) (A : Acts),
    w.foldl (fun (a : Acts) c => { a with name := addTo c a.name }) A = { A with name := addAll w A.name }
  | [], _ => rfl
  | c :: w, A => by rw [List.foldl_cons, foldl_name w]; rfl

theorem foldl_key : ∀ (w : List UInt8) (A : Acts),
    w.foldl (fun (a : Acts) c => { a with key := addTo c a.key }) A = { A with key := addAll w A.key }
  | [], _ => rfl
  | c :: w, A => by rw [List.foldl_cons, foldl_key w]; rfl

theorem foldl_str : ∀ (w : List UInt8) (A : Acts),
    w.foldl (fun (a : Acts) c => { a with str := addTo c a.str }) A = { A with str := addAll w A.str }
  | [], _ => rfl
  | c :: w, A => by rw [List.foldl_cons, foldl_str w]; rfl

theorem foldl_num : ∀ (w : List UInt8) (A : Acts),
    w.foldl (fun (a : Acts) c => { a with num := addTo c a.num }) A = { A with num := addAll w A.num }
  | [], _ => rfl
  | c :: w, A => by rw [List.foldl_cons, foldl_num w]; rfl

theorem foldl_file : ∀ (w : List UInt8) (A : Acts),
    w.foldl (fun (a : Acts) c => { a with file := addTo c a.file }) A = { A with file := addAll w A.file }
  | [], _ => rfl
  | c :: w, A => by rw [List.foldl_cons, foldl_file w]; rfl

/-! ## The loops -/

theorem blank_not {c : UInt8} (h : blank c) : ¬ letter c ∧ ¬ alnum c ∧ ¬ digit c ∧ c ≠ 35 ∧ c ≠ 95 := by
  rcases h with rfl | rfl <;> decide

theorem digit_not : ∀ c : UInt8, digit c → ¬ blank c := byte_all (by decide +kernel)

theorem stay0 (c : UInt8) (h : blank c) (A : Acts) (l : List UInt8) : acc 0 A (c :: l) = acc 0 A l := by
  have := blank_not h
  rw [acc0, if_neg this.2.2.2.1, if_neg this.1, if_pos h]

theorem stay1 (c : UInt8) (h : any c) (A : Acts) (l : List UInt8) : acc 1 A (c :: l) = acc 1 A l := by
  rw [acc1, if_pos h]

theorem stay2 (c : UInt8) (h : alnum c ∨ c = 95) (A : Acts) (l : List UInt8) :
    acc 2 A (c :: l) = acc 2 { A with name := addTo c A.name } l := by
  rw [acc2, if_pos h]

theorem stay3 (c : UInt8) (h : blank c) (A : Acts) (l : List UInt8) : acc 3 A (c :: l) = acc 3 A l := by
  rw [acc3, if_pos h]

theorem stay4 (c : UInt8) (h : blank c) (A : Acts) (l : List UInt8) : acc 4 A (c :: l) = acc 4 A l := by
  rw [acc4, if_pos h]

theorem stay5 (c : UInt8) (h : blank c) (A : Acts) (l : List UInt8) : acc 5 A (c :: l) = acc 5 A l := by
  rw [acc5, if_pos h]

theorem stay7 (c : UInt8) (h : digit c) (A : Acts) (l : List UInt8) :
    acc 7 A (c :: l) = acc 7 { A with num := addTo c A.num } l := by
  rw [acc7, if_pos h]

theorem stay10 (c : UInt8) (h : blank c) (A : Acts) (l : List UInt8) : acc 10 A (c :: l) = acc 10 A l := by
  rw [acc10, if_pos h]

theorem stay12 (c : UInt8) (h : inString c) (A : Acts) (l : List UInt8) :
    acc 12 A (c :: l) = acc 12 { A with str := addTo c A.str } l := by
  rw [acc12, if_pos h]

theorem stay15 (c : UInt8) (h : alnum c ∨ c = 45 ∨ c = 46 ∨ c = 95) (A : Acts) (l : List UInt8) :
    acc 15 A (c :: l) = acc 15 { A with key := addTo c A.key } l := by
  rw [acc15, if_pos h]

theorem stay16 (c : UInt8) (h : blank c) (A : Acts) (l : List UInt8) : acc 16 A (c :: l) = acc 16 A l := by
  rw [acc16, if_pos h]

theorem stay17 (c : UInt8) (h : blank c) (A : Acts) (l : List UInt8) : acc 17 A (c :: l) = acc 17 A l := by
  rw [acc17, if_pos h]

theorem stay18 (c : UInt8) (h : blank c) (A : Acts) (l : List UInt8) : acc 18 A (c :: l) = acc 18 A l := by
  rw [acc18, if_pos h]

theorem stay21 (c : UInt8) (h : inString c) (A : Acts) (l : List UInt8) :
    acc 21 A (c :: l) = acc 21 { A with str := addTo c A.str } l := by
  rw [acc21, if_pos h]

theorem stay25 (c : UInt8) (h : inString c) (A : Acts) (l : List UInt8) :
    acc 25 A (c :: l) = acc 25 { A with file := addTo c A.file } l := by
  rw [acc25, if_pos h]

theorem stay32 (c : UInt8) (h : c ≠ 125 ∧ (any c ∨ c = 10 ∨ c = 13)) (A : Acts) (l : List UInt8) :
    acc 32 A (c :: l) = acc 32 A l := by
  rw [acc32, if_neg h.1]
  rcases h.2 with h | h | h
  · rw [if_pos h]
  · rw [if_neg (by subst h; decide), if_pos h]
  · rw [if_neg (by subst h; decide), if_neg (by subst h; decide), if_pos h]

/-! ## What is accepted -/

variable {A A' : Acts} {l r : List UInt8}

theorem from41 (h : acc 41 A l = some (A', r)) : A' = A ∧ l = 10 :: r := by
  cases l with
  | nil => simp [acc] at h
  | cons c l =>
    rw [acc41] at h
    split at h
    · rename_i hc
      cases h
      exact ⟨rfl, by rw [hc]⟩
    · cases h

theorem from1 (h : acc 1 A l = some (A', r)) :
    A' = A ∧ ∃ t e, All any t ∧ (e = [10] ∨ e = [13, 10]) ∧ l = t ++ (e ++ r) := by
  obtain ⟨w, c, t, rfl, hw, hc, h⟩ := loop_split (P := any) (f := fun a _ => a) stay1 l A _ h
  rw [foldl_id, acc1, if_neg hc] at h
  split_ifs at h with h1 h2
  · obtain ⟨h3, h4⟩ := from41 h
    exact ⟨h3, w, [13, 10], hw, Or.inr rfl, by rw [h1, h4]; rfl⟩
  · cases h
    exact ⟨rfl, w, [10], hw, Or.inl rfl, by rw [h2]; rfl⟩

/-- The exits of the states in which a line may end. -/
theorem fromTail {c : UInt8} {w t : List UInt8} (hw : All blank w)
    (h : (if c = 35 then acc 1 A t else if c = 13 then acc 41 A t else if c = 10 then some (A, t) else none) =
      some (A', r)) : A' = A ∧ ∃ e, End e ∧ w ++ c :: t = e ++ r := by
  split_ifs at h with h1 h2 h3
  · obtain ⟨h4, x, e, hx, he, hl⟩ := from1 h
    exact ⟨h4, w ++ (35 :: x ++ e), ⟨w, 35 :: x, e, hw, Or.inr ⟨x, rfl, hx⟩, he, rfl⟩, by
      rw [h1, hl]; simp⟩
  · obtain ⟨h4, h5⟩ := from41 h
    exact ⟨h4, w ++ ([] ++ [13, 10]), ⟨w, [], [13, 10], hw, Or.inl rfl, Or.inr rfl, rfl⟩, by
      rw [h2, h5]; simp⟩
  · cases h
    exact ⟨rfl, w ++ ([] ++ [10]), ⟨w, [], [10], hw, Or.inl rfl, Or.inl rfl, rfl⟩, by
      rw [h3]; simp⟩

theorem from10 (h : acc 10 A l = some (A', r)) : A' = A ∧ ∃ e, End e ∧ l = e ++ r := by
  obtain ⟨w, c, t, rfl, hw, hc, h⟩ := loop_split (P := blank) (f := fun a _ => a) stay10 l A _ h
  rw [foldl_id, acc10, if_neg hc] at h
  exact fromTail hw h

theorem from7 (h : acc 7 A l = some (A', r)) :
    ∃ d e, All digit d ∧ End e ∧ l = d ++ (e ++ r) ∧ A' = { A with num := addAll d A.num } := by
  obtain ⟨w, c, t, rfl, hw, hc, h⟩ :=
    loop_split (P := digit) (f := fun a c => { a with num := addTo c a.num }) stay7 l A _ h
  rw [foldl_num, acc7, if_neg hc] at h
  by_cases hb : blank c
  · rw [if_pos hb] at h
    have h' : acc 10 { A with num := addAll w A.num } (c :: t) = some (A', r) := by
      rw [stay10 c hb]; exact h
    obtain ⟨h1, e, he, hl⟩ := from10 h'
    exact ⟨w, e, hw, he, by rw [hl], h1⟩
  · rw [if_neg hb] at h
    obtain ⟨h1, e, he, hl⟩ := fromTail (w := []) (all_nil _) h
    refine ⟨w, e, hw, he, ?_, h1⟩
    rw [← hl]; rfl

theorem from12 (h : acc 12 A l = some (A', r)) :
    ∃ s e, All inString s ∧ End e ∧ l = s ++ (34 :: (e ++ r)) ∧ A' = { A with str := addAll s A.str } := by
  obtain ⟨w, c, t, rfl, hw, hc, h⟩ :=
    loop_split (P := inString) (f := fun a c => { a with str := addTo c a.str }) stay12 l A _ h
  rw [foldl_str, acc12, if_neg hc] at h
  split_ifs at h with h1
  obtain ⟨h2, e, he, hl⟩ := from10 h
  exact ⟨w, e, hw, he, by rw [h1, hl], h2⟩

theorem from21 (h : acc 21 A l = some (A', r)) :
    ∃ s e, All inString s ∧ End e ∧ l = s ++ (34 :: (e ++ r)) ∧ A' = { A with str := addAll s A.str } := by
  obtain ⟨w, c, t, rfl, hw, hc, h⟩ :=
    loop_split (P := inString) (f := fun a c => { a with str := addTo c a.str }) stay21 l A _ h
  rw [foldl_str, acc21, if_neg hc] at h
  split_ifs at h with h1
  obtain ⟨h2, e, he, hl⟩ := from10 h
  exact ⟨w, e, hw, he, by rw [h1, hl], h2⟩

theorem from8 (h : acc 8 A l = some (A', r)) :
    ∃ s e, s ≠ [] ∧ All inString s ∧ End e ∧ l = s ++ (34 :: (e ++ r)) ∧
      A' = { A with str := addAll s A.str } := by
  cases l with
  | nil => simp [acc] at h
  | cons c l =>
    rw [acc8] at h
    split_ifs at h with h1
    obtain ⟨s, e, hs, he, hl, hA⟩ := from12 h
    exact ⟨c :: s, e, by simp, all_cons.2 ⟨h1, hs⟩, he, by rw [hl]; rfl, hA⟩

theorem from20 (h : acc 20 A l = some (A', r)) :
    ∃ s e, s ≠ [] ∧ All inString s ∧ End e ∧ l = s ++ (34 :: (e ++ r)) ∧
      A' = { A with str := addAll s A.str } := by
  cases l with
  | nil => simp [acc] at h
  | cons c l =>
    rw [acc20] at h
    split_ifs at h with h1
    obtain ⟨s, e, hs, he, hl, hA⟩ := from21 h
    exact ⟨c :: s, e, by simp, all_cons.2 ⟨h1, hs⟩, he, by rw [hl]; rfl, hA⟩

theorem from22 (h : acc 22 A l = some (A', r)) : A' = A ∧ ∃ e, End e ∧ l = 125 :: (e ++ r) := by
  cases l with
  | nil => simp [acc] at h
  | cons c l =>
    rw [acc22] at h
    split_ifs at h with h1
    obtain ⟨h2, e, he, hl⟩ := from10 h
    exact ⟨h2, e, he, by rw [h1, hl]⟩

/-- The strings after a value. -/
def withValue (A : Acts) : Value → Acts
  | .num d => { A with num := addAll d A.num }
  | .str s => { A with str := addAll s A.str }
  | .empty => { A with brace := addTo 123 A.brace }

theorem from4 (h : acc 4 A l = some (A', r)) :
    ∃ w v x e, All blank w ∧ Value.Text v x ∧ End e ∧ l = w ++ (x ++ (e ++ r)) ∧ A' = withValue A v := by
  obtain ⟨w, c, t, rfl, hw, hc, h⟩ := loop_split (P := blank) (f := fun a _ => a) stay4 l A _ h
  rw [foldl_id, acc4, if_neg hc] at h
  split_ifs at h with h1 h2 h3
  · obtain ⟨d, e, hd, he, hl, hA⟩ := from7 h
    exact ⟨w, .num (c :: d), c :: d, e, hw, ⟨rfl, by simp, all_cons.2 ⟨h1, hd⟩⟩, he, by rw [hl]; rfl, hA⟩
  · obtain ⟨s, e, hs0, hs, he, hl, hA⟩ := from8 h
    exact ⟨w, .str s, 34 :: (s ++ [34]), e, hw, ⟨rfl, hs0, hs⟩, he, by rw [h2, hl]; simp, hA⟩
  · obtain ⟨hA, e, he, hl⟩ := from22 h
    subst h3
    exact ⟨w, .empty, [123, 125], e, hw, rfl, he, by rw [hl]; rfl, hA⟩

theorem from6 (h : acc 6 A l = some (A', r)) :
    ∃ t, l = 61 :: t ∧ acc 4 { A with plus := addTo 61 A.plus } t = some (A', r) := by
  cases l with
  | nil => simp [acc] at h
  | cons c l =>
    rw [acc6] at h
    split_ifs at h with h1
    subst h1
    exact ⟨l, rfl, h⟩

theorem from18 (h : acc 18 A l = some (A', r)) :
    ∃ w s e, All blank w ∧ s ≠ [] ∧ All inString s ∧ End e ∧ l = w ++ (34 :: (s ++ (34 :: (e ++ r)))) ∧
      A' = { A with str := addAll s A.str } := by
  obtain ⟨w, c, t, rfl, hw, hc, h⟩ := loop_split (P := blank) (f := fun a _ => a) stay18 l A _ h
  rw [foldl_id, acc18, if_neg hc] at h
  split_ifs at h with h1
  obtain ⟨s, e, h0, hs, he, hl, hA⟩ := from20 h
  exact ⟨w, s, e, hw, h0, hs, he, by rw [h1, hl], hA⟩

theorem from19 (h : acc 19 A l = some (A', r)) :
    ∃ t, l = 61 :: t ∧ acc 18 { A with plus := addTo 61 A.plus } t = some (A', r) := by
  cases l with
  | nil => simp [acc] at h
  | cons c l =>
    rw [acc19] at h
    split_ifs at h with h1
    subst h1
    exact ⟨l, rfl, h⟩

/-- The mark of `+=`. -/
def withPlus (A : Acts) (plus : Bool) : Acts := if plus then { A with plus := addTo 61 A.plus } else A

theorem from17 (h : acc 17 A l = some (A', r)) :
    ∃ w4 plus w5 s e, All blank w4 ∧ All blank w5 ∧ s ≠ [] ∧ All inString s ∧ End e ∧
      l = w4 ++ (eq plus ++ (w5 ++ (34 :: (s ++ (34 :: (e ++ r)))))) ∧
      A' = { withPlus A plus with str := addAll s (withPlus A plus).str } := by
  obtain ⟨w, c, t, rfl, hw, hc, h⟩ := loop_split (P := blank) (f := fun a _ => a) stay17 l A _ h
  rw [foldl_id, acc17, if_neg hc] at h
  split_ifs at h with h1 h2
  · obtain ⟨w5, s, e, hw5, h0, hs, he, hl, hA⟩ := from18 h
    exact ⟨w, false, w5, s, e, hw, hw5, h0, hs, he, by rw [h1, hl]; rfl, hA⟩
  · obtain ⟨t', ht, h⟩ := from19 h
    obtain ⟨w5, s, e, hw5, h0, hs, he, hl, hA⟩ := from18 h
    exact ⟨w, true, w5, s, e, hw, hw5, h0, hs, he, by rw [h2, ht, hl]; rfl, hA⟩

/-- What follows the key. -/
def AfterKey (A A' : Acts) (l r : List UInt8) : Prop :=
  ∃ w3 w4 plus w5 s e, All blank w3 ∧ All blank w4 ∧ All blank w5 ∧ s ≠ [] ∧ All inString s ∧ End e ∧
    l = w3 ++ (93 :: (w4 ++ (eq plus ++ (w5 ++ (34 :: (s ++ (34 :: (e ++ r)))))))) ∧
    A' = { withPlus A plus with str := addAll s (withPlus A plus).str }

theorem from16 (h : acc 16 A l = some (A', r)) : AfterKey A A' l r := by
  obtain ⟨w, c, t, rfl, hw, hc, h⟩ := loop_split (P := blank) (f := fun a _ => a) stay16 l A _ h
  rw [foldl_id, acc16, if_neg hc] at h
  split_ifs at h with h1
  obtain ⟨w4, plus, w5, s, e, h4, h5, h0, hs, he, hl, hA⟩ := from17 h
  exact ⟨w, w4, plus, w5, s, e, hw, h4, h5, h0, hs, he, by rw [h1, hl], hA⟩

theorem from15 (h : acc 15 A l = some (A', r)) :
    ∃ k t, All (fun c => alnum c ∨ c = 45 ∨ c = 46 ∨ c = 95) k ∧ l = k ++ (34 :: t) ∧
      AfterKey { A with key := addAll k A.key } A' t r := by
  obtain ⟨w, c, t, rfl, hw, hc, h⟩ :=
    loop_split (P := fun c => alnum c ∨ c = 45 ∨ c = 46 ∨ c = 95)
      (f := fun a c => { a with key := addTo c a.key }) stay15 l A _ h
  rw [foldl_key, acc15, if_neg hc] at h
  split_ifs at h with h1
  exact ⟨w, t, hw, by rw [h1], from16 h⟩

theorem from13 (h : acc 13 A l = some (A', r)) :
    ∃ k t, Key k ∧ l = k ++ (34 :: t) ∧ AfterKey { A with key := addAll k A.key } A' t r := by
  cases l with
  | nil => simp [acc] at h
  | cons c l =>
    rw [acc13] at h
    have go : (alnum c ∨ c = 45 ∨ c = 95) → acc 15 { A with key := addTo c A.key } l = some (A', r) →
        ∃ k t, Key k ∧ c :: l = k ++ (34 :: t) ∧ AfterKey { A with key := addAll k A.key } A' t r := by
      intro hc h
      obtain ⟨k, t, hk, hl, ha⟩ := from15 h
      exact ⟨c :: k, t, Or.inr ⟨c, k, rfl, hc, hk⟩, by rw [hl]; rfl, ha⟩
    split_ifs at h with h1 h2 h3 h4
    · cases l with
      | nil => simp [acc] at h
      | cons d l =>
        rw [acc14] at h
        split_ifs at h with h5
        subst h1; subst h5
        exact ⟨[46], l, Or.inl rfl, rfl, from16 h⟩
    · exact go (Or.inl h2) h
    · exact go (Or.inr (Or.inl h3)) h
    · exact go (Or.inr (Or.inr h4)) h

theorem from5 (h : acc 5 A l = some (A', r)) :
    ∃ w2 k t, All blank w2 ∧ Key k ∧ l = w2 ++ (34 :: (k ++ (34 :: t))) ∧
      AfterKey { A with key := addAll k A.key } A' t r := by
  obtain ⟨w, c, t, rfl, hw, hc, h⟩ := loop_split (P := blank) (f := fun a _ => a) stay5 l A _ h
  rw [foldl_id, acc5, if_neg hc] at h
  split_ifs at h with h1
  obtain ⟨k, t', hk, hl, ha⟩ := from13 h
  exact ⟨w, k, t', hw, hk, by rw [h1, hl], ha⟩

theorem from25 (h : acc 25 A l = some (A', r)) :
    ∃ f e, All inString f ∧ End e ∧ l = f ++ (34 :: 41 :: (e ++ r)) ∧ A' = { A with file := addAll f A.file } := by
  obtain ⟨w, c, t, rfl, hw, hc, h⟩ :=
    loop_split (P := inString) (f := fun a c => { a with file := addTo c a.file }) stay25 l A _ h
  rw [foldl_file, acc25, if_neg hc] at h
  split_ifs at h with h1
  cases t with
  | nil => simp [acc] at h
  | cons d t =>
    rw [acc26] at h
    split_ifs at h with h2
    obtain ⟨h3, e, he, hl⟩ := from10 h
    exact ⟨w, e, hw, he, by rw [h1, h2, hl], h3⟩

/-- What may follow a name and blanks. -/
def AfterName (A A' : Acts) (l r : List UInt8) : Prop :=
  (∃ w1 plus w2 v x e, All blank w1 ∧ All blank w2 ∧ Value.Text v x ∧ End e ∧
    l = w1 ++ (eq plus ++ (w2 ++ (x ++ (e ++ r)))) ∧ A' = withValue (withPlus A plus) v) ∨
  (∃ w1 w2 k t, All blank w1 ∧ All blank w2 ∧ Key k ∧ l = w1 ++ (91 :: (w2 ++ (34 :: (k ++ (34 :: t))))) ∧
    AfterKey { A with key := addAll k A.key } A' t r)

theorem afterName_exits {c : UInt8} {w t : List UInt8} (hw : All blank w)
    (h : (if c = 61 then acc 4 A t else if c = 91 then acc 5 A t else if c = 43 then acc 6 A t else none) =
      some (A', r)) : AfterName A A' (w ++ c :: t) r := by
  split_ifs at h with h1 h2 h3
  · obtain ⟨w2, v, x, e, hw2, hv, he, hl, hA⟩ := from4 h
    exact Or.inl ⟨w, false, w2, v, x, e, hw, hw2, hv, he, by rw [h1, hl]; rfl, hA⟩
  · obtain ⟨w2, k, t', hw2, hk, hl, ha⟩ := from5 h
    exact Or.inr ⟨w, w2, k, t', hw, hw2, hk, by rw [h2, hl], ha⟩
  · obtain ⟨t', ht, h⟩ := from6 h
    obtain ⟨w2, v, x, e, hw2, hv, he, hl, hA⟩ := from4 h
    exact Or.inl ⟨w, true, w2, v, x, e, hw, hw2, hv, he, by rw [h3, ht, hl]; rfl, hA⟩

theorem from3 (h : acc 3 A l = some (A', r)) : AfterName A A' l r := by
  obtain ⟨w, c, t, rfl, hw, hc, h⟩ := loop_split (P := blank) (f := fun a _ => a) stay3 l A _ h
  rw [foldl_id, acc3, if_neg hc] at h
  exact afterName_exits hw h

theorem from2 (h : acc 2 A l = some (A', r)) :
    ∃ n t, All (fun c => alnum c ∨ c = 95) n ∧ l = n ++ t ∧
      (AfterName { A with name := addAll n A.name } A' t r ∨
        ∃ f e, All inString f ∧ End e ∧ t = 40 :: 34 :: (f ++ (34 :: 41 :: (e ++ r))) ∧
          A' = { A with name := addAll n A.name, file := addAll f A.file }) := by
  obtain ⟨w, c, t, rfl, hw, hc, h⟩ :=
    loop_split (P := fun c => alnum c ∨ c = 95)
      (f := fun a c => { a with name := addTo c a.name }) stay2 l A _ h
  rw [foldl_name, acc2, if_neg hc] at h
  refine ⟨w, c :: t, hw, rfl, ?_⟩
  by_cases hb : blank c
  · rw [if_pos hb] at h
    exact Or.inl (from3 (by rw [stay3 c hb]; exact h))
  · rw [if_neg hb] at h
    by_cases h40 : c = 40
    · subst h40
      rw [if_neg (by decide), if_neg (by decide), if_neg (by decide), if_pos rfl] at h
      cases t with
      | nil => simp [acc] at h
      | cons d t =>
        rw [acc24] at h
        split_ifs at h with h1
        obtain ⟨f, e, hf, he, hl, hA⟩ := from25 h
        exact Or.inr ⟨f, e, hf, he, by rw [h1, hl], hA⟩
    · rw [if_neg h40] at h
      exact Or.inl (afterName_exits (w := []) (all_nil _) h)

theorem one {s n : Nat} {x : UInt8} (ht : ∀ A c l, acc s A (c :: l) = if c = x then acc n A l else none)
    (h : acc s A l = some (A', r)) : ∃ t, l = x :: t ∧ acc n A t = some (A', r) := by
  cases l with
  | nil => simp [acc] at h
  | cons c l =>
    rw [ht] at h
    split_ifs at h with h1
    subst h1
    exact ⟨l, rfl, h⟩

theorem from32 (h : acc 32 A l = some (A', r)) :
    A' = A ∧ ∃ t e, All (fun c => c ≠ 125 ∧ (any c ∨ c = 10 ∨ c = 13)) t ∧ End e ∧ l = t ++ (125 :: (e ++ r)) := by
  obtain ⟨w, c, t, rfl, hw, hc, h⟩ :=
    loop_split (P := fun c => c ≠ 125 ∧ (any c ∨ c = 10 ∨ c = 13)) (f := fun a _ => a) stay32 l A _ h
  rw [foldl_id, acc32] at h
  split_ifs at h with h1 h2 h3 h4
  · obtain ⟨h5, e, he, hl⟩ := from10 h
    exact ⟨h5, w, e, hw, he, by rw [h1, hl]⟩
  · exact absurd ⟨h1, Or.inl h2⟩ hc
  · exact absurd ⟨h1, Or.inr (Or.inl h3)⟩ hc
  · exact absurd ⟨h1, Or.inr (Or.inr h4)⟩ hc

theorem from27 (h : acc 27 A l = some (A', r)) : ∃ t, l = 114 :: 101 :: 109 :: 61 :: 123 :: t ∧
    acc 32 A t = some (A', r) := by
  obtain ⟨l1, rfl, h⟩ := one acc27 h
  obtain ⟨l2, rfl, h⟩ := one acc28 h
  obtain ⟨l3, rfl, h⟩ := one acc29 h
  obtain ⟨l4, rfl, h⟩ := one acc30 h
  obtain ⟨l5, rfl, h⟩ := one acc31 h
  exact ⟨l5, rfl, h⟩

/-- What the strings hold: at most 383 bytes of the text, and nothing for the empty text. -/
def cut (l : List UInt8) : Option (List UInt8) := if l = [] then none else some (l.take 383)

/-- The strings of a line. -/
def actsOf : Stmt → Acts
  | .blank => {}
  | .set name plus v =>
    { name := cut name
      plus := if plus then some [61] else none
      num := match v with | .num d => cut d | _ => none
      str := match v with | .str s => cut s | _ => none
      brace := match v with | .empty => some [123] | _ => none }
  | .entry name key plus value =>
    { name := cut name, key := cut key, str := cut value, plus := if plus then some [61] else none }
  | .call name file => { name := cut name, file := cut file }

theorem addAll_cut (l : List UInt8) : addAll l none = cut l := by
  unfold cut
  split
  · rename_i h; subst h; rfl
  · rename_i h; exact addAll_none h

theorem withValue_acts (name : List UInt8) (plus : Bool) (v : Value) :
    withValue (withPlus { ({} : Acts) with name := addAll name none } plus) v = actsOf (.set name plus v) := by
  cases plus <;> cases v <;> simp [withValue, withPlus, actsOf, addAll_cut, addTo]

theorem withPlus_acts (name key value : List UInt8) (plus : Bool) :
    { withPlus { ({} : Acts) with name := addAll name none, key := addAll key none } plus with
      str := addAll value (withPlus { ({} : Acts) with name := addAll name none, key := addAll key none } plus).str } =
    actsOf (.entry name key plus value) := by
  cases plus <;> simp [withPlus, actsOf, addAll_cut, addTo]

/-- Only lines of the grammar are accepted, with their strings. -/
theorem acc_sound {A : Acts} {l r : List UInt8} (h : acc 0 {} l = some (A, r)) :
    ∃ (S : Stmt) (x : List UInt8), S.Text x ∧ l = x ++ r ∧ A = actsOf S := by
  obtain ⟨w, c, t, rfl, hw, hc, h⟩ := loop_split (P := blank) (f := fun a _ => a) stay0 l {} _ h
  rw [foldl_id, acc0] at h
  by_cases h35 : c = 35
  · rw [if_pos h35] at h
    obtain ⟨h1, e, he, hl⟩ := fromTail (c := c) (w := w) hw (by rw [if_pos h35]; exact h)
    exact ⟨.blank, e, Or.inl he, hl, h1⟩
  rw [if_neg h35] at h
  by_cases hlet : letter c
  · rw [if_pos hlet] at h
    obtain ⟨n, t', hn, hnt, hcase⟩ := from2 h
    clear h
    subst hnt
    have hname : Name (c :: n) := ⟨c, n, rfl, hlet, hn⟩
    rcases hcase with h | ⟨f, e, hf, he, rfl, hA⟩
    · rcases h with ⟨w1, plus, w2, v, x, e, hw1, hw2, hv, he, rfl, hA⟩ |
        ⟨w1, w2, k, t2, hw1, hw2, hk, rfl, w3, w4, plus, w5, s, e, hw3, hw4, hw5, h0, hs, he, rfl, hA⟩
      · refine ⟨.set (c :: n) plus v, w ++ ((c :: n) ++ (w1 ++ (eq plus ++ (w2 ++ (x ++ e))))),
          ⟨w, w1, w2, x, e, hw, hname, hw1, hw2, hv, he, rfl⟩, by simp, ?_⟩
        rw [hA, ← withValue_acts]; rfl
      · refine ⟨.entry (c :: n) k plus s, _,
          ⟨w, w1, w2, w3, w4, w5, e, hw, hname, hw1, hw2, hk, hw3, hw4, hw5, h0, hs, he, rfl⟩, by simp, ?_⟩
        rw [hA, ← withPlus_acts]; rfl
    · refine ⟨.call (c :: n) f, _, ⟨w, e, hw, hname, hf, he, rfl⟩, by simp, ?_⟩
      rw [hA]
      show ({ name := addAll (c :: n) none, file := addAll f none } : Acts) = _
      rw [addAll_cut, addAll_cut]; rfl
  rw [if_neg hlet, if_neg hc] at h
  by_cases h13 : c = 13
  · rw [if_pos h13] at h
    obtain ⟨h1, e, he, hl⟩ := fromTail (c := c) (w := w) hw (by rw [if_neg h35, if_pos h13]; exact h)
    exact ⟨.blank, e, Or.inl he, hl, h1⟩
  rw [if_neg h13] at h
  by_cases h10 : c = 10
  · rw [if_pos h10] at h
    obtain ⟨h1, e, he, hl⟩ := fromTail (A := {}) (A' := A) (r := r) (c := c) (w := w) (t := t) hw
      (by rw [if_neg h35, if_neg h13, if_pos h10]; exact h)
    exact ⟨.blank, e, Or.inl he, hl, h1⟩
  rw [if_neg h10] at h
  split_ifs at h with h95
  obtain ⟨t1, rfl, h⟩ := from27 h
  obtain ⟨h1, x, e, hx, he, rfl⟩ := from32 h
  refine ⟨.blank, _, Or.inr ⟨w, x, e, hw, hx, he, rfl⟩, by rw [h95]; simp, h1⟩

/-! ## Everything of the grammar is accepted -/

theorem to1 (A : Acts) {t e : List UInt8} (r : List UInt8) (ht : All any t) (he : e = [10] ∨ e = [13, 10]) :
    acc 1 A (t ++ (e ++ r)) = some (A, r) := by
  rw [loop_join (f := fun a _ => a) stay1 t A _ ht, foldl_id]
  rcases he with rfl | rfl
  · rw [List.cons_append, acc1, if_neg (by decide), if_neg (by decide), if_pos rfl]; rfl
  · rw [List.cons_append, acc1, if_neg (by decide), if_pos rfl, List.cons_append, acc41, if_pos rfl]; rfl

/-- The end of a line, from a state that treats it as the tail of a line. -/
theorem toTail {s : Nat} (A : Acts) {w c e : List UInt8} (r : List UInt8)
    (hs : ∀ c, blank c → ∀ A l, acc s A (c :: l) = acc s A l)
    (h35 : ∀ l, acc s A (35 :: l) = acc 1 A l) (h13 : ∀ l, acc s A (13 :: l) = acc 41 A l)
    (h10 : ∀ l, acc s A (10 :: l) = some (A, l)) (hw : All blank w)
    (hc : c = [] ∨ ∃ t, c = 35 :: t ∧ All any t) (he : e = [10] ∨ e = [13, 10]) :
    acc s A (w ++ (c ++ e) ++ r) = some (A, r) := by
  rw [List.append_assoc, loop_join (f := fun a _ => a) hs w A _ hw, foldl_id]
  rcases hc with rfl | ⟨t, rfl, ht⟩
  · rcases he with rfl | rfl
    · exact h10 _
    · show acc s A (13 :: 10 :: r) = _
      rw [h13, acc41, if_pos rfl]
  · rw [List.cons_append, List.cons_append, h35, List.append_assoc, to1 A r ht he]

theorem to10 (A : Acts) {e : List UInt8} (r : List UInt8) (he : End e) : acc 10 A (e ++ r) = some (A, r) := by
  obtain ⟨w, c, e', hw, hc, he', rfl⟩ := he
  refine toTail A r stay10 ?_ ?_ ?_ hw hc he'
  · intro l; rw [acc10, if_neg (by decide), if_pos rfl]
  · intro l; rw [acc10, if_neg (by decide), if_neg (by decide), if_pos rfl]
  · intro l; rw [acc10, if_neg (by decide), if_neg (by decide), if_neg (by decide), if_pos rfl]

theorem to0 {e : List UInt8} (r : List UInt8) (he : End e) : acc 0 {} (e ++ r) = some ({}, r) := by
  obtain ⟨w, c, e', hw, hc, he', rfl⟩ := he
  refine toTail {} r stay0 ?_ ?_ ?_ hw hc he'
  · intro l; rw [acc0, if_pos rfl]
  · intro l; rw [acc0, if_neg (by decide), if_neg (by decide), if_neg (by decide), if_pos rfl]
  · intro l; rw [acc0, if_neg (by decide), if_neg (by decide), if_neg (by decide), if_neg (by decide), if_pos rfl]

/-- The first byte of the end of a line. -/
theorem end_head {e : List UInt8} (he : End e) : ∃ c t, e = c :: t ∧ (blank c ∨ c = 35 ∨ c = 13 ∨ c = 10) := by
  obtain ⟨w, c, e', hw, hc, he', rfl⟩ := he
  cases w with
  | cons b w => exact ⟨b, _, rfl, Or.inl (all_cons.1 hw).1⟩
  | nil =>
    rcases hc with rfl | ⟨t, rfl, _⟩
    · rcases he' with rfl | rfl
      · exact ⟨10, _, rfl, by simp⟩
      · exact ⟨13, _, rfl, by simp⟩
    · exact ⟨35, _, rfl, by simp⟩

/-- After a number the end of the line is treated as in state 10. -/
theorem to7 (A : Acts) {e : List UInt8} (r : List UInt8) (he : End e) : acc 7 A (e ++ r) = some (A, r) := by
  obtain ⟨c, t, rfl, hc⟩ := end_head he
  have h10 := to10 A r he
  rw [List.cons_append] at h10 ⊢
  rw [acc10] at h10
  rw [acc7]
  rcases hc with hc | rfl | rfl | rfl
  · rw [if_neg (blank_not hc).2.2.1, if_pos hc]
    rw [if_pos hc] at h10
    exact h10
  · rw [if_neg (by decide), if_neg (by decide), if_pos rfl]
    rw [if_neg (by decide), if_pos rfl] at h10
    exact h10
  · rw [if_neg (by decide), if_neg (by decide), if_neg (by decide), if_pos rfl]
    rw [if_neg (by decide), if_neg (by decide), if_pos rfl] at h10
    exact h10
  · rw [if_neg (by decide), if_neg (by decide), if_neg (by decide), if_neg (by decide), if_pos rfl]
    rw [if_neg (by decide), if_neg (by decide), if_neg (by decide), if_pos rfl] at h10
    exact h10

theorem to4 (A : Acts) {w x e : List UInt8} {v : Value} (r : List UInt8) (hw : All blank w)
    (hv : v.Text x) (he : End e) : acc 4 A (w ++ (x ++ (e ++ r))) = some (withValue A v, r) := by
  rw [loop_join (f := fun a _ => a) stay4 w A _ hw, foldl_id]
  cases v with
  | num d =>
    obtain ⟨rfl, h0, hd⟩ := hv
    cases x with
    | nil => exact absurd rfl h0
    | cons c d =>
      rw [all_cons] at hd
      rw [List.cons_append, acc4, if_neg (digit_not c hd.1), if_pos hd.1,
        loop_join (f := fun a c => { a with num := addTo c a.num }) stay7 d _ _ hd.2, foldl_num, to7 _ r he]
      rfl
  | str s =>
    obtain ⟨rfl, h0, hs⟩ := hv
    cases s with
    | nil => exact absurd rfl h0
    | cons c s =>
      rw [all_cons] at hs
      have e1 : (34 :: (c :: s ++ [34])) ++ (e ++ r) = 34 :: c :: (s ++ (34 :: (e ++ r))) := by simp
      rw [e1, acc4, if_neg (by decide), if_neg (by decide), if_pos rfl, acc8, if_pos hs.1,
        loop_join (f := fun a c => { a with str := addTo c a.str }) stay12 s _ _ hs.2, foldl_str,
        acc12, if_neg (by decide), if_pos rfl, to10 _ r he]
      rfl
  | empty =>
    rw [show x = [123, 125] from hv]
    show acc 4 A (123 :: 125 :: (e ++ r)) = _
    rw [acc4, if_neg (by decide), if_neg (by decide), if_neg (by decide), if_pos rfl,
      acc22, if_pos rfl, to10 _ r he]
    rfl

theorem key_head : ∀ c : UInt8, (alnum c ∨ c = 45 ∨ c = 95) → c ≠ 46 := byte_all (by decide +kernel)

theorem toKey (A : Acts) {k : List UInt8} (t : List UInt8) (hk : Key k) :
    acc 13 A (k ++ (34 :: t)) = acc 16 { A with key := addAll k A.key } t := by
  rcases hk with rfl | ⟨c, k, rfl, hc, hk⟩
  · show acc 13 A (46 :: 34 :: t) = _
    rw [acc13, if_pos rfl, acc14, if_pos rfl]
    rfl
  · have h15 : acc 13 A (c :: (k ++ (34 :: t))) = acc 15 { A with key := addTo c A.key } (k ++ (34 :: t)) := by
      rw [acc13, if_neg (key_head c hc)]
      by_cases h1 : alnum c
      · rw [if_pos h1]
      · rw [if_neg h1]
        by_cases h2 : c = 45
        · rw [if_pos h2]
        · rw [if_neg h2, if_pos (by simpa [h1, h2] using hc)]
    rw [List.cons_append, h15,
      loop_join (f := fun a c => { a with key := addTo c a.key }) stay15 k _ _ hk, foldl_key,
      acc15, if_neg (by decide), if_pos rfl]
    rfl

theorem toAfterKey (A : Acts) {w3 w4 w5 s e : List UInt8} {plus : Bool} (r : List UInt8)
    (h3 : All blank w3) (h4 : All blank w4) (h5 : All blank w5) (h0 : s ≠ []) (hs : All inString s) (he : End e) :
    acc 16 A (w3 ++ (93 :: (w4 ++ (eq plus ++ (w5 ++ (34 :: (s ++ (34 :: (e ++ r))))))))) =
      some ({ withPlus A plus with str := addAll s (withPlus A plus).str }, r) := by
  rw [loop_join (f := fun a _ => a) stay16 w3 A _ h3, foldl_id, acc16, if_neg (by decide), if_pos rfl,
    loop_join (f := fun a _ => a) stay17 w4 A _ h4, foldl_id]
  have h18 : acc 17 A (eq plus ++ (w5 ++ (34 :: (s ++ (34 :: (e ++ r)))))) =
      acc 18 (withPlus A plus) (w5 ++ (34 :: (s ++ (34 :: (e ++ r))))) := by
    cases plus
    · show acc 17 A (61 :: _) = _
      rw [acc17, if_neg (by decide), if_pos rfl]; rfl
    · show acc 17 A (43 :: 61 :: _) = _
      rw [acc17, if_neg (by decide), if_neg (by decide), if_pos rfl, acc19, if_pos rfl]; rfl
  rw [h18, loop_join (f := fun a _ => a) stay18 w5 _ _ h5, foldl_id, acc18, if_neg (by decide), if_pos rfl]
  cases s with
  | nil => exact absurd rfl h0
  | cons c s =>
    rw [all_cons] at hs
    rw [List.cons_append, acc20, if_pos hs.1,
      loop_join (f := fun a c => { a with str := addTo c a.str }) stay21 s _ _ hs.2, foldl_str,
      acc21, if_neg (by decide), if_pos rfl, to10 _ r he]
    rfl

/-- Blanks after a name, then something that state 3 handles. -/
theorem toAfterName (A : Acts) {w : List UInt8} {c : UInt8} (t : List UInt8) (hw : All blank w)
    (hc : c = 61 ∨ c = 91 ∨ c = 43) :
    acc 2 A (w ++ c :: t) = if c = 61 then acc 4 A t else if c = 91 then acc 5 A t else acc 6 A t := by
  cases w with
  | nil =>
    show acc 2 A (c :: t) = _
    rcases hc with rfl | rfl | rfl
    · rw [acc2, if_neg (by decide), if_neg (by decide), if_pos rfl]; rfl
    · rw [acc2, if_neg (by decide), if_neg (by decide), if_neg (by decide), if_pos rfl]; rfl
    · rw [acc2, if_neg (by decide), if_neg (by decide), if_neg (by decide), if_neg (by decide), if_pos rfl]; rfl
  | cons b w =>
    rw [all_cons] at hw
    have hb := blank_not hw.1
    rw [List.cons_append, acc2, if_neg (by simp [hb.2.1, hb.2.2.2.2]), if_pos hw.1,
      loop_join (f := fun a _ => a) stay3 w A _ hw.2, foldl_id]
    rcases hc with rfl | rfl | rfl
    · rw [acc3, if_neg (by decide), if_pos rfl]; rfl
    · rw [acc3, if_neg (by decide), if_neg (by decide), if_pos rfl]; rfl
    · rw [acc3, if_neg (by decide), if_neg (by decide), if_neg (by decide), if_pos rfl]; rfl

theorem letter_not : ∀ c : UInt8, letter c → c ≠ 35 := byte_all (by decide +kernel)

/-- The blanks before a name, and the name. -/
theorem toName {w n : List UInt8} (t : List UInt8) (hw : All blank w) (hn : Name n) :
    acc 0 {} (w ++ (n ++ t)) = acc 2 { ({} : Acts) with name := addAll n none } t := by
  obtain ⟨c, n, rfl, hc, hn⟩ := hn
  rw [loop_join (f := fun a _ => a) stay0 w _ _ hw, foldl_id, List.cons_append, acc0,
    if_neg (letter_not c hc), if_pos hc,
    loop_join (f := fun a c => { a with name := addTo c a.name }) stay2 n _ _ hn, foldl_name]
  rfl

/-- Every line of the grammar is accepted, with its strings. -/
theorem acc_complete {S : Stmt} {x : List UInt8} (h : S.Text x) (r : List UInt8) :
    acc 0 {} (x ++ r) = some (actsOf S, r) := by
  cases S with
  | blank =>
    rcases h with h | ⟨w, t, e, hw, ht, he, rfl⟩
    · exact to0 r h
    · have e1 : (w ++ ([95, 114, 101, 109, 61, 123] ++ (t ++ (125 :: e)))) ++ r =
          w ++ (95 :: 114 :: 101 :: 109 :: 61 :: 123 :: (t ++ (125 :: (e ++ r)))) := by simp
      rw [e1, loop_join (f := fun a _ => a) stay0 w _ _ hw, foldl_id, acc0, if_neg (by decide),
        if_neg (by decide), if_neg (by decide), if_neg (by decide), if_neg (by decide), if_pos rfl,
        acc27, if_pos rfl, acc28, if_pos rfl, acc29, if_pos rfl, acc30, if_pos rfl, acc31, if_pos rfl,
        loop_join (f := fun a _ => a) stay32 t _ _ ht, foldl_id, acc32, if_pos rfl, to10 _ r he]
      rfl
  | set name plus v =>
    obtain ⟨w, w1, w2, x, e, hw, hn, hw1, hw2, hv, he, rfl⟩ := h
    have e1 : (w ++ (name ++ (w1 ++ (eq plus ++ (w2 ++ (x ++ e)))))) ++ r =
        w ++ (name ++ (w1 ++ (eq plus ++ (w2 ++ (x ++ (e ++ r)))))) := by simp
    rw [e1, toName _ hw hn, ← withValue_acts]
    cases plus
    · show acc 2 _ (w1 ++ 61 :: (w2 ++ (x ++ (e ++ r)))) = _
      rw [toAfterName _ _ hw1 (Or.inl rfl), if_pos rfl, to4 _ r hw2 hv he]
      rfl
    · show acc 2 _ (w1 ++ 43 :: 61 :: (w2 ++ (x ++ (e ++ r)))) = _
      rw [toAfterName _ _ hw1 (Or.inr (Or.inr rfl)), if_neg (by decide), if_neg (by decide), acc6,
        if_pos rfl, to4 _ r hw2 hv he]
      rfl
  | entry name key plus value =>
    obtain ⟨w, w1, w2, w3, w4, w5, e, hw, hn, hw1, hw2, hk, hw3, hw4, hw5, h0, hs, he, rfl⟩ := h
    have e1 : (w ++ (name ++ (w1 ++ (91 :: (w2 ++ (34 :: (key ++ (34 :: (w3 ++ (93 :: (w4 ++
        (eq plus ++ (w5 ++ (34 :: (value ++ (34 :: e)))))))))))))))) ++ r =
        w ++ (name ++ (w1 ++ 91 :: (w2 ++ (34 :: (key ++ (34 :: (w3 ++ (93 :: (w4 ++
        (eq plus ++ (w5 ++ (34 :: (value ++ (34 :: (e ++ r)))))))))))))))  := by simp
    rw [e1, toName _ hw hn, toAfterName _ _ hw1 (Or.inr (Or.inl rfl)), if_neg (by decide), if_pos rfl,
      loop_join (f := fun a _ => a) stay5 w2 _ _ hw2, foldl_id, acc5, if_neg (by decide), if_pos rfl,
      toKey _ _ hk, toAfterKey _ r hw3 hw4 hw5 h0 hs he, ← withPlus_acts]
  | call name file =>
    obtain ⟨w, e, hw, hn, hf, he, rfl⟩ := h
    have e1 : (w ++ (name ++ (40 :: 34 :: (file ++ (34 :: 41 :: e))))) ++ r =
        w ++ (name ++ (40 :: 34 :: (file ++ (34 :: 41 :: (e ++ r))))) := by simp
    rw [e1, toName _ hw hn, acc2, if_neg (by decide), if_neg (by decide), if_neg (by decide),
      if_neg (by decide), if_neg (by decide), if_pos rfl, acc24, if_pos rfl,
      loop_join (f := fun a c => { a with file := addTo c a.file }) stay25 file _ _ hf, foldl_file,
      acc25, if_neg (by decide), if_pos rfl, acc26, if_pos rfl, to10 _ r he]
    show some (({ name := addAll name none, file := addAll file none } : Acts), r) = _
    rw [addAll_cut, addAll_cut]
    rfl

/-- The loop of the parser is the automaton. -/
theorem lineLoop_acc : ∀ (l : List UInt8) (c : UInt8) (s : Nat) (A A' : Acts) (r : List UInt8),
    lineLoop table l c s A = .line A' r ↔ acc s A (c :: l) = some (A', r)
  | [], c, s, A, A', r => by
    rw [lineLoop, acc]
    cases processCharacter table c s with
    | none => simp
    | some p =>
      obtain ⟨a, s'⟩ := p
      simp only
      by_cases ha : a = 10
      · simp [ha]
      · rw [if_neg ha, if_neg ha]
        simp only [acc]
        split <;> simp
  | d :: l, c, s, A, A', r => by
    rw [lineLoop, acc]
    cases processCharacter table c s with
    | none => simp
    | some p =>
      obtain ⟨a, s'⟩ := p
      simp only
      by_cases ha : a = 10
      · simp [ha]
      · rw [if_neg ha, if_neg ha]
        exact lineLoop_acc l d s' _ A' r

end Rc
end Dw
