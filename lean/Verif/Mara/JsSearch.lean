import Verif.Mara.JsProps
import Mathlib.Tactic.SplitIfs
/-!
# C56: searching in the strings of MaraDNS
-/

namespace Mara
namespace Js

open Dw (Res)
open Spec

/-! ### Lemmas -/

theorem fgrepAt_eq (e s : List UInt8) (c n place : Nat) (acc : Bool) (he : place + n ≤ e.length)
    (hs : place + n + c ≤ s.length) :
    fgrepAt e s c n place acc =
      .ok (acc && ((e.drop place).take n == (s.drop (place + c)).take n)) := by
  induction n generalizing place acc with
  | zero => simp [fgrepAt]
  | succ n ih =>
    unfold fgrepAt
    rw [rd_in (by omega), Res.ok_bind, rd_in (by omega), Res.ok_bind, ih _ _ (by omega) (by omega)]
    rw [List.drop_eq_getElem_cons (show place < e.length by omega),
      List.drop_eq_getElem_cons (show place + c < s.length by omega), List.take_succ_cons,
      List.take_succ_cons, List.cons_beq_cons, Bool.and_assoc,
      show place + 1 + c = place + c + 1 by omega]

theorem occurs_iff {e s : Js} (he : Ok e) (hs : Ok s) {c : Nat} (hc : c + e.count ≤ s.count) :
    JStr.OccursAt e.contents s.contents c ↔ e.buf.take e.count = (s.buf.drop c).take e.count := by
  unfold JStr.OccursAt
  rw [List.prefix_iff_eq_take, he.len]
  have e2 : (s.contents.drop c).take e.count = (s.buf.drop c).take e.count := by
    simp only [contents]
    rw [List.drop_take, List.take_take, Nat.min_eq_left (by omega)]
  rw [e2]
  exact Iff.rfl

/-- What a search is to give: the first place from `o` on where `P` holds, or "not found". -/
def Found (P : Nat → Prop) (o : Nat) : Int → Prop
  | .ofNat i => o ≤ i ∧ P i ∧ ∀ j, o ≤ j → j < i → ¬ P j
  | .negSucc n => n = 1 ∧ ∀ j, o ≤ j → ¬ P j

theorem fgrepLoop_found {e s : Js} (he : Ok e) (hs : Ok s) (h0 : 0 < e.count) (h1 : e.count ≤ s.count)
    (o n c : Nat) (hn : n + c = s.count - e.count + 1)
    (hprev : ∀ j, o ≤ j → j < c → ¬ JStr.OccursAt e.contents s.contents j) :
    ∃ r, fgrepLoop e s o n c = .ok r ∧ Found (JStr.OccursAt e.contents s.contents) o r := by
  have hb := hs.block; have hf := hs.fits
  have heb := he.block; have hef := he.fits
  induction n generalizing c with
  | zero =>
    refine ⟨-2, rfl, rfl, ?_⟩
    intro j hj hocc
    have hl := hocc.length_le
    rw [List.length_drop, hs.len, he.len] at hl
    exact hprev j hj (by omega) hocc
  | succ n ih =>
    unfold fgrepLoop
    rw [rd_in (by omega), Res.ok_bind, rd_in (by omega), Res.ok_bind]
    have key := occurs_iff he hs (c := c) (by omega)
    by_cases h : e.buf[0] = s.buf[c] ∧ o ≤ c
    · rw [if_pos h, fgrepAt_eq _ _ _ _ _ _ (by omega) (by omega), Res.ok_bind,
        Nat.min_eq_left (by omega)]
      simp only [List.drop_zero, Nat.zero_add, Bool.true_and]
      by_cases hq : e.buf.take e.count = (s.buf.drop c).take e.count
      · rw [if_pos (by simp [hq])]
        exact ⟨_, rfl, h.2, key.2 hq, hprev⟩
      · rw [if_neg (by simp [hq])]
        refine ih (c + 1) (by omega) ?_
        intro j hj hjc
        by_cases hjc' : j = c
        · subst hjc'; exact fun hh => hq (key.1 hh)
        · exact hprev j hj (by omega)
    · rw [if_neg h]
      refine ih (c + 1) (by omega) ?_
      intro j hj hjc
      by_cases hjc' : j = c
      · subst hjc'
        intro hh
        apply h
        refine ⟨?_, hj⟩
        have := key.1 hh
        have h2 := congrArg (·[0]?) this
        simp only [List.getElem?_take, h0, if_true, List.getElem?_drop, Nat.add_zero] at h2
        rw [List.getElem?_eq_getElem (by omega), List.getElem?_eq_getElem (by omega)] at h2
        exact Option.some.inj h2
      · exact hprev j hj (by omega)

theorem onList_eq (e : List UInt8) (c : UInt8) (n p : Nat) (h : p + n ≤ e.length) :
    onList e c n p = .ok (((e.drop p).take n).contains c) := by
  induction n generalizing p with
  | zero => simp [onList]
  | succ n ih =>
    unfold onList
    rw [rd_in (by omega), Res.ok_bind, ih _ (by omega),
      List.drop_eq_getElem_cons (show p < e.length by omega), List.take_succ_cons]
    by_cases hx : e[p] = c
    · rw [if_pos hx]; simp [hx]
    · rw [if_neg hx]
      congr 1
      rw [List.contains_cons]
      have : (c == e[p]) = false := by simpa using fun h => hx h.symm
      rw [this, Bool.false_or]

/-- The byte at `i` exists and is on the list (or not on it). -/
def Hit (want : Bool) (e s : List UInt8) (i : Nat) : Prop :=
  ∃ h : i < s.length, (s[i] ∈ e ↔ want = true)

theorem matchLoop_found {e s : Js} (he : Ok e) (hs : Ok s) (want : Bool)
    (o n c : Nat) (hn : n + c = s.count)
    (hprev : ∀ j, o ≤ j → j < c → ¬ Hit want e.contents s.contents j) :
    ∃ r, matchLoop want e s o n c = .ok r ∧ Found (Hit want e.contents s.contents) o r := by
  have hb := hs.block; have hf := hs.fits
  have heb := he.block; have hef := he.fits
  induction n generalizing c with
  | zero =>
    refine ⟨-2, rfl, rfl, ?_⟩
    intro j hj hh
    obtain ⟨hl, hm⟩ := hh
    have hl' := hl
    rw [hs.len] at hl'
    exact hprev j hj (by omega) ⟨hl, hm⟩
  | succ n ih =>
    unfold matchLoop
    by_cases ho : o ≤ c
    · rw [if_pos ho, rd_contents hs (by omega), Res.ok_bind, onList_eq _ _ _ _ (by omega), Res.ok_bind]
      have hee : (e.buf.drop 0).take e.count = e.contents := rfl
      rw [hee]
      have key : (e.contents.contains (s.contents[c]'(by rw [hs.len]; omega)) = want) ↔
          Hit want e.contents s.contents c := by
        unfold Hit
        constructor
        · intro hw
          exact ⟨by rw [hs.len]; omega, by rw [← hw]; simp⟩
        · rintro ⟨_, hw⟩
          rw [Bool.eq_iff_iff, ← hw]; simp
      by_cases hq : e.contents.contains (s.contents[c]'(by rw [hs.len]; omega)) = want
      · rw [if_pos hq]
        exact ⟨_, rfl, ho, key.1 hq, hprev⟩
      · rw [if_neg hq]
        refine ih (c + 1) (by omega) ?_
        intro j hj hjc
        by_cases hjc' : j = c
        · subst hjc'; exact fun hh => hq (key.2 hh)
        · exact hprev j hj (by omega)
    · rw [if_neg ho]
      exact ih (c + 1) (by omega) (fun j hj hjc => hprev j hj (by omega))

/-! ### The properties -/

/-- **C56**: `js_fgrep_offset` gives the first place, from the offset on, at which the expression
occurs, and -2 if there is none.  Nothing outside the two strings is read. -/
theorem fgrep_exact {e s : Js} (he : Ok e) (hs : Ok s) (h0 : 0 < e.count) {o : Nat} (ho : o ≤ s.count) :
    ∃ r, fgrepOffset e s o = .ok r ∧ Found (JStr.OccursAt e.contents s.contents) o r := by
  have hf := hs.fits; have hsm := hs.small
  unfold fgrepOffset
  simp only [he.sane, hs.sane, Bool.not_true, Bool.or_self, Bool.false_eq_true, if_false]
  rw [u32_nat (by omega), if_neg (by omega)]
  simp only [if_neg (show ¬ ((o : Int) < 0) by omega), Int.toNat_natCast]
  by_cases h1 : e.count > s.count
  · rw [if_pos h1]
    refine ⟨_, rfl, rfl, ?_⟩
    intro j hj hocc
    have hl := hocc.length_le
    rw [List.length_drop, hs.len, he.len] at hl
    omega
  · rw [if_neg h1, if_neg (by omega)]
    exact fgrepLoop_found he hs h0 (by omega) o _ 0 (by omega) (fun j _ h => by omega)

example : ∃ r, fgrepOffset ⟨2, 2, [97, 98, 0, 0, 0]⟩ ⟨5, 5, [97, 98, 120, 97, 98, 0, 0, 0]⟩ 1 = .ok r ∧
    Found (JStr.OccursAt [97, 98] [97, 98, 120, 97, 98]) 1 r :=
  fgrep_exact (e := ⟨2, 2, [97, 98, 0, 0, 0]⟩) (s := ⟨5, 5, [97, 98, 120, 97, 98, 0, 0, 0]⟩)
    ⟨rfl, by decide, by decide⟩ ⟨rfl, by decide, by decide⟩ (by decide) (o := 1) (by decide)

example : fgrepOffset ⟨2, 2, [97, 98, 0, 0, 0]⟩ ⟨5, 5, [97, 98, 120, 97, 98, 0, 0, 0]⟩ 1 = .ok 3 := by decide

/-- An offset beyond the end, or a negative one, is an error (the description of the function says
that a negative offset counts from the end). -/
theorem fgrep_offset_refused {e s : Js} (hs : Ok s) {o : Int} (h : o < 0 ∨ s.count < o)
    (h1 : -2147483648 ≤ o) (h2 : o ≤ 2147483647) : fgrepOffset e s o = .err := by
  have hf := hs.fits; have hsm := hs.small
  unfold fgrepOffset
  have : u32 o > s.count := by
    rcases h with h | h
    · have := u32_neg h h1; omega
    · have : u32 o = o.toNat := by unfold u32; omega
      omega
  rw [if_pos this]
  split_ifs <;> rfl

example : fgrepOffset ⟨1, 1, [97, 0, 0, 0]⟩ ⟨2, 2, [98, 97, 0, 0, 0]⟩ (-1) = .err :=
  fgrep_offset_refused ⟨rfl, by decide, by decide⟩ (Or.inl (by decide)) (by decide) (by decide)

/-- The empty expression is found at 0 whatever the offset. -/
theorem fgrep_empty_ignores_offset :
    ∃ e s : Js, Ok e ∧ Ok s ∧ e.contents = [] ∧ fgrepOffset e s 1 = .ok 0 :=
  ⟨⟨0, 0, [0, 0, 0]⟩, ⟨2, 2, [98, 97, 0, 0, 0]⟩, ⟨rfl, by decide, by decide⟩, ⟨rfl, by decide, by decide⟩,
    rfl, by decide⟩

/-- **C56**: `js_match_offset` (`want = true`) gives the first place, from the offset on, of a byte
on the list; `js_notmatch_offset` (`want = false`) that of a byte not on the list; -2 if there
is none. -/
theorem match_exact {e s : Js} (he : Ok e) (hs : Ok s) (h0 : 0 < e.count) (want : Bool) (o : Nat) :
    ∃ r, matchOffset want e s o = .ok r ∧ Found (Hit want e.contents s.contents) o r := by
  unfold matchOffset
  simp only [he.sane, hs.sane, Bool.not_true, Bool.or_self, Bool.false_eq_true, if_false]
  simp only [if_neg (show ¬ ((o : Int) < 0) by omega), Int.toNat_natCast, if_neg (show ¬ e.count = 0 by omega)]
  exact matchLoop_found he hs want o _ 0 (by omega) (fun j _ h => by omega)

/-- **C56**: a negative offset counts from the end. -/
theorem match_negative {e s : Js} (hs : Ok s) (want : Bool) {k : Nat} (hk : 0 < k) (hk' : k ≤ s.count) :
    matchOffset want e s (-k) = matchOffset want e s ((s.count - k : Nat) : Int) := by
  unfold matchOffset
  simp only [if_pos (show (-(k : Int)) < 0 by omega),
    if_neg (show ¬ (((s.count - k : Nat) : Int) < 0) by omega)]
  rw [show (s.count : Int) + -(k : Int) = ((s.count - k : Nat) : Int) by omega]
  simp only [if_neg (show ¬ (((s.count - k : Nat) : Int) < 0) by omega)]

example : matchOffset true ⟨1, 1, [97, 0, 0, 0]⟩ ⟨3, 3, [97, 98, 97, 0, 0, 0]⟩ (-2) = .ok 2 := by decide
example : matchOffset false ⟨1, 1, [97, 0, 0, 0]⟩ ⟨3, 3, [97, 98, 97, 0, 0, 0]⟩ 0 = .ok 1 := by decide

example : ∃ r, matchOffset false ⟨1, 1, [97, 0, 0, 0]⟩ ⟨3, 3, [97, 98, 97, 0, 0, 0]⟩ 0 = .ok r ∧
    Found (Hit false [97] [97, 98, 97]) 0 r :=
  match_exact (e := ⟨1, 1, [97, 0, 0, 0]⟩) (s := ⟨3, 3, [97, 98, 97, 0, 0, 0]⟩)
    ⟨rfl, by decide, by decide⟩ ⟨rfl, by decide, by decide⟩ (by decide) false 0

/-- With an empty list "not on the list" finds nothing, though every byte is not on it. -/
theorem notmatch_empty_list :
    ∃ e s : Js, Ok e ∧ Ok s ∧ e.contents = [] ∧ s.contents = [98] ∧ matchOffset false e s 0 = .ok (-2) :=
  ⟨⟨0, 0, [0, 0, 0]⟩, ⟨1, 1, [98, 0, 0, 0]⟩, ⟨rfl, by decide, by decide⟩, ⟨rfl, by decide, by decide⟩,
    rfl, rfl, by decide⟩

end Js
end Mara
