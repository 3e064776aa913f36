import Mathlib.Tactic.SplitIfs
import Verif.Deadwood.Str2Model
import Verif.Deadwood.StrProps

/-! Helper lemmas for the text and DNS helpers of `DwStr.c`. -/

namespace Dw
namespace DwStr

theorem Usable_buf {s : DwStr} (h : Usable s) : s.len + 2 < s.buf.length := by
  have h1 := h.wf; have := h.lt; unfold WF at h1; omega

theorem contents_drop {s : DwStr} (h : Usable s) {i : Nat} (hi : i < s.len) :
    ∃ x, s.peek i = .ok x ∧ s.contents.drop i = x :: s.contents.drop (i + 1) ∧
      s.contents[i]? = some x := by
  have hl : i < s.contents.length := by rw [h.clen]; exact hi
  refine ⟨s.contents[i], peek_contents hl, ?_, ?_⟩
  · rw [List.drop_eq_getElem_cons hl]
  · simp [hl]

theorem substr_minus1 {s : DwStr} {b : Nat} (hb : b ≤ s.len) (m : Int) (junk : List UInt8) :
    substr s b (-1) m junk = substr s b ((s.len - b : Nat) : Int) m junk := by
  unfold substr
  have e1 : (s.len : Int) - b + -1 + 1 = ((s.len - b : Nat) : Int) := by omega
  have e2 : ¬ (((s.len - b : Nat) : Int) < 0) := by omega
  have e3 : ¬ ((b : Int) < 0) := by omega
  simp only [if_neg e2, if_neg e3, if_pos (show ((-1 : Int) < 0) from by decide), e1]

theorem rfindLoop_none {s : DwStr} (h : Usable s) (rx : UInt8) : ∀ n, n ≤ s.len →
    rx ∉ s.contents.take n → rfindLoop s rx n = .ok none := by
  intro n
  induction n with
  | zero => intros; rfl
  | succ n ih =>
    intro hn hx
    obtain ⟨x, h1, h2, h3⟩ := contents_drop h (i := n) (by omega)
    have ht : s.contents.take (n + 1) = s.contents.take n ++ [x] := by
      rw [List.take_add_one, h3]; rfl
    rw [ht] at hx
    simp only [List.mem_append, List.mem_singleton, not_or] at hx
    simp only [rfindLoop, h1, Res.ok_bind]
    rw [if_neg (fun e => hx.2 e.symm)]
    exact ih (by omega) hx.1

theorem rfindLoop_some {s : DwStr} (h : Usable s) (rx : UInt8) (pre : List UInt8) : ∀ n (post : List UInt8),
    n ≤ s.len → rx ∉ post → s.contents.take n = pre ++ rx :: post →
    rfindLoop s rx n = .ok (some pre.length) := by
  intro n
  induction n with
  | zero => intro post _ _ h1; simp at h1
  | succ n ih =>
    intro post hn hx hc
    obtain ⟨x, h1, h2, h3⟩ := contents_drop h (i := n) (by omega)
    have ht : s.contents.take (n + 1) = s.contents.take n ++ [x] := by
      rw [List.take_add_one, h3]; rfl
    rw [ht] at hc
    simp only [rfindLoop, h1, Res.ok_bind]
    have hl := h.clen
    rcases List.eq_nil_or_concat post with rfl | ⟨p, y, rfl⟩
    · have := List.append_inj' hc rfl
      simp only [List.cons.injEq, and_true] at this
      rw [if_pos this.2, ← this.1]
      simp [hl]; omega
    · rw [List.concat_eq_append] at hc hx
      have hc' : s.contents.take n ++ [x] = (pre ++ rx :: p) ++ [y] := by simpa using hc
      have := List.append_inj' hc' rfl
      simp only [List.cons.injEq, and_true] at this
      simp only [List.mem_append, List.mem_singleton, not_or] at hx
      rw [if_neg (by rw [this.2]; exact fun e => hx.2 e.symm)]
      exact ih p (by omega) hx.1 this.1

theorem skipWs_eq {s : DwStr} (h : Usable s) : ∀ n i, i + n = s.len →
    s.skipWs n i = .ok (i + ((s.contents.drop i).takeWhile (fun x => x = 32 ∨ x = 9)).length) := by
  intro n
  induction n with
  | zero =>
    intro i hi
    have : s.contents.drop i = [] := by
      apply List.drop_eq_nil_of_le; rw [h.clen]; omega
    simp [skipWs, this]
  | succ n ih =>
    intro i hi
    obtain ⟨x, h1, h2, h3⟩ := contents_drop h (i := i) (by omega)
    simp only [skipWs, h1, Res.ok_bind, h2]
    by_cases hx : x = 32 ∨ x = 9
    · rw [if_pos hx, ih (i + 1) (by omega)]
      rw [List.takeWhile_cons_of_pos (by simpa using hx)]
      simp; omega
    · rw [if_neg hx, List.takeWhile_cons_of_neg (by simpa using hx)]
      simp

/-- In-place map over the tail of the block. -/
theorem sanitizeLoop_eq : ∀ (n i : Nat) (s : DwStr), i + n ≤ s.buf.length →
    sanitizeLoop n i s = .ok { s with buf := splice s.buf i (((s.buf.drop i).take n).map
      (fun x => if (x < 97 ∨ x > 122) ∧ x ≠ 47 ∧ x ≠ 45 ∧ x ≠ 95 then 95 else x)) } := by
  intro n
  induction n with
  | zero => intro i s _; simp [sanitizeLoop, splice_nil]
  | succ n ih =>
    intro i s h
    have hi : i < s.buf.length := by omega
    simp only [sanitizeLoop, peek_ok hi, Res.ok_bind]
    rw [take_drop_succ _ _ _ hi, List.map_cons]
    by_cases hx : (s.buf[i] < 97 ∨ s.buf[i] > 122) ∧ s.buf[i] ≠ 47 ∧ s.buf[i] ≠ 45 ∧ s.buf[i] ≠ 95
    · rw [if_pos hx, if_pos hx, poke_ok _ hi]
      simp only [Res.ok_bind]
      rw [ih (i + 1) _ (by simp; omega)]
      simp only
      rw [splice_set _ _ _ _ hi]
      rw [List.drop_set_of_lt (by omega)]
    · rw [if_neg hx, if_neg hx, ih (i + 1) s (by omega)]
      rw [← splice_set _ _ _ _ hi]
      simp

/-- Pure counterpart of the loop of `dw_filename_sani_two` (lemma vocabulary). -/
def saniTwoPure : Bool → List UInt8 → List UInt8
  | _, [] => []
  | d, x :: xs =>
    if x = 46 then x :: saniTwoPure true xs
    else if x = 47 ∧ d = false then x :: saniTwoPure false xs
    else if (x < 97 ∨ x > 122) ∧ x ≠ 45 ∧ x ≠ 95 then 95 :: saniTwoPure d xs
    else x :: saniTwoPure d xs

theorem saniTwoPure_length : ∀ (l : List UInt8) d, (saniTwoPure d l).length = l.length := by
  intro l
  induction l with
  | nil => intro d; rfl
  | cons x xs ih =>
    intro d
    simp only [saniTwoPure]
    split_ifs <;> simp [ih]

theorem saniTwoLoop_eq : ∀ (n i : Nat) (d : Bool) (s : DwStr), i + n ≤ s.buf.length →
    saniTwoLoop n i d s = .ok { s with buf := splice s.buf i (saniTwoPure d ((s.buf.drop i).take n)) } := by
  intro n
  induction n with
  | zero => intro i d s _; simp [saniTwoLoop, splice_nil, saniTwoPure]
  | succ n ih =>
    intro i d s h
    have hi : i < s.buf.length := by omega
    simp only [saniTwoLoop, peek_ok hi, Res.ok_bind]
    rw [take_drop_succ _ _ _ hi]
    have keep : ∀ xs, splice s.buf i (s.buf[i] :: xs) = splice s.buf (i + 1) xs := by
      intro xs; rw [← splice_set _ _ _ _ hi]; simp
    simp only [saniTwoPure]
    split_ifs
    · rw [ih (i + 1) _ s (by omega), keep]
    · rw [ih (i + 1) _ s (by omega), keep]
    · rw [poke_ok _ hi]
      simp only [Res.ok_bind]
      rw [ih (i + 1) _ _ (by simp; omega)]
      simp only
      rw [splice_set _ _ _ _ hi]
      rw [List.drop_set_of_lt (by omega)]
    · rw [ih (i + 1) _ s (by omega), keep]

theorem splice_contents {s : DwStr} (h : Usable s) (xs : List UInt8) (hx : xs.length = s.len) :
    Usable { s with buf := splice s.buf 0 xs } ∧
    ({ s with buf := splice s.buf 0 xs } : DwStr).contents = xs := by
  have hb := Usable_buf h
  refine ⟨⟨?_, h.lt, h.lim⟩, ?_⟩
  · have := h.wf
    unfold WF at *
    simp only
    rw [splice_length (by omega)]; exact this
  · have := splice_take s.buf 0 xs (by omega)
    rw [hx] at this
    simpa [contents] using this

end DwStr
end Dw
