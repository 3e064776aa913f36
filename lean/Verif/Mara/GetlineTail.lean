import Verif.Mara.GetlineLemmas

/-!
# Reading a file line by line: what has no line end, and what is too long
-/

namespace Mara.Getline

open Spec.FileLines
open Mara.Rc (newline mt search Reading Next Vars oneLine)

/-- A text at the end of the file, all of it in the buffer. -/
theorem getline_end (max : Nat) (f : File) (k : Nat) (t js : List UInt8) (hf : At f k t)
    (he : f.eof = true) (ht : OneLine t) (hne : t ≠ []) (hl : t.length < max) :
    ∃ f', getline max f js = (1, f', t) ∧ bufEof f' = true := by
  have hneg := ne_neg hf
  obtain ⟨hnum, hle, hleft, hfull, hlast⟩ := hf
  obtain ⟨h1, h2⟩ := hlast he
  rw [h2, List.append_nil] at hleft
  generalize hr : k % 1024 = r at *
  have hlen : t.length = f.buf.length - r := by rw [← hleft, List.length_drop]
  have hpos : 0 < t.length := List.length_pos_of_ne_nil hne
  have hmt : mt newline f.buf f.number = -2 := by
    rw [hnum, mt_nat, hleft, search_none _ _ ht]
  refine ⟨{ f with number := f.buf.length + 1 }, ?_, ?_⟩
  · have e1 : getline max f js = atEnd max f js := by
      simp only [getline, hneg, if_false, hmt, he, true_and, Bool.true_eq_false, if_true]
    have hfits : (f.buf.length : Int) - r < max := by omega
    have e2 : substrTo max f.buf r (f.buf.length - r) js = t := by
      have h4 : ¬ ((r : Int) < 0 ∨ (f.buf.length : Int) - r < 0 ∨ (r : Int) ≥ f.buf.length ∨
          (r : Int) + (f.buf.length - r) > f.buf.length ∨ (f.buf.length : Int) - r ≥ max) := by
        omega
      have h5 : ((f.buf.length : Int) - r).toNat = t.length := by omega
      rw [substrTo, if_neg h4, h5, Int.toNat_natCast, hleft, List.take_length]
    rw [e1]
    simp only [atEnd, hnum, hfits, decide_true, if_true, e2]
  · simp only [bufEof, he, Bool.true_and, decide_eq_true_eq]
    omega

/-- A text at the end of the file that reaches the end of a filled buffer. -/
theorem getline_cut (max : Nat) (hm : max ≤ 1024) (f : File) (k : Nat) (t js : List UInt8)
    (hf : At f k t) (he : f.eof = false) (ht : OneLine t) (hl : t.length + 1 < max) :
    1024 - k % 1024 ≤ t.length ∧
    ∃ f', getline max f js = (1, f', t.take (1024 - k % 1024)) ∧
      At f' (k + (1024 - k % 1024)) (t.drop (1024 - k % 1024)) ∧ f'.eof = true := by
  have hneg := ne_neg hf
  obtain ⟨hnum, hle, hleft, hfull, hlast⟩ := hf
  have hb := hfull he
  generalize hr : k % 1024 = r at *
  have hr1 : r < 1024 := by omega
  have hpl : (f.buf.drop r).length = 1024 - r := by rw [List.length_drop, hb]
  have htake : t.take (1024 - r) = f.buf.drop r := by
    rw [← hleft, ← hpl, List.take_left]
  have hdrop : t.drop (1024 - r) = f.rest := by
    rw [← hleft, ← hpl, List.drop_left]
  have hlen : t.length = 1024 - r + f.rest.length := by
    rw [← hleft, List.length_append, hpl]
  refine ⟨by omega, bufRead f, ?_, ?_, ?_⟩
  · have hbuf : (bufRead f).buf = f.rest := by
      simp only [bufRead]
      rw [List.take_of_length_le]
      omega
    have ht1 : OneLine (f.buf.drop r) := fun x hx => ht x (by rw [← hleft]; simp [hx])
    have ht2 : OneLine f.rest := fun x hx => ht x (by rw [← hleft]; simp [hx])
    have hmt : mt newline f.buf f.number = -2 := by
      rw [hnum, mt_nat, search_none _ _ ht1]
    have hmt2 : mt newline (bufRead f).buf 0 = -2 := by
      have := mt_nat (bufRead f).buf 0
      rw [hbuf, List.drop_zero, search_none _ _ ht2] at this
      rw [hbuf]
      exact this
    have heof : (bufRead f).eof = true := by
      simp only [bufRead, he, Bool.false_or, decide_eq_true_eq, ne_eq, List.length_take]
      omega
    have e1 : getline max f js = across max f js := by
      simp only [getline, hneg, if_false, hmt, he, and_self, if_true]
    have hfits : (1024 : Int) + 1 - f.number < max := by rw [hnum]; omega
    have e2 : substrTo max f.buf f.number (1024 - f.number) js = f.buf.drop r := by
      have h4 : ¬ ((r : Int) < 0 ∨ (1024 : Int) - r < 0 ∨ (r : Int) ≥ f.buf.length ∨
          (r : Int) + (1024 - r) > f.buf.length ∨ (1024 : Int) - r ≥ max) := by omega
      have h5 : ((1024 : Int) - r).toNat = 1024 - r := by omega
      rw [hnum, substrTo, if_neg h4, h5, Int.toNat_natCast, ← hpl, List.take_length]
    have e3 : substrTo max (bufRead f).buf 0 (-2 + 1) [] = [] := by
      rw [substrTo, if_pos (by omega)]
    have e4 : appendTo max [] (f.buf.drop r) = f.buf.drop r := by
      have : ¬ (([] : List UInt8).length + (f.buf.drop r).length ≥ max) := by
        rw [hpl]; simp; omega
      rw [appendTo, if_neg this, List.append_nil]
    have e5 : refill (bufRead f) = bufRead f := by
      simp [refill, bufRead]
    rw [e1, htake]
    simp only [across, hfits, decide_true, if_true, Bool.not_true, e2,
      skip_stop max _ (bufRead f) _ _ (Or.inr heof), hmt2, e3, e4, ne_eq, not_true,
      Bool.false_eq_true, if_false, e5]
  · rw [hdrop]
    exact at_read f _ _ rfl he (by omega)
  · simp only [bufRead, he, Bool.false_or, decide_eq_true_eq, ne_eq, List.length_take]
    omega

/-- A line that is too long, with its end in the buffer: an empty line is got, and the file
stays where it is. -/
theorem getline_stuck (max : Nat) (f : File) (k : Nat) (t q js : List UInt8) (c : UInt8)
    (hf : At f k (t ++ c :: q)) (ht : OneLine t) (hc : ends c) (hl : max ≤ t.length + 1)
    (hb : k % 1024 + t.length < 1024) :
    getline max f js = (1, f, []) := by
  have hneg := ne_neg hf
  obtain ⟨hnum, hle, hleft, hfull, hlast⟩ := hf
  generalize hr : k % 1024 = r at *
  have hin : t.length < (f.buf.drop r).length := by
    cases h : f.eof with
    | false => rw [List.length_drop, hfull h]; omega
    | true =>
      rw [(hlast h).2, List.append_nil] at hleft
      rw [hleft]
      simp
  have hdrop : f.buf.drop r = t ++ c :: (f.buf.drop r).drop (t.length + 1) := by
    have h1 : (f.buf.drop r).take (t.length + 1) = t ++ [c] := by
      have h2 : (f.buf.drop r ++ f.rest).take (t.length + 1) =
          (f.buf.drop r).take (t.length + 1) := by
        rw [List.take_append_of_le_length]; omega
      rw [← h2, hleft, take_line]
    conv_lhs => rw [← List.take_append_drop (t.length + 1) (f.buf.drop r), h1]
    simp
  have hmt : mt newline f.buf f.number = ((r + t.length : Nat) : Int) := by
    rw [hnum, mt_nat, hdrop, search_hit _ _ _ _ ht hc]
  have h2 : ¬ (((r + t.length : Nat) : Int) = -2) := by omega
  have h3 : ¬ (((r + t.length : Nat) : Int) + 1 - (r : Int) < max) := by omega
  have e1 : getline max f js = within max f js ((r + t.length : Nat) : Int) := by
    simp only [getline, hneg, if_false, hmt, h2, false_and]
  rw [e1, within, hnum, if_neg h3]

end Mara.Getline
