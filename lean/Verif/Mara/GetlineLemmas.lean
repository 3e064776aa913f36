import Verif.Mara.GetlineModel
import Verif.Mara.RcLemmas
import Verif.Spec.FileLines

/-!
# Reading a file line by line: lemmas
-/

namespace Mara.Getline

open Spec.FileLines
open Mara.Rc (newline mt search Reading Next Vars oneLine)

theorem newline_iff (c : UInt8) : newline c = true ↔ ends c := by
  simp [newline, ends, or_comm]

theorem search_hit (t q : List UInt8) (c : UInt8) (i : Nat) (ht : OneLine t) (hc : ends c) :
    search newline (t ++ c :: q) i = ((i + t.length : Nat) : Int) := by
  induction t generalizing i with
  | nil => simp [search, (newline_iff c).2 hc]
  | cons x t ih =>
    have hx : newline x = false := by
      have := ht x (by simp)
      rw [← newline_iff] at this
      simpa using this
    have := ih (i + 1) (fun y hy => ht y (by simp [hy]))
    simp only [List.cons_append, search, hx, Bool.false_eq_true, if_false, this,
      List.length_cons]
    congr 1
    omega

theorem search_none (t : List UInt8) (i : Nat) (ht : OneLine t) : search newline t i = -2 := by
  induction t generalizing i with
  | nil => rfl
  | cons x t ih =>
    have hx : newline x = false := by
      have := ht x (by simp)
      rw [← newline_iff] at this
      simpa using this
    have := ih (i + 1) (fun y hy => ht y (by simp [hy]))
    simp [search, hx, this]

theorem mt_nat (l : List UInt8) (o : Nat) :
    mt newline l (o : Int) = search newline (l.drop o) o := by
  have h : ¬ ((o : Int) < 0) := by omega
  simp [Rc.mt, h]

theorem take_line (t q : List UInt8) (c : UInt8) :
    (t ++ c :: q).take (t.length + 1) = t ++ [c] := by
  have h : t ++ c :: q = (t ++ [c]) ++ q := by simp
  have h2 : t.length + 1 = (t ++ [c]).length := by simp
  rw [h, h2, List.take_left]

theorem drop_line (t q : List UInt8) (c : UInt8) :
    (t ++ c :: q).drop (t.length + 1) = q := by
  have h : t ++ c :: q = (t ++ [c]) ++ q := by simp
  have h2 : t.length + 1 = (t ++ [c]).length := by simp
  rw [h, h2, List.drop_left]

/-- The file stands `k` bytes from its start, and `p` is what is left. -/
structure At (f : File) (k : Nat) (p : List UInt8) : Prop where
  num : f.number = ((k % 1024 : Nat) : Int)
  le : k % 1024 ≤ f.buf.length
  left : f.buf.drop (k % 1024) ++ f.rest = p
  full : f.eof = false → f.buf.length = 1024
  last : f.eof = true → f.buf.length < 1024 ∧ f.rest = []

theorem at_read (f : File) (k : Nat) (p : List UInt8) (hr : f.rest = p) (he : f.eof = false)
    (hk : k % 1024 = 0) : At (bufRead f) k p := by
  subst hr
  refine ⟨by simp [bufRead, hk], by simp [hk], ?_, ?_, ?_⟩
  · simp [bufRead, hk]
  · intro h
    simp only [bufRead, he, Bool.false_or, decide_eq_false_iff_not, ne_eq, not_not] at h
    exact h
  · intro h
    simp only [bufRead, he, Bool.false_or, decide_eq_true_eq, ne_eq, List.length_take] at h
    simp only [bufRead, List.length_take]
    refine ⟨by omega, ?_⟩
    rw [List.drop_eq_nil_iff]
    omega

theorem at_opened (bytes : List UInt8) : At (bufRead (opened bytes)) 0 bytes :=
  at_read _ 0 _ rfl rfl rfl

theorem bufEof_iff (f : File) (k : Nat) (p : List UInt8) (h : At f k p) :
    bufEof f = true ↔ p = [] := by
  obtain ⟨h1, h2, h3, h4, h5⟩ := h
  subst h3
  cases he : f.eof with
  | true =>
    obtain ⟨h6, h7⟩ := h5 he
    simp only [bufEof, he, h1, Bool.true_and, decide_eq_true_eq, h7, List.append_nil,
      List.drop_eq_nil_iff]
    omega
  | false =>
    have := h4 he
    simp only [bufEof, he, Bool.false_and, Bool.false_eq_true, false_iff, List.append_eq_nil_iff,
      List.drop_eq_nil_iff, not_and]
    omega

/-- After a line whose end is in the buffer. -/
theorem at_refill (f : File) (k j : Nat) (q : List UInt8) (hj : j ≤ f.buf.length)
    (hk : (k % 1024 = j ∧ j < 1024) ∨ (k % 1024 = 0 ∧ j = 1024))
    (hl : f.buf.drop j ++ f.rest = q) (hfull : f.eof = false → f.buf.length = 1024)
    (hlast : f.eof = true → f.buf.length < 1024 ∧ f.rest = []) :
    At (refill { f with number := (j : Int) }) k q := by
  rcases hk with ⟨hk, hlt⟩ | ⟨hk, he⟩
  · have : refill { f with number := (j : Int) } = { f with number := (j : Int) } := by
      have : ¬ ((j : Int) ≥ 1024) := by omega
      simp [refill, this]
    rw [this]
    exact ⟨by simp [hk], by rw [hk]; exact hj, by rw [hk]; exact hl, hfull, hlast⟩
  · subst he
    have heof : f.eof = false := by
      cases h : f.eof with
      | false => rfl
      | true => have := hlast h; omega
    have hb := hfull heof
    have : refill { f with number := ((1024 : Nat) : Int) } =
        bufRead { f with number := ((1024 : Nat) : Int) } := by
      simp [refill]
    rw [this]
    refine at_read _ k q ?_ heof hk
    have : f.buf.drop 1024 = [] := by rw [List.drop_eq_nil_iff]; omega
    simpa [this] using hl

theorem ne_neg {f : File} {k : Nat} {p : List UInt8} (h : At f k p) : f.number ≠ -1 := by
  have := h.num
  omega

theorem skip_stop (max n : Nat) (f : File) (js : List UInt8) (over : Bool)
    (h : mt newline f.buf 0 ≠ -2 ∨ f.eof = true) : skip max n f js over = (f, js, over) := by
  cases n with
  | zero => rfl
  | succ n =>
    have : ¬ (mt newline f.buf 0 = -2 ∧ f.eof = false) := by
      rintro ⟨h1, h2⟩
      rcases h with h | h
      · exact h h1
      · simp [h2] at h
    rw [skip, if_neg this]

/-- A line that fits is got as it is, wherever the blocks begin. -/
theorem getline_whole (max : Nat) (hm : max ≤ 1024) (f : File) (k : Nat) (t q js : List UInt8)
    (c : UInt8) (hf : At f k (t ++ c :: q)) (ht : OneLine t) (hc : ends c)
    (hl : t.length + 1 < max) :
    ∃ f', getline max f js = (1, f', t ++ [c]) ∧ At f' (k + (t.length + 1)) q := by
  have hneg := ne_neg hf
  obtain ⟨hnum, hle, hleft, hfull, hlast⟩ := hf
  generalize hr : k % 1024 = r at *
  have hr1 : r < 1024 := by omega
  have hbl : f.buf.length ≤ 1024 := by
    cases h : f.eof with
    | false => exact Nat.le_of_eq (hfull h)
    | true => exact Nat.le_of_lt (hlast h).1
  by_cases hin : t.length < (f.buf.drop r).length
  · -- the end is in the buffer
    have hdrop : f.buf.drop r = t ++ c :: (f.buf.drop r).drop (t.length + 1) := by
      have h1 : (f.buf.drop r).take (t.length + 1) = t ++ [c] := by
        have h2 : (f.buf.drop r ++ f.rest).take (t.length + 1) =
            (f.buf.drop r).take (t.length + 1) := by
          rw [List.take_append_of_le_length]; omega
        rw [← h2, hleft, take_line]
      conv_lhs => rw [← List.take_append_drop (t.length + 1) (f.buf.drop r), h1]
      simp
    have hq : (f.buf.drop r).drop (t.length + 1) ++ f.rest = q := by
      rw [hdrop] at hleft
      simpa using hleft
    have hmt : mt newline f.buf f.number = ((r + t.length : Nat) : Int) := by
      rw [hnum, mt_nat, hdrop, search_hit _ _ _ _ ht hc]
    have hlen : r + t.length + 1 ≤ f.buf.length := by
      rw [List.length_drop] at hin
      omega
    have e1 : getline max f js = within max f js ((r + t.length : Nat) : Int) := by
      have h2 : ¬ (((r + t.length : Nat) : Int) = -2) := by omega
      simp only [getline, hneg, if_false, hmt, h2, false_and]
    refine ⟨refill { f with number := ((r + t.length + 1 : Nat) : Int) }, ?_, ?_⟩
    · have h3 : ((r + t.length : Nat) : Int) + 1 - (r : Int) < max := by omega
      rw [e1, within, hnum, if_pos h3]
      have e2 : substrTo max f.buf r (((r + t.length : Nat) : Int) + 1 - r) js = t ++ [c] := by
        have h4 : ¬ ((r : Int) < 0 ∨ ((r + t.length : Nat) : Int) + 1 - r < 0 ∨
            (r : Int) ≥ f.buf.length ∨
            (r : Int) + (((r + t.length : Nat) : Int) + 1 - r) > f.buf.length ∨
            ((r + t.length : Nat) : Int) + 1 - r ≥ max) := by omega
        have h5 : (((r + t.length : Nat) : Int) + 1 - r).toNat = t.length + 1 := by omega
        rw [substrTo, if_neg h4, h5, Int.toNat_natCast, hdrop, take_line]
      rw [e2]
      rfl
    · refine at_refill f _ _ q hlen ?_ ?_ hfull hlast
      · omega
      · rw [List.drop_drop] at hq
        rw [← hq, Nat.add_assoc]
  · -- the line goes on in the next block
    rw [Nat.not_lt] at hin
    have heof : f.eof = false := by
      cases h : f.eof with
      | false => rfl
      | true =>
        obtain ⟨-, h6⟩ := hlast h
        rw [h6, List.append_nil] at hleft
        have := congrArg List.length hleft
        simp only [List.length_append, List.length_cons] at this
        omega
    have hb := hfull heof
    have hpl : (f.buf.drop r).length = 1024 - r := by rw [List.length_drop, hb]
    obtain ⟨t2, htt, hrest⟩ : ∃ t2, t = f.buf.drop r ++ t2 ∧ f.rest = t2 ++ c :: q := by
      have h1 : f.buf.drop r = t.take (f.buf.drop r).length := by
        have h2 : (f.buf.drop r ++ f.rest).take (f.buf.drop r).length = f.buf.drop r := by simp
        rw [hleft, List.take_append_of_le_length hin] at h2
        exact h2.symm
      refine ⟨t.drop (f.buf.drop r).length, ?_, ?_⟩
      · conv_lhs => rw [← List.take_append_drop (f.buf.drop r).length t, ← h1]
      · have h2 : (f.buf.drop r ++ f.rest).drop (f.buf.drop r).length = f.rest := by simp
        rw [hleft, List.drop_append_of_le_length hin] at h2
        exact h2.symm
    have hlen2 : t.length = 1024 - r + t2.length := by
      rw [htt, List.length_append, hpl]
    have ht1 : OneLine (f.buf.drop r) := fun x hx => ht x (by rw [htt]; simp [hx])
    have ht2 : OneLine t2 := fun x hx => ht x (by rw [htt]; simp [hx])
    have hmt : mt newline f.buf f.number = -2 := by
      rw [hnum, mt_nat, search_none _ _ ht1]
    have e1 : getline max f js = across max f js := by
      simp only [getline, hneg, if_false, hmt, heof, and_self, if_true]
    have hg : At (bufRead f) (k + (1024 - r)) (t2 ++ c :: q) := at_read f _ _ hrest heof (by omega)
    have hgnum : (k + (1024 - r)) % 1024 = 0 := by omega
    have hgb : (bufRead f).buf = t2 ++ c :: q.take (1024 - (t2.length + 1)) := by
      have h1 : (t2 ++ [c]).length ≤ 1024 := by simp; omega
      have h2 : t2 ++ c :: q = (t2 ++ [c]) ++ q := by simp
      simp only [bufRead, hrest]
      rw [h2, List.take_append, List.take_of_length_le h1]
      simp
    have hmt2 : mt newline (bufRead f).buf 0 = ((t2.length : Nat) : Int) := by
      have := mt_nat (bufRead f).buf 0
      rw [hgb, List.drop_zero, search_hit _ _ _ _ ht2 hc, Nat.zero_add] at this
      rw [hgb]
      exact this
    have hfits : (1024 : Int) + 1 - f.number < max := by rw [hnum]; omega
    have e2 : substrTo max f.buf f.number (1024 - f.number) js = f.buf.drop r := by
      have h4 : ¬ ((r : Int) < 0 ∨ (1024 : Int) - r < 0 ∨ (r : Int) ≥ f.buf.length ∨
          (r : Int) + (1024 - r) > f.buf.length ∨ (1024 : Int) - r ≥ max) := by omega
      have h5 : ((1024 : Int) - r).toNat = 1024 - r := by omega
      rw [hnum, substrTo, if_neg h4, h5, Int.toNat_natCast, ← hpl, List.take_length]
    have e3 : substrTo max (bufRead f).buf 0 ((t2.length : Int) + 1) [] = t2 ++ [c] := by
      have hgl : t2.length + 1 ≤ (bufRead f).buf.length := by rw [hgb]; simp
      have h4 : ¬ ((0 : Int) < 0 ∨ (t2.length : Int) + 1 < 0 ∨
          (0 : Int) ≥ (bufRead f).buf.length ∨
          (0 : Int) + ((t2.length : Int) + 1) > (bufRead f).buf.length ∨
          (t2.length : Int) + 1 ≥ max) := by omega
      have h5 : ((t2.length : Int) + 1).toNat = t2.length + 1 := by omega
      rw [substrTo, if_neg h4, h5, hgb]
      exact take_line _ _ _
    have e4 : appendTo max (t2 ++ [c]) (f.buf.drop r) = t ++ [c] := by
      have h6 : ¬ ((t2 ++ [c]).length + (f.buf.drop r).length ≥ max) := by
        rw [hpl]; simp; omega
      rw [appendTo, if_neg h6, ← List.append_assoc, ← htt]
    refine ⟨refill { bufRead f with number := ((t2.length + 1 : Nat) : Int) }, ?_, ?_⟩
    · have hs : mt newline (bufRead f).buf 0 ≠ -2 := by rw [hmt2]; omega
      have h7 : ((t2.length : Nat) : Int) ≠ -2 := by omega
      rw [e1]
      simp only [across, hfits, decide_true, if_true, Bool.not_true, e2,
        skip_stop max _ (bufRead f) _ _ (Or.inl hs), hmt2, e3, e4, h7, ne_eq, not_false_iff,
        Bool.false_eq_true, if_false]
      rfl
    · refine at_refill (bufRead f) _ _ q ?_ ?_ ?_ hg.full hg.last
      · rw [hgb]; simp
      · omega
      · have h8 := hg.left
        rw [hgnum, List.drop_zero, hgb] at h8
        rw [hgb]
        have h9 : (t2 ++ c :: q.take (1024 - (t2.length + 1))).drop (t2.length + 1) =
            q.take (1024 - (t2.length + 1)) := by
          exact drop_line _ _ _
        rw [h9]
        simpa using h8

end Mara.Getline
