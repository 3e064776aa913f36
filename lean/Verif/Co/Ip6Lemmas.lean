import Verif.Co.TextModel
import Verif.Spec.ZoneText
import Verif.Spec.Ip6
import Mathlib.Tactic.SplitIfs
/-!
# coLunacyDNS: reading IPv6 addresses, helper lemmas
-/

namespace Co
open Spec.ZoneText (Ip6)

/-! ## Texts with colons -/

theorem digit_hex {c : UInt8} {x : Nat} (k : Nat) (h : Spec.ZoneText.hexDigit c = some x) : digit k c = some x ∧ x < 16 ∧ c ≠ 58 := by
  unfold Spec.ZoneText.hexDigit Spec.ZoneText.isDigit at h
  have a : c.toNat < 256 := c.toNat_lt
  unfold digit
  simp only [UInt8.le_iff_toNat_le, ← UInt8.toNat_inj] at *
  simp at *
  split_ifs at h ⊢ <;> simp only [Option.some.injEq] at h <;> first
    | exact ⟨congrArg some h, by omega, by rintro rfl; simp at *⟩
    | omega
    | simp at h

theorem hex_some {g : List UInt8} (h : ∀ c ∈ g, (Spec.ZoneText.hexDigit c).isSome) {c : UInt8} (hc : c ∈ g) :
    ∃ x, Spec.ZoneText.hexDigit c = some x := Option.isSome_iff_exists.mp (h c hc)

theorem hex_not_colon {c : UInt8} (h : (Spec.ZoneText.hexDigit c).isSome) : c ≠ 58 := by
  obtain ⟨x, hx⟩ := Option.isSome_iff_exists.mp h
  exact (digit_hex 0 hx).2.2

theorem p1_plain (g rest : List UInt8) (s : Seen) (hg : ∀ c ∈ g, c ≠ 58) (hl : s.last ≠ 58 ∨ g ≠ []) (hi : s.index + g.length ≤ 100) :
    ∃ k, k ≠ 58 ∧ pass1 (g ++ rest) s = pass1 rest ⟨k, s.double, s.after, s.colons, s.index + g.length⟩ := by
  induction g generalizing s with
  | nil => exact ⟨s.last, by simpa using hl, rfl⟩
  | cons c g ih =>
    have hc : c ≠ 58 := hg c (by simp)
    simp only [List.length_cons] at hi
    obtain ⟨k, hk, e⟩ := ih ⟨c, s.double, s.after, s.colons, s.index + 1⟩ (fun x hx => hg x (by simp [hx])) (.inl hc) (by simp; omega)
    refine ⟨k, hk, ?_⟩
    rw [List.cons_append, pass1]
    simp only [hc, false_and, and_false, if_false, show s.index < 100 by omega, if_true]
    rw [e]
    simp only [List.length_cons]
    congr 2; omega

theorem p1_colon (rest : List UInt8) (s : Seen) (hl : s.last ≠ 58) (hi : s.index < 100) :
    pass1 (58 :: rest) s = pass1 rest ⟨58, s.double, if s.double ≠ none then s.after + 1 else s.after, s.colons + 1, s.index + 1⟩ := by
  rw [pass1]
  simp [hl, hi]

theorem p1_join (l : List (List UInt8)) (rest : List UInt8) (s : Seen) (hl : ∀ g ∈ l, Ip6.GroupOk g) (hn : l ≠ [])
    (hi : s.index + (Ip6.join l).length ≤ 100) :
    ∃ k, k ≠ 58 ∧ pass1 (Ip6.join l ++ rest) s =
      pass1 rest ⟨k, s.double, if s.double ≠ none then s.after + (l.length - 1) else s.after, s.colons + (l.length - 1), s.index + (Ip6.join l).length⟩ := by
  induction l generalizing s with
  | nil => simp at hn
  | cons g l ih =>
    have og := hl g (by simp)
    have gc : ∀ c ∈ g, c ≠ 58 := fun c hc => hex_not_colon (og.2.2 c hc)
    have gn : g ≠ [] := by intro h; have := og.1; simp [h] at this
    cases l with
    | nil =>
      simp only [Ip6.join] at hi ⊢
      obtain ⟨k, hk, e⟩ := p1_plain g rest s gc (.inr gn) hi
      refine ⟨k, hk, e.trans ?_⟩
      simp
    | cons g2 l =>
      rw [show Ip6.join (g :: g2 :: l) = g ++ 58 :: Ip6.join (g2 :: l) from rfl] at hi ⊢
      simp only [List.length_append, List.length_cons] at hi
      obtain ⟨k, hk, e⟩ := p1_plain g (58 :: Ip6.join (g2 :: l) ++ rest) s gc (.inr gn) (by omega)
      rw [List.append_assoc, e, List.cons_append, p1_colon _ _ hk (by simp; omega)]
      obtain ⟨k2, hk2, e2⟩ := ih ⟨58, s.double, if s.double ≠ none then s.after + 1 else s.after, s.colons + 1, s.index + g.length + 1⟩
        (fun x hx => hl x (by simp [hx])) (by simp) (by simp; omega)
      refine ⟨k2, hk2, e2.trans ?_⟩
      simp only [List.length_cons, List.length_append]
      congr 2
      · split <;> omega
      · omega
      · omega

/-- The accumulator after the bytes `w` were written. -/
def acc (w : List UInt8) (q d n h : Nat) : Acc := ⟨q, d, w.length, n, h, w ++ List.replicate (16 - w.length) 0⟩

/-- Two bytes of a number. -/
def pair (q : Nat) : List UInt8 := [UInt8.ofNat (q / 256), UInt8.ofNat q]

theorem put_group (w : List UInt8) (a b : UInt8) (h : w.length + 1 < 16) :
    ((w ++ List.replicate (16 - w.length) 0).set (w.length + 1) b).set w.length a =
      (w ++ [a, b]) ++ List.replicate (16 - (w.length + 2)) 0 := by
  obtain ⟨k, hk⟩ : ∃ k, 16 - w.length = k + 2 := ⟨16 - w.length - 2, by omega⟩
  rw [hk, show 16 - (w.length + 2) = k by omega]
  simp [List.replicate_succ]

theorem end_write {dg lst : Bool} {w : List UInt8} {q d n h : Nat} (hw : w.length + 1 < 16) (hc : (d = 4 ∧ dg) ∨ d = 8 ∨ lst) :
    endGroup dg lst (acc w q d n h) = some (acc (w ++ pair q) 0 (if d = 8 then 0 else d) (n + 1) h) := by
  unfold endGroup acc
  simp only [if_pos hc, show ¬ 16 ≤ w.length + 1 by omega, if_false]
  rw [put_group w _ _ hw]
  simp [pair]

theorem end_skip {dg lst : Bool} {w : List UInt8} {q d n h : Nat} (hc : ¬ ((d = 4 ∧ dg) ∨ d = 8 ∨ lst)) :
    endGroup dg lst (acc w q d n h) = some (acc w q d n h) := by
  unfold endGroup acc
  simp only [if_neg hc]

theorem p2_digit {seen : Seen} {c : UInt8} {x : Nat} (cs : List UInt8) (i : Nat) {w : List UInt8} {q d n h : Nat}
    (hc : seen.colons ≠ 0) (hx : Spec.ZoneText.hexDigit c = some x) (hd : d < 4) (hq : q * 16 + x < 65536) :
    pass2 seen (c :: cs) i (acc w q d n h) =
      (endGroup true cs.isEmpty (acc w (q * 16 + x) (d + 1) n (h + 1))).bind (pass2 seen cs (i + 1)) := by
  have dx := (digit_hex seen.colons hx).1
  rw [pass2]
  simp only [dx, takeDigit, acc, show ¬ (d + 1 = 5 ∧ seen.colons ≠ 0) by omega, if_false, Nat.mod_eq_of_lt hq]
  rfl

theorem p2_colon {seen : Seen} (cs : List UInt8) (i : Nat) {w : List UInt8} {q d n h : Nat}
    (hdb : seen.double ≠ some i) :
    pass2 seen (58 :: cs) i (acc w q d n h) =
      (endGroup false cs.isEmpty (acc w q (if d = 4 then 0 else if d ≠ 0 then 8 else 0) n h)).bind (pass2 seen cs (i + 1)) := by
  have dc : digit seen.colons 58 = none := by unfold digit; simp
  rw [pass2]
  by_cases h4 : d = 4
  · subst h4
    simp only [dc, takeColon, acc, hdb, if_false, if_true]
    rfl
  · by_cases h0 : d = 0
    · subst h0
      simp only [dc, takeColon, acc, hdb, if_false, if_true, h4, ne_eq, not_true]
      rfl
    · simp only [dc, takeColon, acc, hdb, if_false, if_true, h4, ne_eq, h0, not_false_iff]
      rfl

theorem group_fold (g : List UInt8) : Ip6.group g = pair (g.foldl (fun v c => v * 16 + (Spec.ZoneText.hexDigit c).getD 0) 0) := rfl

/-- The digits of a group up to the third, and the fourth if it is not the last one. -/
theorem p2_digits {seen : Seen} (g : List UInt8) (tail : List UInt8) (i : Nat) {w : List UInt8} {q d n h : Nat}
    (hc : seen.colons ≠ 0) (hg : ∀ c ∈ g, (Spec.ZoneText.hexDigit c).isSome) (hd : d + g.length < 4) (hq : q < 16 ^ d) (ht : tail ≠ []) :
    pass2 seen (g ++ tail) i (acc w q d n h) =
        pass2 seen tail (i + g.length) (acc w (g.foldl (fun v c => v * 16 + (Spec.ZoneText.hexDigit c).getD 0) q) (d + g.length) n (h + g.length)) ∧
      g.foldl (fun v c => v * 16 + (Spec.ZoneText.hexDigit c).getD 0) q < 16 ^ (d + g.length) := by
  induction g generalizing i q d h with
  | nil => exact ⟨rfl, hq⟩
  | cons c g ih =>
    obtain ⟨x, hx⟩ := hex_some hg (c := c) (by simp)
    have lx := (digit_hex 0 hx).2.1
    simp only [List.length_cons] at hd
    have hq' : q * 16 + x < 16 ^ (d + 1) := by rw [Nat.pow_succ]; omega
    have big : 16 ^ (d + 1) ≤ 16 ^ 3 := Nat.pow_le_pow_right (by omega) (by omega)
    obtain ⟨e, f⟩ := ih (i + 1) (q := q * 16 + x) (d := d + 1) (h := h + 1) (fun y hy => hg y (by simp [hy])) (by omega) hq'
    have ne : (g ++ tail).isEmpty = false := by cases g <;> cases tail <;> simp_all
    simp only [List.foldl_cons, hx, Option.getD_some, List.length_cons]
    rw [show d + (g.length + 1) = d + 1 + g.length by omega]
    refine ⟨?_, f⟩
    rw [List.cons_append, p2_digit _ _ hc hx (by omega) (by omega), ne, end_skip (by simp; omega)]
    rw [show i + (g.length + 1) = i + 1 + g.length by omega, show h + (g.length + 1) = h + 1 + g.length by omega]
    exact e

theorem split_last (g : List UInt8) (h : 1 ≤ g.length) : ∃ f c, g = f ++ [c] := by
  rcases List.eq_nil_or_concat g with e | ⟨f, c, e⟩
  · simp [e] at h
  · exact ⟨f, c, by simpa using e⟩

/-- A group with a colon after it. -/
theorem p2_group (seen : Seen) (g tail : List UInt8) (i : Nat) (w : List UInt8) (n h : Nat) (hg : Ip6.GroupOk g)
    (hc : seen.colons ≠ 0) (hw : w.length + 1 < 16) (ht : tail ≠ []) (hd : seen.double ≠ some (i + g.length)) :
    pass2 seen (g ++ 58 :: tail) i (acc w 0 0 n h) =
      pass2 seen tail (i + g.length + 1) (acc (w ++ Ip6.group g) 0 0 (n + 1) (h + g.length)) := by
  have te : tail.isEmpty = false := by cases tail <;> simp_all
  obtain ⟨h1, h4, hh⟩ := hg
  by_cases l4 : g.length = 4
  · obtain ⟨f, c, rfl⟩ := split_last g h1
    simp only [List.length_append, List.length_cons, List.length_nil] at l4 hd ⊢
    obtain ⟨e, b⟩ := p2_digits (seen := seen) (w := w) (q := 0) (d := 0) (n := n) (h := h) f (c :: 58 :: tail) i hc
      (fun y hy => hh y (by simp [hy])) (by omega) (by simp) (by simp)
    obtain ⟨x, hx⟩ := hex_some hh (c := c) (by simp)
    have lx := (digit_hex 0 hx).2.1
    have big : 16 ^ (0 + f.length) = 16 ^ 3 := by rw [show 0 + f.length = 3 by omega]
    rw [group_fold, List.foldl_append, List.append_assoc, List.singleton_append, e,
      p2_digit _ _ hc hx (by omega) (by omega), end_write hw (.inl ⟨by omega, rfl⟩)]
    simp only [Option.bind_some]
    rw [p2_colon _ _ (by simpa [Nat.add_assoc] using hd), te, end_skip (by simp; split <;> omega)]
    simp only [Option.bind_some, List.foldl_cons, List.foldl_nil, hx, Option.getD_some]
    rw [show (0 + f.length + 1) = 4 by omega]
    simp [Nat.add_assoc]
  · obtain ⟨e, b⟩ := p2_digits (seen := seen) (w := w) (q := 0) (d := 0) (n := n) (h := h) g (58 :: tail) i hc hh (by omega) (by simp) (by simp)
    rw [group_fold, e, p2_colon _ _ hd, te]
    rw [show (if 0 + g.length = 4 then 0 else if 0 + g.length ≠ 0 then 8 else 0) = 8 by rw [if_neg (by omega), if_pos (by omega)]]
    rw [end_write hw (.inr (.inl rfl))]
    rfl

/-- The last group. -/
theorem p2_last (seen : Seen) (g : List UInt8) (i : Nat) (w : List UInt8) (n h : Nat) (hg : Ip6.GroupOk g)
    (hc : seen.colons ≠ 0) (hw : w.length + 1 < 16) :
    ∃ d k, pass2 seen g i (acc w 0 0 n h) = some (acc (w ++ Ip6.group g) 0 d (n + 1) k) := by
  obtain ⟨h1, h4, hh⟩ := hg
  obtain ⟨f, c, rfl⟩ := split_last g h1
  simp only [List.length_append, List.length_cons, List.length_nil] at h4
  obtain ⟨e, b⟩ := p2_digits (seen := seen) (w := w) (q := 0) (d := 0) (n := n) (h := h) f [c] i hc
    (fun y hy => hh y (by simp [hy])) (by omega) (by simp) (by simp)
  obtain ⟨x, hx⟩ := hex_some hh (c := c) (by simp)
  have lx := (digit_hex 0 hx).2.1
  have big : 16 ^ (0 + f.length) ≤ 16 ^ 3 := Nat.pow_le_pow_right (by omega) (by omega)
  refine ⟨if 0 + f.length + 1 = 8 then 0 else 0 + f.length + 1, h + f.length + 1, ?_⟩
  rw [group_fold, List.foldl_append, e, p2_digit _ _ hc hx (by omega) (by omega),
    end_write (lst := ([] : List UInt8).isEmpty) hw (.inr (.inr rfl))]
  simp only [Option.bind_some, List.foldl_cons, List.foldl_nil, hx, Option.getD_some]
  rfl

theorem group_len (l : List (List UInt8)) : (l.flatMap Ip6.group).length = 2 * l.length := by
  induction l with
  | nil => rfl
  | cons g l ih => simp only [List.flatMap_cons, List.length_append, ih, List.length_cons]; simp [Ip6.group]; omega

theorem join_cons {g : List UInt8} {l : List (List UInt8)} (h : l ≠ []) : Ip6.join (g :: l) = g ++ 58 :: Ip6.join l := by
  cases l with
  | nil => simp at h
  | cons a l => rfl

theorem join_ne {l : List (List UInt8)} (hl : ∀ g ∈ l, Ip6.GroupOk g) (h : l ≠ []) : Ip6.join l ≠ [] := by
  rcases l with _ | ⟨g, _ | ⟨g2, l⟩⟩
  · simp at h
  · intro e
    have := (hl g (by simp)).1
    simp only [Ip6.join] at e
    simp [e] at this
  · rw [join_cons (by simp)]; simp

/-- Groups up to the end. -/
theorem p2_groups (seen : Seen) (l : List (List UInt8)) (i : Nat) (w : List UInt8) (n h : Nat) (hl : ∀ g ∈ l, Ip6.GroupOk g)
    (hn : l ≠ []) (hc : seen.colons ≠ 0) (hw : w.length + 2 * l.length ≤ 16) (hd : ∀ j, seen.double = some j → j < i) :
    ∃ d k, pass2 seen (Ip6.join l) i (acc w 0 0 n h) = some (acc (w ++ l.flatMap Ip6.group) 0 d (n + l.length) k) := by
  induction l generalizing i w n h with
  | nil => simp at hn
  | cons g l ih =>
    simp only [List.length_cons] at hw
    by_cases hl0 : l = []
    · subst hl0
      obtain ⟨d, k, e⟩ := p2_last seen g i w n h (hl g (by simp)) hc (by omega)
      exact ⟨d, k, by simpa [Ip6.join] using e⟩
    · rw [join_cons hl0, p2_group seen g _ i w n h (hl g (by simp)) hc (by omega) (join_ne (fun x hx => hl x (by simp [hx])) hl0)
        (by intro e; have := hd _ e; omega)]
      obtain ⟨d, k, e⟩ := ih (i + g.length + 1) (w ++ Ip6.group g) (n + 1) (h + g.length) (fun x hx => hl x (by simp [hx])) hl0
        (by simp [Ip6.group]; omega) (fun j hj => by have := hd j hj; omega)
      refine ⟨d, k, e.trans ?_⟩
      simp only [List.flatMap_cons, List.append_assoc, List.length_cons]
      rw [show n + 1 + l.length = n + (l.length + 1) by omega]

/-- Groups with a colon after the last one. -/
theorem p2_groups_colon (seen : Seen) (l : List (List UInt8)) (tail : List UInt8) (i : Nat) (w : List UInt8) (n h : Nat) (hl : ∀ g ∈ l, Ip6.GroupOk g)
    (hn : l ≠ []) (hc : seen.colons ≠ 0) (hw : w.length + 2 * l.length ≤ 16) (ht : tail ≠ [])
    (hd : ∀ j, seen.double = some j → i + (Ip6.join l).length < j) :
    ∃ k, pass2 seen (Ip6.join l ++ 58 :: tail) i (acc w 0 0 n h) =
      pass2 seen tail (i + (Ip6.join l).length + 1) (acc (w ++ l.flatMap Ip6.group) 0 0 (n + l.length) k) := by
  induction l generalizing i w n h with
  | nil => simp at hn
  | cons g l ih =>
    simp only [List.length_cons] at hw
    by_cases hl0 : l = []
    · subst hl0
      simp only [Ip6.join] at hd ⊢
      exact ⟨h + g.length, by rw [p2_group seen g _ i w n h (hl g (by simp)) hc (by omega) ht (by intro e; have := hd _ e; omega)]; simp⟩
    · rw [join_cons hl0] at hd ⊢
      simp only [List.length_append, List.length_cons] at hd ⊢
      rw [List.append_assoc, List.cons_append,
        p2_group seen g _ i w n h (hl g (by simp)) hc (by omega) (by simp) (by intro e; have := hd _ e; omega)]
      obtain ⟨k, e⟩ := ih (i + g.length + 1) (w ++ Ip6.group g) (n + 1) (h + g.length) (fun x hx => hl x (by simp [hx])) hl0
        (by simp [Ip6.group]; omega) (fun j hj => by have := hd j hj; omega)
      refine ⟨k, e.trans ?_⟩
      simp only [List.flatMap_cons, List.append_assoc]
      rw [show n + 1 + l.length = n + (l.length + 1) by omega,
        show i + g.length + 1 + (Ip6.join l).length + 1 = i + (g.length + ((Ip6.join l).length + 1)) + 1 by omega]

/-! ## 32 digits -/

theorem hexVal_digit {c : UInt8} {x : Nat} (h : Spec.hexVal c = some x) : digit 0 c = some x ∧ x < 16 ∧ c ≠ 58 ∧ Spec.isSep c = false := by
  unfold Spec.hexVal at h
  have a : c.toNat < 256 := c.toNat_lt
  unfold digit Spec.isSep
  simp only [UInt8.le_iff_toNat_le, ← UInt8.toNat_inj] at *
  simp at *
  simp only [← UInt8.toNat_inj]
  split_ifs at h ⊢ <;> simp only [Option.some.injEq] at h ⊢ <;> first
    | (refine ⟨by omega, by omega, ?_, ?_, ?_⟩ <;> simp <;> omega)
    | omega
    | simp at h

theorem sep_digit {c : UInt8} (h : Spec.isSep c = true) : digit 0 c = none ∧ c ≠ 58 ∧ (c = 45 ∨ c = 32) := by
  simp only [Spec.isSep, Bool.or_eq_true, beq_iff_eq] at h
  rcases h with rfl | rfl <;> simp [digit]

/-- The value of some digits. -/
def value (l : List Nat) : Nat := l.foldl (fun v x => v * 16 + x) 0

/-- The accumulator after the bytes `w` and the digits `part`. -/
def accD (w : List UInt8) (part : List Nat) : Acc :=
  acc w (value part) ((2 * w.length + part.length) % 8) (w.length / 2) (2 * w.length + part.length)

theorem value_snoc (l : List Nat) (x : Nat) : value (l ++ [x]) = value l * 16 + x := by simp [value]

theorem value_lt (l : List Nat) (h : ∀ x ∈ l, x < 16) : value l < 16 ^ l.length := by
  have main : ∀ (l : List Nat) (v k : Nat), v < 16 ^ k → (∀ x ∈ l, x < 16) → l.foldl (fun v x => v * 16 + x) v < 16 ^ (k + l.length) := by
    intro l
    induction l with
    | nil => intro v k hv _; exact hv
    | cons x l ih =>
      intro v k hv hx
      have := hx x (by simp)
      rw [List.foldl_cons, List.length_cons, show k + (l.length + 1) = k + 1 + l.length by omega]
      exact ih _ _ (by rw [Nat.pow_succ]; omega) fun y hy => hx y (by simp [hy])
  have := main l 0 0 (by simp) h
  rwa [Nat.zero_add] at this

theorem pair_four (a b c d : Nat) (r : List Nat) (hc : c < 16) (hd : d < 16) :
    pair (value [a, b, c, d]) ++ Spec.pairUp r = Spec.pairUp ([a, b, c, d] ++ r) := by
  have e1 : (((a * 16 + b) * 16 + c) * 16 + d) / 256 = a * 16 + b := by omega
  have e2 : UInt8.ofNat (((a * 16 + b) * 16 + c) * 16 + d) = UInt8.ofNat (c * 16 + d) := by
    apply UInt8.toNat_inj.mp; rw [UInt8.toNat_ofNat', UInt8.toNat_ofNat']; omega
  simp only [pair, value, List.foldl_cons, List.foldl_nil, Nat.zero_mul, Nat.zero_add, List.cons_append, List.nil_append, Spec.pairUp, e1, e2]

theorem p2_plain (seen : Seen) (text : List UInt8) (i : Nat) (w : List UInt8) (part ds : List Nat)
    (hc : seen.colons = 0) (hw : w.length % 2 = 0) (hp : part.length < 4) (hp16 : ∀ x ∈ part, x < 16)
    (hn : 2 * w.length + part.length + ds.length = 32) (hds : ds ≠ [])
    (hd : (text.filter fun c => !Spec.isSep c).map Spec.hexVal = ds.map some)
    (hl : ∀ c, text.getLast? = some c → Spec.isSep c = false) :
    ∃ r, pass2 seen text i (accD w part) = some r ∧ r.hex = 32 ∧ r.ip = w ++ Spec.pairUp (part ++ ds) := by
  induction text generalizing i w part ds with
  | nil => cases ds <;> simp_all
  | cons c cs ih =>
    cases hs : Spec.isSep c with
    | true =>
      obtain ⟨dg, nc, cc⟩ := sep_digit hs
      have hcs : cs ≠ [] := by
        rintro rfl
        have := hl c (by simp)
        simp [hs] at this
      rw [pass2]
      simp only [hc, dg, nc, if_false, cc, if_true]
      have e8 : (2 * w.length + part.length) % 8 ≠ 8 := by omega
      have es : endGroup false cs.isEmpty (accD w part) = some (accD w part) := by
        refine end_skip ?_
        have : cs.isEmpty = false := by cases cs <;> simp_all
        simp [this, e8]
      obtain ⟨r, h⟩ := ih (i + 1) w part ds hw hp hp16 hn hds (by simpa [hs] using hd)
        (fun x hx => hl x (by rw [List.getLast?_cons_of_ne_nil hcs]; exact hx))
      refine ⟨r, ?_, h.2⟩
      simp only [Option.isSome_none]
      exact (congrArg (fun o : Option Acc => o.bind fun s => pass2 seen cs (i + 1) s) es).trans h.1
    | false =>
      cases ds with
      | nil => simp at hds
      | cons x ds =>
        simp only [List.filter_cons, hs, Bool.not_false, if_true, List.map_cons, List.cons.injEq] at hd
        obtain ⟨dg, lx, nc, -⟩ := hexVal_digit hd.1
        have hv := value_lt part hp16
        have p3 : 16 ^ part.length ≤ 16 ^ 3 := Nat.pow_le_pow_right (by omega) (by omega)
        have td : takeDigit seen.colons x (accD w part) =
            some (acc w (value (part ++ [x])) ((2 * w.length + part.length) % 8 + 1) (w.length / 2) (2 * w.length + part.length + 1)) := by
          unfold takeDigit
          simp only [hc, ne_eq, not_true, and_false, if_false, accD, acc, value_snoc]
          rw [Nat.mod_eq_of_lt (by omega)]
        have start : pass2 seen (c :: cs) i (accD w part) =
            (endGroup true cs.isEmpty (acc w (value (part ++ [x])) ((2 * w.length + part.length) % 8 + 1) (w.length / 2)
              (2 * w.length + part.length + 1))).bind (pass2 seen cs (i + 1)) := by
          rw [pass2]
          simp only [hc, dg] at td ⊢
          rw [td]
          rfl
        rw [start]
        simp only [List.length_cons] at hn
        by_cases four : part.length = 3
        · have ew : endGroup true cs.isEmpty (acc w (value (part ++ [x])) ((2 * w.length + part.length) % 8 + 1) (w.length / 2)
              (2 * w.length + part.length + 1)) = some (accD (w ++ pair (value (part ++ [x]))) []) := by
            rw [end_write (by omega) (by simp; omega)]
            simp only [accD, List.length_append, List.length_nil, value, List.foldl_nil]
            congr 2
            · split <;> (simp [pair]; omega)
            · simp [pair]
            · simp [pair]; omega
          rw [ew, Option.bind_some]
          obtain ⟨a, b, d, rfl⟩ : ∃ a b d, part = [a, b, d] := by
            match part, four with
            | [a, b, d], _ => exact ⟨a, b, d, rfl⟩
          have pf := pair_four a b d x ds (hp16 d (by simp)) lx
          cases ds with
          | nil =>
            have : cs = [] := by
              rcases List.eq_nil_or_concat cs with h | ⟨f, y, rfl⟩
              · exact h
              · have hy := hl y (by rw [List.getLast?_cons_of_ne_nil (by simp)]; simp)
                have := hd.2
                simp [hy] at this
            subst this
            refine ⟨_, rfl, ?_, ?_⟩
            · simp [accD, acc, pair] at hn ⊢; omega
            · have := pf
              rw [show Spec.pairUp ([] : List Nat) = [] from rfl, List.append_nil, List.append_nil] at this
              simp only [accD, acc, List.cons_append, List.nil_append]
              rw [show 16 - (w ++ pair (value [a, b, d, x])).length = 0 by simp [pair] at hn ⊢; omega]
              rw [← this]; simp
          | cons y ds =>
            obtain ⟨r, h1, h2, h3⟩ := ih (i + 1) (w ++ pair (value ([a, b, d] ++ [x]))) [] (y :: ds) (by simp [pair]; omega) (by simp) (by simp)
              (by simp [pair] at hn ⊢; omega) (by simp) hd.2
              (fun z hz => hl z (by
                have : cs ≠ [] := by rintro rfl; simp at hz
                rw [List.getLast?_cons_of_ne_nil this]; exact hz))
            refine ⟨r, h1, h2, h3.trans ?_⟩
            rw [List.append_assoc]
            congr 1
        · have hds' : ds ≠ [] := by
            rintro rfl
            simp at hn
            omega
          have hcs : cs ≠ [] := by
            rintro rfl
            cases ds <;> simp_all
          have ce : cs.isEmpty = false := by cases cs <;> simp_all
          have ek : endGroup true cs.isEmpty (acc w (value (part ++ [x])) ((2 * w.length + part.length) % 8 + 1) (w.length / 2)
              (2 * w.length + part.length + 1)) = some (accD w (part ++ [x])) := by
            rw [end_skip (by simp [ce]; omega)]
            simp only [accD, List.length_append, List.length_singleton]
            congr 2
            omega
          rw [ek, Option.bind_some]
          obtain ⟨r, h1, h2, h3⟩ := ih (i + 1) w (part ++ [x]) ds hw (by simp; omega)
            (fun y hy => by simp at hy; exact hy.elim (hp16 y) (fun h => h ▸ lx))
            (by simp; omega) hds' hd.2
            (fun z hz => hl z (by rw [List.getLast?_cons_of_ne_nil hcs]; exact hz))
          exact ⟨r, h1, h2, by rw [h3]; simp⟩

end Co
