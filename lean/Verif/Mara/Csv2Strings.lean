import Verif.Mara.Csv2Ip6
/-!
# Lemmas: strings in zone files
-/

namespace Mara
namespace Csv2

open Dw (Res)
open Spec.ZoneText

/-- More text in a string. -/
def TxtOut.add (o : TxtOut) (d : List UInt8) : TxtOut := { o with piece := o.piece ++ d, len := o.len + d.length }

theorem add_add (o : TxtOut) (a b : List UInt8) : (o.add a).add b = o.add (a ++ b) := by simp [TxtOut.add]; omega

theorem add_nil (o : TxtOut) : o.add [] = o := by simp [TxtOut.add]

theorem add_size (raw : Bool) (o : TxtOut) (d : List UInt8) : (o.add d).size raw = o.size raw + d.length := by
  simp [TxtOut.size, TxtOut.add]
  omega

theorem txtAppend_run {raw : Bool} {o : TxtOut} {c : UInt8} (hc : c.toNat < 128) (ho : o.size raw + 1 ≤ 1511) (s : Stream) :
    txtAppend raw o c.toNat s = .ok (some (o.add [c]), s) := by
  have h1 : ¬ ((c.toNat : Int) < 0) := by omega
  have h2 : (c.toNat : Int) < 0x80 := by omega
  have h3 : ¬ (o.size raw + [c].length > 1513) := by simp; omega
  have h4 : ¬ ((c.toNat : Int) ≥ 0x200000) := by omega
  simp only [txtAppend, utf8Bytes, h1, h2, if_true, if_false, Int.toNat_natCast, UInt8.ofNat_toNat, h3, h4]
  rfl

theorem txtByte_run {raw : Bool} {o : TxtOut} (n : Nat) (ho : o.size raw + 1 ≤ 1511) (s : Stream) :
    txtByte raw o n s = .ok (some (o.add [UInt8.ofNat n]), s) := by
  rw [txtByte, if_neg (by omega)]
  rfl

theorem bare_facts (c : UInt8) (h : Bit.isBare c = true) : isBchar c.toNat = true ∧ c.toNat < 128 ∧ c ≠ 123 ∧ c ≠ 126 := by
  have key : ∀ n : Fin 256, Bit.isBare (UInt8.ofNat n) = true → isBchar (UInt8.ofNat n).toNat = true ∧
      (UInt8.ofNat n).toNat < 128 ∧ UInt8.ofNat n ≠ 123 ∧ UInt8.ofNat n ≠ 126 := by decide +kernel
  have := key ⟨c.toNat, c.toNat_lt⟩
  simp only [UInt8.ofNat_toNat] at this
  exact this h

theorem quotable_facts (c : UInt8) (h : Bit.isQuotable c = true) : c.toNat < 126 ∧ 32 ≤ c.toNat ∧ c ≠ 39 ∧ c ≠ 35 ∧ c ≠ 124 ∧ c ≠ 123 ∧
    c ≠ 126 := by
  have key : ∀ n : Fin 256, Bit.isQuotable (UInt8.ofNat n) = true → (UInt8.ofNat n).toNat < 126 ∧ 32 ≤ (UInt8.ofNat n).toNat ∧
      UInt8.ofNat n ≠ 39 ∧ UInt8.ofNat n ≠ 35 ∧ UInt8.ofNat n ≠ 124 ∧ UInt8.ofNat n ≠ 123 ∧ UInt8.ofNat n ≠ 126 := by decide +kernel
  have := key ⟨c.toNat, c.toNat_lt⟩
  simp only [UInt8.ofNat_toNat] at this
  exact this h

theorem isHex_facts (c : UInt8) (h : (hexDigit c).isSome = true) : isHex c.toNat = true ∧ c.toNat < 128 ∧ c ≠ 123 ∧ c ≠ 126 ∧
    hexVal c.toNat = (hexDigit c).getD 0 := by
  have key : ∀ n : Fin 256, (hexDigit (UInt8.ofNat n)).isSome = true → isHex (UInt8.ofNat n).toNat = true ∧
      (UInt8.ofNat n).toNat < 128 ∧ UInt8.ofNat n ≠ 123 ∧ UInt8.ofNat n ≠ 126 ∧ hexVal (UInt8.ofNat n).toNat = (hexDigit (UInt8.ofNat n)).getD 0 := by
    decide +kernel
  have := key ⟨c.toNat, c.toNat_lt⟩
  simp only [UInt8.ofNat_toNat] at this
  exact this h

theorem oct_facts (c : UInt8) (h : 48 ≤ c ∧ c ≤ 55) : (c.toNat : Int) ≥ 48 ∧ (c.toNat : Int) ≤ 55 ∧ c.toNat < 128 ∧ c ≠ 123 ∧ c ≠ 126 := by
  have key : ∀ n : Fin 256, 48 ≤ UInt8.ofNat n ∧ UInt8.ofNat n ≤ 55 → ((UInt8.ofNat n).toNat : Int) ≥ 48 ∧ ((UInt8.ofNat n).toNat : Int) ≤ 55 ∧
      (UInt8.ofNat n).toNat < 128 ∧ UInt8.ofNat n ≠ 123 ∧ UInt8.ofNat n ≠ 126 := by
    decide +kernel
  have := key ⟨c.toNat, c.toNat_lt⟩
  simp only [UInt8.ofNat_toNat] at this
  exact this h

theorem oct3_facts (c : UInt8) (h : 48 ≤ c ∧ c ≤ 51) : (c.toNat : Int) ≥ 48 ∧ (c.toNat : Int) ≤ 51 ∧ c.toNat < 128 ∧ c ≠ 123 ∧ c ≠ 126 := by
  have key : ∀ n : Fin 256, 48 ≤ UInt8.ofNat n ∧ UInt8.ofNat n ≤ 51 → ((UInt8.ofNat n).toNat : Int) ≥ 48 ∧ ((UInt8.ofNat n).toNat : Int) ≤ 51 ∧
      (UInt8.ofNat n).toNat < 128 ∧ UInt8.ofNat n ≠ 123 ∧ UInt8.ofNat n ≠ 126 := by
    decide +kernel
  have := key ⟨c.toNat, c.toNat_lt⟩
  simp only [UInt8.ofNat_toNat] at this
  exact this h

theorem txt_bare {s : Stream} (h : Plain s) (chunks : Int) (n : Nat) (o : TxtOut) (c : UInt8) (hc : Bit.isBare c = true)
    (ho : o.size (chunks = -1) + 1 ≤ 1511) (j : UInt8) (r : List UInt8) :
    txtLoop chunks (n + 1) .plain o (s.here j (c :: r)) = txtLoop chunks n .plain (o.add [c]) (s.here c r) := by
  obtain ⟨h1, h2, h3, h4⟩ := bare_facts c hc
  rw [txtLoop, bind_ok (readUnicode_here h j c r h3 h4 h2), bind_get, if_neg (by simp)]
  simp only []
  rw [if_pos h1, bind_ok (txtAppend_run h2 ho _)]

theorem txt_toSlash {s : Stream} (h : Plain s) (chunks : Int) (n : Nat) (o : TxtOut) (j : UInt8) (r : List UInt8) :
    txtLoop chunks (n + 1) .plain o (s.here j (92 :: r)) = txtLoop chunks n .slash o (s.here 92 r) := by
  have hr : readUnicode (s.here j (92 :: r)) = .ok (some 92, s.here 92 r) := readUnicode_here h j 92 r (by decide) (by decide) (by decide)
  rw [txtLoop, bind_ok hr, bind_get, if_neg (by simp)]
  simp only []
  rw [if_neg (by decide), if_neg (by simp [isDelim]), if_pos (by trivial)]

theorem txt_toQuote {s : Stream} (h : Plain s) (chunks : Int) (n : Nat) (o : TxtOut) (j : UInt8) (r : List UInt8) :
    txtLoop chunks (n + 1) .plain o (s.here j (39 :: r)) = txtLoop chunks n .quote o (s.here 39 r) := by
  have hr : readUnicode (s.here j (39 :: r)) = .ok (some 39, s.here 39 r) := readUnicode_here h j 39 r (by decide) (by decide) (by decide)
  rw [txtLoop, bind_ok hr, bind_get, if_neg (by simp)]
  simp only []
  rw [if_neg (by decide), if_neg (by simp [isDelim]), if_neg (by decide), if_pos (by trivial)]

theorem txt_quoted {s : Stream} (h : Plain s) (chunks : Int) : ∀ (l : List UInt8) (n : Nat) (o : TxtOut) (j : UInt8) (r : List UInt8),
    (∀ c ∈ l, Bit.isQuotable c = true) → o.size (chunks = -1) + l.length ≤ 1511 →
    txtLoop chunks (n + (l.length + 1)) .quote o (s.here j (l ++ 39 :: r)) = txtLoop chunks n .plain (o.add l) (s.here 39 r)
  | [], n, o, j, r, _, _ => by
    have hr : readUnicode (s.here j (39 :: r)) = .ok (some 39, s.here 39 r) := readUnicode_here h j 39 r (by decide) (by decide) (by decide)
    rw [List.length_nil, List.nil_append, Nat.zero_add, txtLoop, bind_ok hr, bind_get, if_neg (by simp), add_nil]
    simp only []
    rw [if_pos (by trivial)]
  | c :: l, n, o, j, r, hc, ho => by
    obtain ⟨h1, h2, h3, h4, h5, h6, h7⟩ := quotable_facts c (hc c (by simp))
    simp only [List.length_cons] at ho
    have ih := txt_quoted h chunks l n (o.add [c]) c r (fun d hd => hc d (by simp [hd])) (by rw [add_size]; simp; omega)
    have e39 : ¬ ((c.toNat : Int) = 39) := ne_int 39 (by decide) h3
    have e35 : ¬ ((c.toNat : Int) = 35) := ne_int 35 (by decide) h4
    have e124 : ¬ ((c.toNat : Int) = 124) := ne_int 124 (by decide) h5
    rw [List.length_cons, show n + (l.length + 1 + 1) = n + (l.length + 1) + 1 by omega, List.cons_append, txtLoop,
      bind_ok (readUnicode_here h j c _ h6 h7 (by omega)), bind_get, if_neg (by omega)]
    simp only []
    rw [if_neg e39]
    have ha := txtAppend_run (raw := decide (chunks = -1)) (o := o) (c := c) (by omega) (by omega) (s.here c (l ++ 39 :: r))
    rw [add_add, List.singleton_append] at ih
    by_cases hm : (s.here c (l ++ 39 :: r)).mode = 103
    · rw [if_pos hm, if_neg (show ¬ (_ ∨ _ ∨ _) from by rintro (h | h | h) <;> omega),
        if_neg (show ¬ ((c.toNat : Int) = 127) by omega), if_neg (show ¬ ((c.toNat : Int) < 32) by omega), bind_ok ha]
      exact ih
    · rw [if_neg hm, bind_ok ha]
      exact ih

theorem txt_slashQuote {s : Stream} (h : Plain s) (chunks : Int) (n : Nat) (o : TxtOut) (ho : o.size (chunks = -1) + 1 ≤ 1511)
    (j : UInt8) (r : List UInt8) :
    txtLoop chunks (n + 1) .slash o (s.here j (39 :: r)) = txtLoop chunks n .plain (o.add [39]) (s.here 39 r) := by
  have hr : readUnicode (s.here j (39 :: r)) = .ok (some 39, s.here 39 r) := readUnicode_here h j 39 r (by decide) (by decide) (by decide)
  have ha : txtAppend (decide (chunks = -1)) o 39 (s.here 39 r) = .ok (some (o.add [39]), s.here 39 r) :=
    txtAppend_run (c := 39) (by decide) ho _
  rw [txtLoop, bind_ok hr, bind_get, if_neg (by simp)]
  simp only []
  rw [if_pos (by trivial), bind_ok ha]

theorem txt_oct {s : Stream} (h : Plain s) (chunks : Int) (n : Nat) (o : TxtOut) (ho : o.size (chunks = -1) + 1 ≤ 1511)
    (a b c : UInt8) (ha : 48 ≤ a ∧ a ≤ 51) (hb : 48 ≤ b ∧ b ≤ 55) (hc : 48 ≤ c ∧ c ≤ 55) (j : UInt8) (r : List UInt8) :
    txtLoop chunks (n + 3) .slash o (s.here j (a :: b :: c :: r)) =
      txtLoop chunks n .plain (o.add [UInt8.ofNat ((a.toNat - 48) * 64 + (b.toNat - 48) * 8 + (c.toNat - 48))]) (s.here c r) := by
  obtain ⟨a1, a2, a3, a4, a5⟩ := oct3_facts a ha
  obtain ⟨b1, b2, b3, b4, b5⟩ := oct_facts b hb
  obtain ⟨c1, c2, c3, c4, c5⟩ := oct_facts c hc
  rw [txtLoop, bind_ok (readUnicode_here h j a _ a4 a5 a3), bind_get, if_neg (by omega)]
  simp only []
  have hd : ¬ (isDelim a.toNat = true) := by simp only [isDelim, decide_eq_true_eq]; omega
  rw [if_neg (by omega), if_neg (by omega), if_neg (by omega), if_neg hd, if_pos ⟨a1, a2⟩, txtLoop, bind_ok (readUnicode_here h a b _ b4 b5 b3),
    bind_get, if_neg (by omega)]
  simp only []
  rw [if_pos ⟨b1, b2⟩, txtLoop, bind_ok (readUnicode_here h b c _ c4 c5 c3), bind_get, if_neg (by omega)]
  simp only []
  rw [if_pos ⟨c1, c2⟩, bind_ok (txtByte_run _ ho _)]
  rw [show ((a.toNat : Int) - 48).toNat = a.toNat - 48 by omega, show ((b.toNat : Int) - 48).toNat = b.toNat - 48 by omega,
    show ((c.toNat : Int) - 48).toNat = c.toNat - 48 by omega,
    show ((a.toNat - 48) * 8 + (b.toNat - 48)) * 8 + (c.toNat - 48) = (a.toNat - 48) * 64 + (b.toNat - 48) * 8 + (c.toNat - 48) by omega]

theorem txt_hex {s : Stream} (h : Plain s) (chunks : Int) (n : Nat) (o : TxtOut) (ho : o.size (chunks = -1) + 1 ≤ 1511)
    (a b : UInt8) (ha : (hexDigit a).isSome = true) (hb : (hexDigit b).isSome = true) (j : UInt8) (r : List UInt8) :
    txtLoop chunks (n + 3) .slash o (s.here j (120 :: a :: b :: r)) =
      txtLoop chunks n .plain (o.add [UInt8.ofNat ((hexDigit a).getD 0 * 16 + (hexDigit b).getD 0)]) (s.here b r) := by
  obtain ⟨a1, a2, a3, a4, a5⟩ := isHex_facts a ha
  obtain ⟨b1, b2, b3, b4, b5⟩ := isHex_facts b hb
  have hr : readUnicode (s.here j (120 :: a :: b :: r)) = .ok (some 120, s.here 120 (a :: b :: r)) :=
    readUnicode_here h j 120 _ (by decide) (by decide) (by decide)
  rw [txtLoop, bind_ok hr, bind_get, if_neg (by simp)]
  simp only []
  rw [if_neg (by decide), if_neg (by decide), if_neg (by decide), if_neg (by decide), if_neg (by decide), if_pos (by trivial), txtLoop,
    bind_ok (readUnicode_here h 120 a _ a3 a4 a2), bind_get, if_neg (by omega)]
  simp only []
  rw [if_pos a1, txtLoop, bind_ok (readUnicode_here h a b _ b3 b4 b2), bind_get, if_neg (by omega)]
  simp only []
  rw [if_pos b1, bind_ok (txtByte_run _ ho _), a5, b5]

theorem txt_bit {s : Stream} (h : Plain s) (chunks : Int) (n : Nat) (o : TxtOut) (b : Bit) (hb : b.Ok)
    (ho : o.size (chunks = -1) + b.data.length ≤ 1511) (j : UInt8) (r : List UInt8) :
    ∃ j1, txtLoop chunks (n + b.text.length) .plain o (s.here j (b.text ++ r)) = txtLoop chunks n .plain (o.add b.data) (s.here j1 r) := by
  cases b with
  | bare c => exact ⟨c, txt_bare h chunks n o c hb ho j r⟩
  | quoted l =>
    refine ⟨39, ?_⟩
    have e : (Bit.quoted l).text ++ r = 39 :: (l ++ 39 :: r) := by simp [Bit.text]
    rw [e, show n + (Bit.quoted l).text.length = n + (l.length + 1) + 1 by simp [Bit.text]; omega, txt_toQuote h]
    exact txt_quoted h chunks l n o 39 r hb ho
  | quote =>
    refine ⟨39, ?_⟩
    rw [show Bit.quote.text ++ r = 92 :: 39 :: r from rfl, show n + Bit.quote.text.length = n + 1 + 1 from rfl, txt_toSlash h]
    exact txt_slashQuote h chunks n o ho 92 r
  | oct a b c =>
    refine ⟨c, ?_⟩
    rw [show (Bit.oct a b c).text ++ r = 92 :: a :: b :: c :: r from rfl, show n + (Bit.oct a b c).text.length = n + 3 + 1 from rfl, txt_toSlash h]
    exact txt_oct h chunks n o ho a b c hb.1 hb.2.1 hb.2.2 92 r
  | hex a b =>
    refine ⟨b, ?_⟩
    rw [show (Bit.hex a b).text ++ r = 92 :: 120 :: a :: b :: r from rfl, show n + (Bit.hex a b).text.length = n + 3 + 1 from rfl, txt_toSlash h]
    exact txt_hex h chunks n o ho a b hb.1 hb.2 92 r

theorem txt_str {s : Stream} (h : Plain s) (chunks : Int) : ∀ (l : Str) (n : Nat) (o : TxtOut) (j : UInt8) (r : List UInt8), (∀ b ∈ l, b.Ok) →
    o.size (chunks = -1) + l.data.length ≤ 1511 →
    ∃ j1, txtLoop chunks (n + l.text.length) .plain o (s.here j (l.text ++ r)) = txtLoop chunks n .plain (o.add l.data) (s.here j1 r)
  | [], n, o, j, r, _, _ => ⟨j, by simp [Str.text, Str.data, add_nil]⟩
  | b :: l, n, o, j, r, hb, ho => by
    have e1 : Str.text (b :: l) = b.text ++ Str.text l := rfl
    have e2 : Str.data (b :: l) = b.data ++ Str.data l := rfl
    rw [e2, List.length_append] at ho
    obtain ⟨j1, f1⟩ := txt_bit h chunks (n + (Str.text l).length) o b (hb b (by simp)) (by omega) j (Str.text l ++ r)
    obtain ⟨j2, f2⟩ := txt_str h chunks l n (o.add b.data) j1 r (fun x hx => hb x (by simp [hx])) (by rw [add_size]; omega)
    refine ⟨j2, ?_⟩
    rw [e1, e2, List.length_append, show n + (b.text.length + (Str.text l).length) = n + (Str.text l).length + b.text.length by omega,
      List.append_assoc, f1, f2, add_add]

/-- A semicolon. -/
theorem txt_next {s : Stream} (h : Plain s) (chunks : Int) (hch : chunks ≠ -1) (n : Nat) (o : TxtOut) (hl : o.len ≤ 255)
    (hs : o.done.length + o.piece.length + 2 ≤ 1513) (j : UInt8) (r : List UInt8) :
    txtLoop chunks (n + 1) .plain o (s.here j (59 :: r)) =
      txtLoop chunks n .plain { done := o.done ++ UInt8.ofNat o.len :: o.piece, piece := [], len := 0, count := o.count + 1 } (s.here 59 r) := by
  have hr : readUnicode (s.here j (59 :: r)) = .ok (some 59, s.here 59 r) := readUnicode_here h j 59 r (by decide) (by decide) (by decide)
  rw [txtLoop, bind_ok hr, bind_get, if_neg (by simp)]
  simp only []
  rw [if_neg (by decide), if_neg (by simp [isDelim]), if_neg (by decide), if_neg (by decide), if_pos ⟨by trivial, hch⟩, txtNext, if_neg (by omega),
    if_neg (by omega), bind_pure']

/-- All strings: they are finished at the end. -/
theorem txt_strs {s : Stream} (h : Plain s) (chunks : Int) (hch : chunks ≠ -1) : ∀ (l : List Str) (n : Nat) (d : List UInt8) (k : Nat) (j : UInt8)
    (r : List UInt8), l ≠ [] → (∀ x ∈ l, ∀ b ∈ x, b.Ok) → (∀ x ∈ l, (Str.data x).length ≤ 255) →
    d.length + (l.flatMap strData).length ≤ 1511 →
    ∃ j1 o, txtLoop chunks (n + (strsText l).length) .plain ⟨d, [], 0, k⟩ (s.here j (strsText l ++ r)) = txtLoop chunks n .plain o (s.here j1 r) ∧
      o.len ≤ 255 ∧ o.count + 1 = k + l.length ∧ o.done ++ UInt8.ofNat o.len :: o.piece = d ++ l.flatMap strData
  | [], _, _, _, _, _, h, _, _, _ => absurd rfl h
  | [x], n, d, k, j, r, _, hb, hs, ht => by
    simp only [List.flatMap_cons, List.flatMap_nil, List.append_nil, strData, List.length_cons] at ht
    obtain ⟨j1, f1⟩ := txt_str h chunks x n ⟨d, [], 0, k⟩ j r (hb x (by simp)) (by simp [TxtOut.size, hch]; omega)
    refine ⟨j1, _, f1, ?_, rfl, ?_⟩
    · simpa [TxtOut.add] using hs x (by simp)
    · simp [TxtOut.add, strData]
  | x :: y :: l, n, d, k, j, r, _, hb, hs, ht => by
    have hx := hs x (by simp)
    simp only [List.flatMap_cons, strData, List.length_append, List.length_cons] at ht
    obtain ⟨j1, f1⟩ := txt_str h chunks x (n + (strsText (y :: l)).length + 1) ⟨d, [], 0, k⟩ j (59 :: (strsText (y :: l) ++ r)) (hb x (by simp))
      (by simp [TxtOut.size, hch]; omega)
    have f2 := txt_next h chunks hch (n + (strsText (y :: l)).length) (TxtOut.add ⟨d, [], 0, k⟩ x.data) (by simpa [TxtOut.add] using hx)
      (by simp [TxtOut.add]; omega) j1 (strsText (y :: l) ++ r)
    obtain ⟨j2, o, f3, g1, g2, g3⟩ := txt_strs h chunks hch (y :: l) n (d ++ strData x) (k + 1) 59 r (by simp)
      (fun z hz => hb z (by simp only [List.mem_cons] at hz ⊢; exact Or.inr hz))
      (fun z hz => hs z (by simp only [List.mem_cons] at hz ⊢; exact Or.inr hz))
      (by simp only [List.flatMap_cons, strData, List.length_append, List.length_cons]; omega)
    refine ⟨j2, o, ?_, g1, by simp only [List.length_cons] at g2 ⊢; omega, ?_⟩
    · rw [show strsText (x :: y :: l) = Str.text x ++ 59 :: strsText (y :: l) from rfl, List.length_append, List.length_cons,
        show n + ((Str.text x).length + ((strsText (y :: l)).length + 1)) = n + (strsText (y :: l)).length + 1 + (Str.text x).length by omega,
        show (Str.text x ++ 59 :: strsText (y :: l)) ++ r = Str.text x ++ 59 :: (strsText (y :: l) ++ r) by simp, f1, f2, ← f3]
      simp [TxtOut.add, strData]
    · rw [g3]
      simp

/-- The end of strings without tildes. -/
theorem txt_end {s : Stream} (h : Plain s) (chunks : Int) (hm : s.mode ≠ 103) (p : Piece) (hp : p.Ok) (n : Nat) (o : TxtOut) (j : UInt8)
    (r : List UInt8) : txtLoop chunks (n + 1) .plain o (s.here j (p.text ++ r)) = txtEnd chunks o (s.here (last p) r) := by
  by_cases hpc : p.isComment = true
  · cases p with
    | comment t e =>
      obtain ⟨he, hl, hc⟩ := hp
      have hr : readUnicode (s.here j (35 :: (t ++ e :: r))) = .ok (some 35, s.here 35 (t ++ e :: r)) :=
        readUnicode_here h j 35 _ (by decide) (by decide) (by decide)
      simp only [Piece.text, List.cons_append, List.append_assoc, List.nil_append]
      rw [txtLoop, bind_ok hr, bind_get, if_neg (by simp)]
      have hm' : ¬ (s.here 35 (t ++ e :: r)).mode = 103 := hm
      simp only []
      rw [if_neg (by decide), if_neg (by simp [isDelim]), if_neg (by decide), if_neg (by decide), if_neg (by simp), if_neg (by simp [isDelim]),
        if_pos (by trivial), bind_ok (comment_run h 35 e he t r hl hc), if_pos hm']
      rfl
    | _ => cases hpc
  · have hd := last_delim hp
    have h1 : isDelim (last p).toNat = true := by rcases hd with h | h | h | h | h <;> rw [h] <;> decide
    have h2 : ¬ (isBchar (last p).toNat = true) := by rcases hd with h | h | h | h | h <;> rw [h] <;> decide
    have hm' : (s.here (last p) r).mode ≠ 103 := hm
    rw [txtLoop, bind_ok (read_piece h p hp (by simpa using hpc) j r), bind_get, if_neg (by omega)]
    simp only []
    rw [if_neg h2, if_pos (Or.inl ⟨h1, hm'⟩)]

/-- The end of raw data. -/
theorem txt_endRaw {s : Stream} (h : Plain s) (p : Piece) (hp : p.Ok) (hpc : p.isComment = false) (n : Nat) (o : TxtOut) (j : UInt8)
    (r : List UInt8) : txtLoop (-1) (n + 1) .plain o (s.here j (p.text ++ r)) = .ok (some o.piece, s.here (last p) r) := by
  have hd := last_delim hp
  have h1 : isDelim (last p).toNat = true := by rcases hd with h | h | h | h | h <;> rw [h] <;> decide
  have h2 : ¬ (isBchar (last p).toNat = true) := by rcases hd with h | h | h | h | h <;> rw [h] <;> decide
  rw [txtLoop, bind_ok (read_piece h p hp hpc j r), bind_get, if_neg (by omega)]
  simp only []
  rw [if_neg h2, if_pos (Or.inr (Or.inr (Or.inl ⟨h1, by trivial⟩))), txtEnd, if_pos (by trivial)]
  rfl

/-- The end of strings where tildes are used. -/
theorem txt_tilde {s : Stream} (h : Plain s) (ht : s.tildeOk = true) (chunks : Int) (hm : s.mode = 103) (hch : chunks ≠ -1) (o : TxtOut)
    (r : List UInt8) : ∀ (l : List Piece) (n : Nat) (st : Txt) (j : UInt8), (∀ p ∈ l, p.Ok ∧ p.isPipe = false) → l.length < n →
    (st = .plain ∨ st = .between) →
    txtLoop chunks n st o (s.here j (pieces l ++ 126 :: r)) = txtEnd chunks o (s.tilde.here 126 r)
  | [], n + 1, st, j, _, _, hst => by
    have hm' : (s.tilde.here 126 r).mode = 103 := hm
    simp only [pieces, List.flatMap_nil, List.nil_append]
    rw [txtLoop, bind_ok (readUnicode_tilde h ht j r), bind_get, if_neg (by simp)]
    rcases hst with rfl | rfl
    · simp only []
      rw [if_neg (by decide), if_pos (Or.inr (Or.inl ⟨by trivial, hm'⟩))]
    · simp only []
      rw [if_neg (by decide), if_pos (Or.inl (by trivial))]
  | p :: l, n + 1, st, j, hl, hn, hst => by
    obtain ⟨hp, hpp⟩ := hl p (by simp)
    have hn' : l.length < n := by simpa using hn
    rw [show pieces (p :: l) ++ 126 :: r = p.text ++ (pieces l ++ 126 :: r) by simp [pieces]]
    by_cases hpc : p.isComment = true
    · cases p with
      | comment t e =>
        obtain ⟨he, hl', hc⟩ := hp
        have hr : readUnicode (s.here j (35 :: (t ++ e :: (pieces l ++ 126 :: r)))) =
            .ok (some 35, s.here 35 (t ++ e :: (pieces l ++ 126 :: r))) :=
          readUnicode_here h j 35 _ (by decide) (by decide) (by decide)
        simp only [Piece.text, List.cons_append, List.append_assoc, List.nil_append]
        rw [txtLoop, bind_ok hr, bind_get, if_neg (by simp)]
        have hm' : (s.here 35 (t ++ e :: (pieces l ++ 126 :: r))).mode = 103 := hm
        rcases hst with rfl | rfl
        · simp only []
          rw [if_neg (by decide), if_neg (by simp [isDelim]), if_neg (by decide), if_neg (by decide), if_neg (by simp), if_neg (by simp [isDelim]),
            if_pos (by trivial), bind_ok (comment_run h 35 e he t _ hl' hc), if_neg (by simp [hm'])]
          exact txt_tilde h ht chunks hm hch o r l n .plain e (fun q hq => hl q (by simp [hq])) hn' (Or.inl rfl)
        · simp only []
          rw [if_pos (by trivial), bind_ok (comment_run h 35 e he t _ hl' hc)]
          exact txt_tilde h ht chunks hm hch o r l n .between e (fun q hq => hl q (by simp [hq])) hn' (Or.inr rfl)
      | _ => cases hpc
    · have hb : ∃ c, p = .blank c := by
        cases p with
        | blank c => exact ⟨c, rfl⟩
        | pipe => cases hpp
        | comment t e => simp [Piece.isComment] at hpc
      obtain ⟨c, rfl⟩ := hb
      have ih := txt_tilde h ht chunks hm hch o r l n .between c (fun q hq => hl q (by simp [hq])) hn' (Or.inr rfl)
      have hd : isDelim c.toNat = true := by rcases hp with rfl | rfl | rfl | rfl <;> decide
      have hb : ¬ (isBchar c.toNat = true) := by rcases hp with rfl | rfl | rfl | rfl <;> decide
      have e35 : ¬ ((c.toNat : Int) = 35) := by rcases hp with rfl | rfl | rfl | rfl <;> decide
      have e92 : ¬ ((c.toNat : Int) = 92) := by rcases hp with rfl | rfl | rfl | rfl <;> decide
      have e39 : ¬ ((c.toNat : Int) = 39) := by rcases hp with rfl | rfl | rfl | rfl <;> decide
      have e59 : ¬ ((c.toNat : Int) = 59) := by rcases hp with rfl | rfl | rfl | rfl <;> decide
      have e124 : ¬ ((c.toNat : Int) = 124) := by rcases hp with rfl | rfl | rfl | rfl <;> decide
      have e126 : ¬ ((c.toNat : Int) = 126) := by rcases hp with rfl | rfl | rfl | rfl <;> decide
      have e2 : ¬ ((c.toNat : Int) = -2) := by omega
      have hr := read_piece h (.blank c) hp rfl j (pieces l ++ 126 :: r)
      simp only [last] at hr
      have hm' : (s.here c (pieces l ++ 126 :: r)).mode = 103 := hm
      rw [txtLoop, bind_ok hr, bind_get, if_neg (by omega)]
      rcases hst with rfl | rfl
      · simp only []
        rw [if_neg hb, if_neg (by simp [hm', e126, hch, e2]), if_neg e92, if_neg e39, if_neg (by simp [e59]), if_pos ⟨hm', hd, e124⟩]
        exact ih
      · simp only []
        rw [if_neg e35, if_neg (by simp [e126, e2]), if_neg (by simp [e39, e92]), if_neg e124, if_neg (by simp [hd])]
        exact ih

/-- Where tildes are used, they may come after strings. -/
def Stream.forText (s : Stream) : Stream := if s.mode = 103 then { s with tildeOk := true } else s

theorem forText_plain {s : Stream} (h : Plain s) : Plain s.forText := by
  unfold Stream.forText
  split_ifs
  · exact ⟨h.isOpen, h.newline, h.stack, h.seen⟩
  · exact h

theorem forText_mode (s : Stream) : s.forText.mode = s.mode := by
  unfold Stream.forText
  split_ifs <;> rfl

theorem forText_here (s : Stream) (j : UInt8) (r : List UInt8) : (s.here j r).forText = s.forText.here j r := by
  unfold Stream.forText
  have : (s.here j r).mode = s.mode := rfl
  rw [this]
  split_ifs <;> rfl

theorem getString_start {s : Stream} (h : Plain s) (chunks : Int) (g : Gap) (hg : g.Ok) (c : UInt8) (hc : isTxtChar c.toNat = true)
    (hl : c.toNat < 128) (h59 : chunks = -1 → c ≠ 59) (r : List UInt8) (j : UInt8) :
    getString chunks (s.here (last g.first) (pieces g.rest ++ c :: r)) =
      txtLoop chunks 10001 .plain ⟨[], [], 0, 0⟩ (s.forText.here j (c :: r)) := by
  have hp := forText_plain h
  obtain ⟨n1, n2, n3, n4, n5, n6, n7, n8⟩ := skips_txtChar.ne hc
  have e1 : getString chunks (s.here (last g.first) (pieces g.rest ++ c :: r)) = (do
      let q ← get1st isTxtChar 0
      if q ≠ 1 then fail
      else do
        let s ← get
        let c := s.just
        let o : TxtOut := ⟨[], [], 0, 0⟩
        if isBchar c then do let o ← txtAppend (chunks = -1) o c; txtLoop chunks 10000 .plain o
        else if c = 92 then txtLoop chunks 10000 .slash o
        else if c = 39 then txtLoop chunks 10000 .quote o
        else if c = 59 ∧ chunks ≠ -1 then do let o ← txtNext o; txtLoop chunks 10000 .plain o
        else die : P (List UInt8)) (s.forText.here (last g.first) (pieces g.rest ++ c :: r)) := by
    rw [getString, bind_modify, ← forText_here]
    rfl
  rw [e1, bind_ok (get1st_gap hp skips_txtChar g hg c hc hl r), if_neg (by simp), bind_get, just_here hp]
  conv_rhs => rw [txtLoop, bind_ok (readUnicode_here hp j c r n6 n8 hl), bind_get, if_neg (by simp)]
  simp only []
  by_cases hb : isBchar c.toNat = true
  · rw [if_pos hb, if_pos hb]
  · have hcase : c = 59 ∨ c = 92 ∨ c = 39 := by
      simp only [isTxtChar, decide_eq_true_eq] at hc
      rcases hc with h | h | h | h
      · exact absurd h hb
      · exact Or.inl (UInt8.toNat_inj.mp (show c.toNat = 59 by omega))
      · exact Or.inr (Or.inl (UInt8.toNat_inj.mp (show c.toNat = 92 by omega)))
      · exact Or.inr (Or.inr (UInt8.toNat_inj.mp (show c.toNat = 39 by omega)))
    rw [if_neg hb, if_neg hb]
    rcases hcase with rfl | rfl | rfl
    · have : chunks ≠ -1 := fun h => h59 h rfl
      rw [if_neg (by decide), if_neg (by decide), if_pos ⟨by decide, this⟩, if_neg (by simp [isDelim]), if_neg (by decide), if_neg (by decide),
        if_pos ⟨by decide, this⟩]
    · rw [if_pos (by decide), if_neg (by simp [isDelim]), if_pos (by decide)]
    · rw [if_neg (by decide), if_pos (by decide), if_neg (by simp [isDelim]), if_neg (by decide), if_pos (by decide)]

theorem strs_head : ∀ (l : List Str), (∀ x ∈ l, ∀ b ∈ x, b.Ok) → ∀ c t, strsText l = c :: t → isTxtChar c.toNat = true ∧ c.toNat < 128
  | [], _, c, t, h => by simp [strsText] at h
  | x :: l, hb, c, t, h => by
    cases x with
    | nil =>
      cases l with
      | nil => simp [strsText, Str.text] at h
      | cons y l =>
        simp only [strsText, Str.text, List.flatMap_nil, List.nil_append, List.cons.injEq] at h
        rw [← h.1]
        decide
    | cons b x =>
      have hb' := hb (b :: x) (by simp) b (by simp)
      have hd : ∃ t', b.text = c :: t' := by
        have e : strsText ((b :: x) :: l) = b.text ++ (Str.text x ++ (match l with | [] => [] | y :: l => 59 :: strsText (y :: l))) := by
          cases l <;> simp [strsText, Str.text]
        rw [e] at h
        cases ht : b.text with
        | nil => cases b <;> simp [Bit.text] at ht
        | cons d t' =>
          rw [ht] at h
          simp only [List.cons_append, List.cons.injEq] at h
          exact ⟨t', by rw [h.1]⟩
      obtain ⟨t', ht⟩ := hd
      cases b with
      | bare d =>
        simp only [Bit.text, List.cons.injEq] at ht
        have := bare_facts d hb'
        rw [← ht.1]
        exact ⟨by simp [isTxtChar, this.1], this.2.1⟩
      | quoted l => simp only [Bit.text, List.cons.injEq] at ht; rw [← ht.1]; decide
      | quote => simp only [Bit.text, List.cons.injEq] at ht; rw [← ht.1]; decide
      | oct a b c => simp only [Bit.text, List.cons.injEq] at ht; rw [← ht.1]; decide
      | hex a b => simp only [Bit.text, List.cons.injEq] at ht; rw [← ht.1]; decide

theorem strs_ne {l : List Str} (h : strsText l ≠ []) : l ≠ [] := by
  rintro rfl
  exact h rfl

/-- Strings, where no tilde ends them. -/
theorem getString_run {s : Stream} (h : Plain s) (chunks : Int) (hch : 0 ≤ chunks) (hm : s.mode ≠ 103) (g : Gap) (hg : g.Ok) (l : List Str)
    (hl : StrsOk l) (hk : chunks = 0 ∨ chunks = (l.length : Int)) (p : Piece) (hp : p.Ok) (r : List UInt8) :
    getString chunks (s.here (last g.first) (pieces g.rest ++ (strsText l ++ (p.text ++ r)))) =
      .ok (some (l.flatMap strData), s.forText.here (last p) r) := by
  obtain ⟨c, t, ht⟩ := List.exists_cons_of_ne_nil hl.some
  have hc := strs_head l hl.bits c t ht
  have htx := hl.text
  rw [ht, List.cons_append, getString_start h chunks g hg c hc.1 hc.2 (by omega) _ 0, ← List.cons_append, ← ht]
  obtain ⟨j1, o, f1, g1, g2, g3⟩ := txt_strs (forText_plain h) chunks (by omega) l (10001 - (strsText l).length) [] 0 0 (p.text ++ r)
    (strs_ne hl.some) hl.bits hl.short (by simpa using hl.total)
  rw [show 10001 - (strsText l).length + (strsText l).length = 10001 by omega] at f1
  rw [f1, show 10001 - (strsText l).length = 10000 - (strsText l).length + 1 by omega,
    txt_end (forText_plain h) chunks (by rw [forText_mode]; exact hm) p hp, txtEnd, if_neg (by omega), if_neg (by omega), if_neg (by omega), g3]
  rfl

/-- Strings with a tilde after them. -/
theorem getString_tilde {s : Stream} (h : Plain s) (chunks : Int) (hch : 0 ≤ chunks) (hm : s.mode = 103) (g : Gap) (hg : g.Ok) (l : List Str)
    (hl : StrsOk l) (hk : chunks = 0 ∨ chunks = (l.length : Int)) (ps : List Piece) (hps : ∀ p ∈ ps, p.Ok ∧ p.isPipe = false)
    (hsh : ps.length ≤ 4000) (r : List UInt8) :
    getString chunks (s.here (last g.first) (pieces g.rest ++ (strsText l ++ (pieces ps ++ 126 :: r)))) =
      .ok (some (l.flatMap strData), s.forText.tilde.here 126 r) := by
  obtain ⟨c, t, ht⟩ := List.exists_cons_of_ne_nil hl.some
  have hc := strs_head l hl.bits c t ht
  have htx := hl.text
  have htok : s.forText.tildeOk = true := by simp [Stream.forText, hm]
  rw [ht, List.cons_append, getString_start h chunks g hg c hc.1 hc.2 (by omega) _ 0, ← List.cons_append, ← ht]
  obtain ⟨j1, o, f1, g1, g2, g3⟩ := txt_strs (forText_plain h) chunks (by omega) l (10001 - (strsText l).length) [] 0 0 (pieces ps ++ 126 :: r)
    (strs_ne hl.some) hl.bits hl.short (by simpa using hl.total)
  rw [show 10001 - (strsText l).length + (strsText l).length = 10001 by omega] at f1
  rw [f1, txt_tilde (forText_plain h) htok chunks (by rw [forText_mode]; exact hm) (by omega) o r ps _ .plain j1 hps (by omega) (Or.inl rfl),
    txtEnd, if_neg (by omega), if_neg (by omega), if_neg (by omega), g3]
  rfl

/-- Raw data. -/
theorem getString_raw {s : Stream} (h : Plain s) (g : Gap) (hg : g.Ok) (x : Str) (hb : ∀ b ∈ x, b.Ok) (hne : x.text ≠ [])
    (hd : x.data.length ≤ 1511) (ht : x.text.length < 10000) (p : Piece) (hp : p.Ok) (hpc : p.isComment = false) (r : List UInt8) :
    getString (-1) (s.here (last g.first) (pieces g.rest ++ (x.text ++ (p.text ++ r)))) = .ok (some x.data, s.forText.here (last p) r) := by
  obtain ⟨c, t, hct⟩ := List.exists_cons_of_ne_nil hne
  have hc := strs_head [x] (by simpa using hb) c t (by simpa [strsText] using hct)
  have h59 : c ≠ 59 := by
    rintro rfl
    cases x with
    | nil => simp [Str.text] at hct
    | cons b x =>
      have hb' := hb b (by simp)
      cases b with
      | bare d =>
        simp only [Str.text, List.flatMap_cons, Bit.text, List.cons_append, List.cons.injEq] at hct
        rw [hct.1] at hb'
        simp [Bit.Ok, Bit.isBare, isPlain, isDigit] at hb'
      | quoted l => simp [Str.text, Bit.text] at hct
      | quote => simp [Str.text, Bit.text] at hct
      | oct a b c => simp [Str.text, Bit.text] at hct
      | hex a b => simp [Str.text, Bit.text] at hct
  rw [hct, List.cons_append, getString_start h (-1) g hg c hc.1 hc.2 (fun _ => h59) _ 0, ← List.cons_append, ← hct]
  obtain ⟨j1, f1⟩ := txt_str (forText_plain h) (-1) x (10001 - x.text.length) ⟨[], [], 0, 0⟩ 0 (p.text ++ r) hb (by simpa [TxtOut.size] using hd)
  rw [show 10001 - (Str.text x).length + (Str.text x).length = 10001 by omega] at f1
  rw [f1, show 10001 - (Str.text x).length = 10000 - (Str.text x).length + 1 by omega, txt_endRaw (forText_plain h) p hp hpc]
  simp [TxtOut.add]

end Csv2
end Mara
