import Verif.Mara.Csv2Names
/-!
# Lemmas: numbers, addresses, mail addresses and words in zone files
-/

namespace Mara
namespace Csv2

open Dw (Res)
open Spec (Name encName encLabels dotted LabelsOk ascii lower)
open Spec.ZoneText

theorem skips_number : Skips isNumber := by unfold Skips; decide
theorem skips_numberOrSlash : Skips isNumberOrSlash := by unfold Skips; decide
theorem skips_alpha : Skips isAlpha := by unfold Skips; decide
theorem skips_alphanum : Skips isAlphanum := by unfold Skips; decide
theorem skips_alphanumOrPlus : Skips isAlphanumOrPlus := by unfold Skips; decide
theorem skips_alphanumOrDot : Skips isAlphanumOrDot := by unfold Skips; decide
theorem skips_text : Skips isText := by unfold Skips; decide
theorem skips_dchar : Skips isDchar := by unfold Skips; decide
theorem skips_hexOrColon : Skips isHexOrColon := by unfold Skips; decide
theorem skips_txtChar : Skips isTxtChar := by unfold Skips; decide
theorem skips_starOrSlash : Skips isStarOrSlash := by unfold Skips; decide

/-- The byte that has just been read may be the one looked for. -/
theorem get1st_now {s : Stream} (h : Plain s) {isOk : Int → Bool} (c : UInt8) (hc : isOk c.toNat = true) (hl : c.toNat < 128)
    (r : List UInt8) : get1st isOk 0 (s.here c r) = .ok (some 1, s.here c r) := by
  rw [get1st, bind_get, just_here h, if_neg (show ¬ ((c.toNat : Int) > 127) by omega), if_pos ⟨by decide, hc⟩]
  rfl

/-! ## Numbers -/

theorem digit_facts (c : UInt8) (h : isDigit c = true) : isNumber c.toNat = true ∧ c.toNat < 128 ∧ c ≠ 46 ∧ c ≠ 47 ∧ 48 ≤ c ∧
    c ≤ 57 ∧ isPlain c = true ∧ c ≠ 35 := by
  have key : ∀ n : Fin 256, isDigit (UInt8.ofNat n) = true → isNumber (UInt8.ofNat n).toNat = true ∧
      (UInt8.ofNat n).toNat < 128 ∧ UInt8.ofNat n ≠ 46 ∧ UInt8.ofNat n ≠ 47 ∧ 48 ≤ UInt8.ofNat n ∧ UInt8.ofNat n ≤ 57 ∧
      isPlain (UInt8.ofNat n) = true ∧ UInt8.ofNat n ≠ 35 := by
    decide +kernel
  have := key ⟨c.toNat, c.toNat_lt⟩
  simp only [UInt8.ofNat_toNat] at this
  exact this h

theorem value_ge : ∀ (l : List UInt8) (v : Nat), v ≤ l.foldl (fun v c => v * 10 + (c.toNat - 48)) v
  | [], v => Nat.le_refl v
  | c :: l, v => by
    have := value_ge l (v * 10 + (c.toNat - 48))
    simp only [List.foldl_cons]
    omega

/-- Digits, and something other after them or nothing. -/
theorem atoi_run : ∀ (l : List UInt8) (v : Nat) (r : List UInt8), (∀ c ∈ l, isDigit c = true) →
    (r = [] ∨ ∃ r', r = 46 :: r') → l.foldl (fun v c => v * 10 + (c.toNat - 48)) v ≤ 2147483647 →
    atoi (l ++ r) v = some (l.foldl (fun v c => v * 10 + (c.toNat - 48)) v)
  | [], v, r, _, hr, _ => by
    rcases hr with rfl | ⟨r', rfl⟩
    · rfl
    · rw [List.nil_append, atoi, if_neg (by decide)]; rfl
  | c :: l, v, r, hd, hr, hv => by
    obtain ⟨_, _, _, _, h1, h2, _⟩ := digit_facts c (hd c (by simp))
    simp only [List.foldl_cons] at hv ⊢
    have := value_ge l (v * 10 + (c.toNat - 48))
    rw [List.cons_append, atoi, if_pos ⟨h1, h2⟩]
    simp only []
    rw [if_neg (by omega)]
    exact atoi_run l _ r (fun d hd' => hd d (by simp [hd'])) hr hv

theorem getNum_of {s s0 : Stream} (h : Plain s) (l : List UInt8) (hl : NumOk l) (p : Piece) (hp : p.Ok) (c : UInt8) (t r : List UInt8)
    (ht : l = c :: t) (hq : get1st isNumberOrSlash 0 s0 = .ok (some 1, s.here c (t ++ (p.text ++ r)))) :
    getNum s0 = .ok (some (value l : Int), s.here (last p) r) := by
  have hc := digit_facts c (hl.digits c (by simp [ht]))
  have hs : something isNumber (s.here c (t ++ (p.text ++ r))) = .ok (some l, s.here (last p) r) := by
    rw [ht]
    refine something_run h skips_number p hp c t r ?_ ?_
    · rw [← ht]; exact hl.short
    · intro d hd
      rw [← ht] at hd
      have := digit_facts d (hl.digits d hd)
      exact ⟨this.1, this.2.1⟩
  have h47 : ¬ ((c.toNat : Int) = 47) := ne_int 47 (by decide) hc.2.2.2.1
  rw [getNum, bind_ok hq, if_neg (by simp), bind_get, just_here h, if_neg h47, bind_ok hs]
  by_cases h0 : l = [48]
  · rw [if_pos h0, h0]
    rfl
  · rw [if_neg h0]
    have ha := atoi_run l 0 [] hl.digits (Or.inl rfl) hl.small
    rw [List.append_nil] at ha
    rw [ha]
    have hv : value l ≠ 0 := fun hv => h0 (hl.zero hv)
    change (match some (value l) with | none => undef | some 0 => fail | some v => pure (v : Int) : P Int) _ = _
    obtain ⟨m, hm⟩ := Nat.exists_eq_succ_of_ne_zero hv
    rw [hm]
    rfl

theorem getNum_run {s : Stream} (h : Plain s) (g : Gap) (hg : g.Ok) (l : List UInt8) (hl : NumOk l) (p : Piece) (hp : p.Ok)
    (r : List UInt8) :
    getNum (s.here (last g.first) (pieces g.rest ++ (l ++ (p.text ++ r)))) = .ok (some (value l : Int), s.here (last p) r) := by
  obtain ⟨c, t, rfl⟩ := List.exists_cons_of_ne_nil hl.some
  have hc := digit_facts c (hl.digits c (by simp))
  refine getNum_of h _ hl p hp c t r rfl ?_
  exact get1st_gap h skips_numberOrSlash g hg c (by simp [isNumberOrSlash, hc.1]) hc.2.1 _

theorem getNat_of {s s0 : Stream} (v : Nat) (hq : getNum s0 = .ok (some (v : Int), s)) : getNat s0 = .ok (some v, s) := by
  rw [getNat, bind_ok hq, if_neg (by omega)]
  rfl

theorem getNat_run {s : Stream} (h : Plain s) (g : Gap) (hg : g.Ok) (l : List UInt8) (hl : NumOk l) (p : Piece) (hp : p.Ok)
    (r : List UInt8) :
    getNat (s.here (last g.first) (pieces g.rest ++ (l ++ (p.text ++ r)))) = .ok (some (value l), s.here (last p) r) :=
  getNat_of _ (getNum_run h g hg l hl p hp r)

theorem expect_run {s : Stream} (h : Plain s) (j c : UInt8) (h1 : c ≠ 123) (h2 : c ≠ 126) (h3 : c.toNat < 128) (r : List UInt8) :
    expect c.toNat (s.here j (c :: r)) = .ok (some true, s.here c r) := by
  rw [expect, bind_ok (readUnicode_here h j c r h1 h2 h3)]
  simp [pure_run]

theorem expectAll_run {s : Stream} (h : Plain s) : ∀ (l : List UInt8) (j : UInt8) (r : List UInt8),
    (∀ c ∈ l, isPlain c = true) →
    ∃ j1, expectAll (l.map fun c => (c.toNat : Int)) (s.here j (l ++ r)) = .ok (some true, s.here j1 r)
  | [], j, r, _ => ⟨j, rfl⟩
  | c :: l, j, r, hc => by
    obtain ⟨j1, ih⟩ := expectAll_run h l c r (fun d hd => hc d (by simp [hd]))
    obtain ⟨_, h3, _, _, _, h1, h2, _⟩ := plain_facts c (hc c (by simp))
    refine ⟨j1, ?_⟩
    rw [List.map_cons, expectAll, List.cons_append, bind_ok (expect_run h j c h1 h2 h3 _), if_pos rfl]
    exact ih

/-- The serial number. -/
theorem getNum_serial {s : Stream} (h : Plain s) (g : Gap) (hg : g.Ok) (p : Piece) (hp : p.Ok) (hpc : p.isComment = false)
    (r : List UInt8) :
    getNum (s.here (last g.first) (pieces g.rest ++ (ascii "/serial" ++ (p.text ++ r)))) = .ok (some (-2), s.here (last p) r) := by
  have e1 : ascii "/serial" = 47 :: [115, 101, 114, 105, 97, 108] := by decide
  obtain ⟨j1, e2⟩ := expectAll_run h [115, 101, 114, 105, 97, 108] 47 (p.text ++ r) (by decide)
  have e3 : isDelim (last p).toNat = true := by rcases last_delim hp with h | h | h | h | h <;> rw [h] <;> decide
  rw [e1, List.cons_append, getNum, bind_ok (get1st_gap h skips_numberOrSlash g hg 47 (by decide) (by decide) _), if_neg (by simp),
    bind_get, just_here h, if_pos (by decide)]
  rw [show ([115, 101, 114, 105, 97, 108] : List Int) = ([115, 101, 114, 105, 97, 108] : List UInt8).map fun c => (c.toNat : Int)
    by decide, bind_ok e2, if_neg (by simp), bind_ok (read_piece h p hp hpc j1 r), if_pos e3]
  rfl

/-! ## IPv4 addresses -/

theorem ddip_digits {s : Stream} (h : Plain s) (k : Nat) : ∀ (l : List UInt8) (n : Nat) (o : List UInt8) (j : UInt8) (r : List UInt8),
    (∀ c ∈ l, isDigit c = true) → o.length + l.length ≤ 256 →
    ∃ j1, ddipLoop (n + l.length) k o (s.here j (l ++ r)) = ddipLoop n k (o ++ l) (s.here j1 r)
  | [], n, o, j, r, _, _ => ⟨j, by simp⟩
  | c :: l, n, o, j, r, hd, ho => by
    obtain ⟨j1, ih⟩ := ddip_digits h k l n (o ++ [c]) c r (fun d hd' => hd d (by simp [hd'])) (by simp at ho ⊢; omega)
    obtain ⟨h1, h2, h3, _, _, _, h4, h5⟩ := digit_facts c (hd c (by simp))
    obtain ⟨_, _, _, _, _, h6, h7, _⟩ := plain_facts c h4
    have e46 : ¬ ((c.toNat : Int) = 46) := ne_int 46 (by decide) h3
    have e35 : ¬ ((c.toNat : Int) = 35) := ne_int 35 (by decide) h5
    refine ⟨j1, ?_⟩
    rw [List.length_cons, ← Nat.add_assoc, List.cons_append, ddipLoop, bind_ok (readUnicode_here h j c _ h6 h7 h2), if_neg (by omega),
      if_neg (by simp [e35]), if_neg (by simp [e46]), if_neg e46, if_pos h1, bind_orDie (appendUtf8_ascii c h2 (by simp at ho; omega)), ih]
    simp

theorem ddip_dot {s : Stream} (h : Plain s) (k n : Nat) (hk : k < 4) (o : List UInt8) (ho : o.length < 256) (j : UInt8) (r : List UInt8) :
    ddipLoop (n + 1) k o (s.here j (46 :: r)) = ddipLoop n (k + 1) (o ++ [46]) (s.here 46 r) := by
  have hr : readUnicode (s.here j (46 :: r)) = .ok (some 46, s.here 46 r) :=
    readUnicode_here h j 46 r (by decide) (by decide) (by decide)
  have ha : appendUtf8 256 o 46 = some (o ++ [46]) := appendUtf8_ascii 46 (by decide) ho
  rw [ddipLoop, bind_ok hr, if_neg (by decide), if_neg (by simp), if_pos ⟨rfl, hk⟩, bind_orDie ha]

theorem ddip_end {s : Stream} (h : Plain s) (p : Piece) (hp : p.Ok) (n : Nat) (o : List UInt8) (j : UInt8) (r : List UInt8) :
    ddipLoop (n + 1) 4 o (s.here j (p.text ++ r)) = .ok (some o, s.here (last p) r) := by
  cases p with
  | blank c =>
    have hr : readUnicode (s.here j (c :: r)) = .ok (some (c.toNat : Int), s.here c r) := by
      refine readUnicode_here h j c r ?_ ?_ ?_ <;> rcases hp with rfl | rfl | rfl | rfl <;> decide
    simp only [Piece.text, List.cons_append, List.nil_append]
    rw [ddipLoop, bind_ok hr]
    simp only [last]
    rcases hp with rfl | rfl | rfl | rfl <;> simp [isDelim, isNumber, pure_run]
  | pipe =>
    have hr : readUnicode (s.here j (124 :: r)) = .ok (some 124, s.here 124 r) :=
      readUnicode_here h j 124 r (by decide) (by decide) (by decide)
    simp only [Piece.text, List.cons_append, List.nil_append]
    rw [ddipLoop, bind_ok hr]
    simp [isDelim, isNumber, pure_run, last]
  | comment t e =>
    obtain ⟨he, hl, hc⟩ := hp
    have hr : readUnicode (s.here j (35 :: (t ++ e :: r))) = .ok (some 35, s.here 35 (t ++ e :: r)) :=
      readUnicode_here h j 35 _ (by decide) (by decide) (by decide)
    simp only [Piece.text, List.cons_append, List.append_assoc, List.nil_append]
    rw [ddipLoop, bind_ok hr]
    simp only [show ((35 : Int) = -164) = False by simp, and_self, if_true, if_false]
    rw [bind_ok (comment_run h 35 e he t r hl hc)]
    rfl

theorem findDot_before (off : Nat) : ∀ (x y : List UInt8) (i : Nat), i + x.length ≤ off → findDot off (x ++ y) i = findDot off y (i + x.length)
  | [], y, i, _ => by simp
  | c :: x, y, i, h => by
    simp only [List.length_cons] at h
    rw [List.cons_append, findDot, if_neg (by omega), findDot_before off x y (i + 1) (by omega), List.length_cons]
    congr 1
    omega

theorem findDot_none (off : Nat) : ∀ (x y : List UInt8) (i : Nat), (46 : UInt8) ∉ x → findDot off (x ++ y) i = findDot off y (i + x.length)
  | [], y, i, _ => by simp
  | c :: x, y, i, h => by
    simp only [List.mem_cons, not_or] at h
    rw [List.cons_append, findDot, if_neg (fun hc => h.1 hc.2.symm), findDot_none off x y (i + 1) h.2, List.length_cons]
    congr 1
    omega

theorem findDot_hit (off : Nat) (y : List UInt8) (i : Nat) (h : off ≤ i) : findDot off (46 :: y) i = some i := by
  rw [findDot, if_pos ⟨h, rfl⟩]

theorem no46 {l : List UInt8} (h : ∀ c ∈ l, isDigit c = true) : (46 : UInt8) ∉ l :=
  fun hm => (digit_facts _ (h _ hm)).2.2.1 rfl

/-- One number of an address. -/
theorem ddip_step {s : Stream} (pre l : List UInt8) (r t : List UInt8) (ht : t = pre ++ (l ++ 46 :: r)) (off : Nat) (hoff : off = pre.length)
    (n : Nat) (ip : List UInt8) (hd : ∀ c ∈ l, isDigit c = true) (hne : l ≠ []) (hv : value l ≤ 255) :
    ddipToIp t (n + 1) (some off) ip s = ddipToIp t n (some (off + l.length + 1)) (ip ++ [UInt8.ofNat (value l)]) s := by
  subst ht hoff
  have ha : atoi (l ++ 46 :: r) 0 = some (value l) := atoi_run l 0 (46 :: r) hd (Or.inr ⟨r, rfl⟩) (Nat.le_trans hv (by decide))
  have hf : findDot (pre.length + 1) (pre ++ (l ++ 46 :: r)) 0 = some (pre.length + l.length) := by
    obtain ⟨c, t, rfl⟩ := List.exists_cons_of_ne_nil hne
    rw [show pre ++ (c :: t ++ 46 :: r) = (pre ++ [c]) ++ (t ++ 46 :: r) by simp, findDot_before _ _ _ _ (by simp),
      findDot_none _ _ _ _ (fun hm => no46 hd (by simp [hm])), findDot_hit _ _ _ (by simp)]
    simp
    omega
  have hlt : ¬ (pre.length ≥ (pre ++ (l ++ 46 :: r)).length) := by simp only [List.length_append, List.length_cons]; omega
  rw [ddipToIp, if_neg hlt, List.drop_left, ha]
  simp only []
  rw [if_neg (by omega), hf]
  rfl

theorem ddip_last {s : Stream} (pre l : List UInt8) (t : List UInt8) (ht : t = pre ++ l) (off : Nat) (hoff : off = pre.length)
    (ip : List UInt8) (hd : ∀ c ∈ l, isDigit c = true) (hne : l ≠ []) (hv : value l ≤ 255) :
    ddipToIp t 1 (some off) ip s = .ok (some (ip ++ [UInt8.ofNat (value l)]), s) := by
  subst ht hoff
  have ha := atoi_run l 0 [] hd (Or.inl rfl) (Nat.le_trans hv (by decide))
  rw [List.append_nil] at ha
  change atoi l 0 = some (value l) at ha
  have hf : findDot (pre.length + 1) (pre ++ l) 0 = none := by
    obtain ⟨c, t, rfl⟩ := List.exists_cons_of_ne_nil hne
    rw [show pre ++ (c :: t) = (pre ++ [c]) ++ (t ++ []) by simp, findDot_before _ _ _ _ (by simp),
      findDot_none _ _ _ _ (fun hm => no46 hd (by simp [hm])), findDot]
  have hlt : ¬ (pre.length ≥ (pre ++ l).length) := by
    have := List.length_pos_iff.mpr hne
    simp
    omega
  rw [ddipToIp, if_neg hlt, List.drop_left, ha]
  simp only []
  rw [if_neg (by omega), hf]
  rfl

theorem ddipToIp_run {s : Stream} (i : Ip4) (hi : i.Ok) : ddipToIp i.text 4 (some 0) [] s = .ok (some i.data, s) := by
  obtain ⟨a, b, c, d⟩ := i
  obtain ⟨_, hall⟩ := hi
  obtain ⟨a1, a2, a3⟩ := hall a (by simp)
  obtain ⟨b1, b2, b3⟩ := hall b (by simp)
  obtain ⟨c1, c2, c3⟩ := hall c (by simp)
  obtain ⟨d1, d2, d3⟩ := hall d (by simp)
  rw [ddip_step [] a (b ++ 46 :: (c ++ 46 :: d)) _ (by simp [Ip4.text]) 0 rfl 3 [] a2 a1 a3,
    ddip_step (a ++ [46]) b (c ++ 46 :: d) _ (by simp [Ip4.text]) _ (by simp) 2 _ b2 b1 b3,
    ddip_step (a ++ [46] ++ b ++ [46]) c d _ (by simp [Ip4.text]) _ (by simp; omega) 1 _ c2 c1 c3,
    ddip_last (a ++ [46] ++ b ++ [46] ++ c ++ [46]) d _ (by simp [Ip4.text]) _ (by simp; omega) _ d2 d1 d3]
  simp [Ip4.data]

theorem getA_of {s s0 : Stream} (h : Plain s) (i : Ip4) (hi : i.Ok) (p : Piece) (hp : p.Ok) (c : UInt8) (t r : List UInt8)
    (ht : i.text = c :: t) (hq : get1st isNumber 0 s0 = .ok (some 1, s.here c (t ++ (p.text ++ r)))) :
    getA s0 = .ok (some i.data, s.here (last p) r) := by
  have hrun := ddipToIp_run (s := s.here (last p) r) i hi
  obtain ⟨hlen, hall⟩ := hi
  have hl : ddipLoop 10000 1 [c] (s.here c (t ++ (p.text ++ r))) = .ok (some i.text, s.here (last p) r) := by
    obtain ⟨a, b, x, d⟩ := i
    obtain ⟨a1, a2, _⟩ := hall a (by simp)
    obtain ⟨b1, b2, _⟩ := hall b (by simp)
    obtain ⟨x1, x2, _⟩ := hall x (by simp)
    obtain ⟨d1, d2, _⟩ := hall d (by simp)
    obtain ⟨c', a, rfl⟩ := List.exists_cons_of_ne_nil a1
    simp only [Ip4.text, List.cons_append, List.cons.injEq] at ht
    obtain ⟨rfl, rfl⟩ := ht
    simp only [Ip4.text, List.length_append, List.length_cons] at hlen
    obtain ⟨j1, e1⟩ := ddip_digits h 1 a (10000 - a.length) [c'] c' (46 :: (b ++ 46 :: (x ++ 46 :: (d ++ (p.text ++ r)))))
      (fun q hq => a2 q (by simp [hq])) (by simp; omega)
    obtain ⟨j2, e2⟩ := ddip_digits h 2 b (10000 - a.length - 1 - b.length) ([c'] ++ a ++ [46]) 46 (46 :: (x ++ 46 :: (d ++ (p.text ++ r))))
      b2 (by simp; omega)
    obtain ⟨j3, e3⟩ := ddip_digits h 3 x (10000 - a.length - 1 - b.length - 1 - x.length) ([c'] ++ a ++ [46] ++ b ++ [46]) 46
      (46 :: (d ++ (p.text ++ r))) x2 (by simp; omega)
    obtain ⟨j4, e4⟩ := ddip_digits h 4 d (10000 - a.length - 1 - b.length - 1 - x.length - 1 - d.length)
      ([c'] ++ a ++ [46] ++ b ++ [46] ++ x ++ [46]) 46 (p.text ++ r) d2 (by simp; omega)
    have f1 := ddip_dot h 1 (10000 - a.length - 1) (by decide) ([c'] ++ a) (by simp; omega) j1 (b ++ 46 :: (x ++ 46 :: (d ++ (p.text ++ r))))
    have f2 := ddip_dot h 2 (10000 - a.length - 1 - b.length - 1) (by decide) ([c'] ++ a ++ [46] ++ b) (by simp; omega) j2
      (x ++ 46 :: (d ++ (p.text ++ r)))
    have f3 := ddip_dot h 3 (10000 - a.length - 1 - b.length - 1 - x.length - 1) (by decide) ([c'] ++ a ++ [46] ++ b ++ [46] ++ x)
      (by simp; omega) j3 (d ++ (p.text ++ r))
    have f4 := ddip_end h p hp (10000 - a.length - 1 - b.length - 1 - x.length - 1 - d.length - 1)
      ([c'] ++ a ++ [46] ++ b ++ [46] ++ x ++ [46] ++ d) j4 r
    rw [show 10000 - a.length + a.length = 10000 by omega] at e1
    rw [show 10000 - a.length - 1 + 1 = 10000 - a.length by omega] at f1
    rw [show 10000 - a.length - 1 - b.length + b.length = 10000 - a.length - 1 by omega] at e2
    rw [show 10000 - a.length - 1 - b.length - 1 + 1 = 10000 - a.length - 1 - b.length by omega] at f2
    rw [show 10000 - a.length - 1 - b.length - 1 - x.length + x.length = 10000 - a.length - 1 - b.length - 1 by omega] at e3
    rw [show 10000 - a.length - 1 - b.length - 1 - x.length - 1 + 1 = 10000 - a.length - 1 - b.length - 1 - x.length by omega] at f3
    rw [show 10000 - a.length - 1 - b.length - 1 - x.length - 1 - d.length + d.length =
      10000 - a.length - 1 - b.length - 1 - x.length - 1 by omega] at e4
    rw [show 10000 - a.length - 1 - b.length - 1 - x.length - 1 - d.length - 1 + 1 =
      10000 - a.length - 1 - b.length - 1 - x.length - 1 - d.length by omega] at f4
    rw [show (a ++ 46 :: (b ++ 46 :: (x ++ 46 :: d))) ++ (p.text ++ r) = a ++ 46 :: (b ++ 46 :: (x ++ 46 :: (d ++ (p.text ++ r)))) by simp,
      e1, f1, e2, f2, e3, f3, e4, f4]
    simp [Ip4.text]
  have hc : isNumber c.toNat = true ∧ c.toNat < 128 := by
    obtain ⟨a, b, x, d⟩ := i
    obtain ⟨a1, a2, _⟩ := hall a (by simp)
    obtain ⟨c', a, rfl⟩ := List.exists_cons_of_ne_nil a1
    simp only [Ip4.text, List.cons_append, List.cons.injEq] at ht
    obtain ⟨rfl, _⟩ := ht
    have := digit_facts c' (a2 c' (by simp))
    exact ⟨this.1, this.2.1⟩
  rw [getA, bind_ok hq, if_neg (by simp), bind_ok (process1st_run h [] (by simp) c hc.1 hc.2 _)]
  simp only [List.nil_append]
  rw [bind_ok hl]
  exact hrun

/-! ## Names among the data -/

theorem getName_run {s : Stream} (h : Plain s) (g : Gap) (hg : g.Ok) (n : NameText) (origin : Name) (p : Piece) (hp : p.Ok)
    (hn : Body.NameOk n origin p) (ho : OriginOk origin) (r : List UInt8) :
    getName (dotted origin) (s.here (last g.first) (pieces g.rest ++ (n.text ++ (p.text ++ r)))) =
      .ok (some (encName (n.name origin)), s.here (last p) r) := by
  obtain ⟨c, t, ht⟩ := List.exists_cons_of_ne_nil hn.ok.some
  obtain ⟨hc1, _, _, hc2, _⟩ := text_head hn.ok ht
  have := hostname_run h n origin hn.ok ho p hp hn.next 3 (by decide) (fun _ => hn.star) c t ht r
  rw [ht, List.cons_append, getName, bind_ok (get1st_gap h skips_dchar g hg c (hc2 hn.star) hc1 _), if_neg (by simp), this, hn.star]
  rfl

theorem add16_run (max : Nat) (o : List UInt8) (n : Nat) (hn : n ≤ 65535) (ho : o.length + 2 < max) :
    add16 max o n = some (o ++ Body.num16 n) := by
  rw [add16, if_neg (by omega), jsAppend, if_neg (by simp; omega)]
  rfl

theorem jsAppend_run (max : Nat) (o l : List UInt8) (ho : o.length + l.length < max) : jsAppend max o l = some (o ++ l) := by
  rw [jsAppend, if_neg (by omega)]

theorem getMx_run {s : Stream} (h : Plain s) (g : Gap) (hg : g.Ok) (l : List UInt8) (hl : NumOk l) (hv : value l ≤ 65535) (g' : Gap)
    (hg' : g'.Ok) (n : NameText) (origin : Name) (p : Piece) (hp : p.Ok) (hn : Body.NameOk n origin p) (ho : OriginOk origin)
    (hsz : (encName (n.name origin)).length ≤ 253) (r : List UInt8) :
    getMx (dotted origin) (-1) (s.here (last g.first) (pieces g.rest ++ (l ++ (g'.first.text ++ (pieces g'.rest ++ (n.text ++ (p.text ++ r))))))) =
      .ok (some (Body.num16 (value l) ++ encName (n.name origin)), s.here (last p) r) := by
  rw [getMx, if_pos (by decide), bind_ok (getNat_run h g hg l hl g'.first hg'.first _)]
  simp only []
  rw [bind_orFail (add16_run 256 [] _ hv (by decide)),
    bind_ok (getName_run h g' hg' n origin p hp hn ho r), bind_orFail (jsAppend_run 256 _ _ (by simp [Body.num16]; omega)), if_neg (by decide)]
  rfl

/-- The older types for mail. -/
theorem getMx_fixed {s : Stream} (h : Plain s) (v : Nat) (hv : v ≤ 65535) (g : Gap) (hg : g.Ok) (n : NameText) (origin : Name) (p : Piece)
    (hp : p.Ok) (hn : Body.NameOk n origin p) (ho : OriginOk origin) (hsz : (encName (n.name origin)).length ≤ 253) (r : List UInt8) :
    getMx (dotted origin) v (s.here (last g.first) (pieces g.rest ++ (n.text ++ (p.text ++ r)))) =
      .ok (some (Body.num16 v ++ encName (n.name origin)), s.here (last p) r) := by
  rw [getMx, if_neg (by omega), bind_pure', Int.toNat_natCast]
  simp only []
  rw [bind_orFail (add16_run 256 [] _ hv (by decide)),
    bind_ok (getName_run h g hg n origin p hp hn ho r), bind_orFail (jsAppend_run 256 _ _ (by simp [Body.num16]; omega)), if_neg (by omega)]
  rfl

theorem getSrv_run {s : Stream} (h : Plain s) (g : Gap) (hg : g.Ok) (a b c : List UInt8)
    (hl : ∀ l ∈ [a, b, c], NumOk l ∧ value l ≤ 65535) (g1 g2 g3 : Gap) (hg1 : g1.Ok) (hg2 : g2.Ok) (hg3 : g3.Ok)
    (n : NameText) (origin : Name) (p : Piece) (hp : p.Ok) (hn : Body.NameOk n origin p) (ho : OriginOk origin)
    (hsz : (encName (n.name origin)).length ≤ 249) (r : List UInt8) :
    getSrv (dotted origin) (s.here (last g.first) (pieces g.rest ++ (a ++ (g1.first.text ++ (pieces g1.rest ++ (b ++ (g2.first.text ++
      (pieces g2.rest ++ (c ++ (g3.first.text ++ (pieces g3.rest ++ (n.text ++ (p.text ++ r))))))))))))) =
      .ok (some (Body.num16 (value a) ++ Body.num16 (value b) ++ Body.num16 (value c) ++ encName (n.name origin)), s.here (last p) r) := by
  obtain ⟨a1, a2⟩ := hl a (by simp)
  obtain ⟨b1, b2⟩ := hl b (by simp)
  obtain ⟨c1, c2⟩ := hl c (by simp)
  rw [getSrv, bind_ok (getNat_run h g hg a a1 g1.first hg1.first _), bind_orFail (add16_run 256 [] _ a2 (by decide)),
    bind_ok (getNat_run h g1 hg1 b b1 g2.first hg2.first _), bind_orFail (add16_run 256 _ _ b2 (by simp [Body.num16])),
    bind_ok (getNat_run h g2 hg2 c c1 g3.first hg3.first _), bind_orFail (add16_run 256 _ _ c2 (by simp [Body.num16])),
    bind_ok (getName_run h g3 hg3 n origin p hp hn ho r), jsAppend_run 256 _ _ (by simp [Body.num16]; omega)]
  rfl

/-! ## Mail addresses -/

theorem user_facts (c : UInt8) (h : Mail.isUser c = true) : isB4At c.toNat = true ∧ c.toNat < 128 ∧ c ≠ 123 ∧ c ≠ 126 ∧ c ≠ 64 ∧
    c ≠ 46 ∧ c ≠ 92 := by
  have key : ∀ n : Fin 256, Mail.isUser (UInt8.ofNat n) = true → isB4At (UInt8.ofNat n).toNat = true ∧
      (UInt8.ofNat n).toNat < 128 ∧ UInt8.ofNat n ≠ 123 ∧ UInt8.ofNat n ≠ 126 ∧ UInt8.ofNat n ≠ 64 ∧ UInt8.ofNat n ≠ 46 ∧
      UInt8.ofNat n ≠ 92 := by
    decide +kernel
  have := key ⟨c.toNat, c.toNat_lt⟩
  simp only [UInt8.ofNat_toNat] at this
  exact this h

theorem plain_user (c : UInt8) (h : isPlain c = true) : Mail.isUser c = true := by simp [Mail.isUser, h]

/-- How a user is written. -/
def userText (l : List UInt8) : List UInt8 := l.flatMap (fun c => if c = 46 then [92, 46] else [c])

theorem mbox_at {s : Stream} (h : Plain s) (x : Bool) (n : Nat) (o : List UInt8) (ho : o.length < 256) (hx : x = true → o[1]? ≠ some 46)
    (j : UInt8) (r : List UInt8) : mboxLoop (n + 1) x o (s.here j (64 :: r)) = .ok (some (true, o ++ [64]), s.here 64 r) := by
  have hr : readUnicode (s.here j (64 :: r)) = .ok (some 64, s.here 64 r) :=
    readUnicode_here h j 64 r (by decide) (by decide) (by decide)
  have ha : appendUtf8 256 o 64 = some (o ++ [64]) := appendUtf8_ascii 64 (by decide) ho
  rw [mboxLoop, bind_ok hr, if_neg (fun hc => hx hc.1 hc.2), if_neg (by decide), if_pos rfl, bind_orDie ha]
  rfl

theorem mbox_run {s : Stream} (h : Plain s) : ∀ (l : List UInt8) (x : Bool) (n : Nat) (o : List UInt8) (j : UInt8) (r : List UInt8),
    Mail.Single l → (x = true → o[1]? ≠ some 46) → o.length + l.length < 256 → l.length < n →
    mboxLoop n x o (s.here j (userText l ++ 64 :: r)) = .ok (some (true, o ++ l ++ [64]), s.here 64 r)
  | [], x, n + 1, o, j, r, _, hx, ho, _ => by
    simpa [userText] using mbox_at h x n o (by simpa using ho) hx j r
  | [c], x, n + 1, o, j, r, hs, hx, ho, hn => by
    by_cases h46 : c = 46
    · subst h46; simp [Mail.Single] at hs
    · have hs' : Mail.isUser c = true ∧ Mail.Single [] := by
        unfold Mail.Single at hs
        split at hs <;> simp_all
      obtain ⟨hu1, hu2, hu3, hu4, hu5, hu6, hu7⟩ := user_facts c hs'.1
      have ih := mbox_run h [] false n (o ++ [c]) c r hs'.2 (by simp) (by simpa using ho) (by simp at hn ⊢; omega)
      have et : userText [c] ++ 64 :: r = c :: (userText [] ++ 64 :: r) := by simp [userText, h46]
      rw [et, mboxLoop, bind_ok (readUnicode_here h j c _ hu3 hu4 hu2), if_neg (fun hc => hx hc.1 hc.2), if_neg (by omega),
        if_neg (show ¬ ((c.toNat : Int) = 64) from ne_int 64 (by decide) hu5), if_neg (show ¬ ((c.toNat : Int) = 46) from ne_int 46 (by decide) hu6), if_neg (show ¬ ((c.toNat : Int) = 92) from ne_int 92 (by decide) hu7), if_pos hu1,
        bind_orDie (appendUtf8_ascii c hu2 (by simp at ho; omega)), ih]
      simp
  | c :: d :: l, x, n + 1, o, j, r, hs, hx, ho, hn => by
    by_cases h46 : c = 46
    · subst h46
      simp only [Mail.Single] at hs
      obtain ⟨hu1, hu2, hu3, hu4, hu5, hu6, hu7⟩ := user_facts d hs.1
      have ih := mbox_run h l false n (o ++ [46] ++ [d]) d r hs.2 (by simp) (by simp at ho ⊢; omega) (by simp at hn ⊢; omega)
      have et : userText (46 :: d :: l) ++ 64 :: r = 92 :: 46 :: d :: (userText l ++ 64 :: r) := by simp [userText, hu6]
      have r1 : readUnicode (s.here j (92 :: 46 :: d :: (userText l ++ 64 :: r))) =
          .ok (some 92, s.here 92 (46 :: d :: (userText l ++ 64 :: r))) := readUnicode_here h j 92 _ (by decide) (by decide) (by decide)
      have r2 : readUnicode (s.here 92 (46 :: d :: (userText l ++ 64 :: r))) =
          .ok (some 46, s.here 46 (d :: (userText l ++ 64 :: r))) := readUnicode_here h 92 46 _ (by decide) (by decide) (by decide)
      have ha : appendUtf8 256 o 46 = some (o ++ [46]) := appendUtf8_ascii 46 (by decide) (by simp at ho; omega)
      rw [et, mboxLoop, bind_ok r1, if_neg (fun hc => hx hc.1 hc.2), if_neg (by decide), if_neg (by decide), if_neg (by decide),
        if_pos rfl, bind_ok r2, if_neg (by simp), bind_orDie ha, bind_ok (readUnicode_here h 46 d _ hu3 hu4 hu2), if_pos hu1,
        bind_orDie (appendUtf8_ascii d hu2 (by simp at ho ⊢; omega)), ih]
      simp
    · have hs' : Mail.isUser c = true ∧ Mail.Single (d :: l) := by
        unfold Mail.Single at hs
        split at hs <;> simp_all
      obtain ⟨hu1, hu2, hu3, hu4, hu5, hu6, hu7⟩ := user_facts c hs'.1
      have ih := mbox_run h (d :: l) false n (o ++ [c]) c r hs'.2 (by simp) (by simp at ho ⊢; omega) (by simp at hn ⊢; omega)
      have et : userText (c :: d :: l) ++ 64 :: r = c :: (userText (d :: l) ++ 64 :: r) := by simp [userText, h46]
      rw [et, mboxLoop, bind_ok (readUnicode_here h j c _ hu3 hu4 hu2), if_neg (fun hc => hx hc.1 hc.2), if_neg (by omega),
        if_neg (show ¬ ((c.toNat : Int) = 64) from ne_int 64 (by decide) hu5), if_neg (show ¬ ((c.toNat : Int) = 46) from ne_int 46 (by decide) hu6), if_neg (show ¬ ((c.toNat : Int) = 92) from ne_int 92 (by decide) hu7), if_pos hu1,
        bind_orDie (appendUtf8_ascii c hu2 (by simp at ho; omega)), ih]
      simp

theorem single_no64 : ∀ (l : List UInt8), Mail.Single l → (64 : UInt8) ∉ l
  | [], _ => by simp
  | [c], hs => by
    by_cases h46 : c = 46
    · subst h46; decide
    · have hs' : Mail.isUser c = true := by
        unfold Mail.Single at hs
        split at hs <;> simp_all
      have := (user_facts c hs').2.2.2.2.1
      simp [this.symm]
  | c :: d :: l, hs => by
    by_cases h46 : c = 46
    · subst h46
      simp only [Mail.Single] at hs
      have := (user_facts d hs.1).2.2.2.2.1
      have ih := single_no64 l hs.2
      simp [this.symm, ih]
    · have hs' : Mail.isUser c = true ∧ Mail.Single (d :: l) := by
        unfold Mail.Single at hs
        split at hs <;> simp_all
      have := (user_facts c hs'.1).2.2.2.2.1
      have ih := single_no64 (d :: l) hs'.2
      simp only [List.mem_cons, not_or] at ih ⊢
      exact ⟨this.symm, ih⟩

theorem mailLoop_seen : ∀ (t cur : List UInt8), mailLoop t cur true = wireLoop t cur
  | [], cur => rfl
  | c :: t, cur => by
    rw [mailLoop, wireLoop]
    by_cases h : c = 46
    · rw [if_pos (Or.inl ⟨rfl, h⟩), if_pos h, mailLoop_seen t []]
    · rw [if_neg (by simp [h]), if_neg h, mailLoop_seen t]

theorem mailLoop_user : ∀ (l cur : List UInt8) (r : List UInt8), (64 : UInt8) ∉ l → 1 ≤ (cur ++ l).length → (cur ++ l).length ≤ 63 →
    mailLoop (l ++ 64 :: r) cur false = (wireLoop r []).map fun w => UInt8.ofNat (cur ++ l).length :: (cur ++ l) ++ w
  | [], cur, r, _, h1, h2 => by
    simp only [List.append_nil] at h1 h2
    rw [List.nil_append, mailLoop, if_pos (Or.inr ⟨rfl, rfl⟩), if_neg (by omega), List.append_nil, mailLoop_seen]
    cases wireLoop r [] <;> rfl
  | c :: l, cur, r, hc, h1, h2 => by
    simp only [List.mem_cons, not_or] at hc
    rw [List.cons_append, mailLoop, if_neg (by simp [hc.1, Ne.symm hc.1]), mailLoop_user l (cur ++ [c]) r hc.2 (by simp; omega) (by simp at h2 ⊢; omega)]
    simp

theorem dotted_last (a : List UInt8) {ls : Name} (h : ls ≠ []) : (a ++ dotted ls).getLast? = some 46 := by
  rcases List.eq_nil_or_concat ls with h0 | ⟨ls, l, rfl⟩
  · exact absurd h0 h
  · have : dotted (ls.concat l) = dotted ls ++ l ++ [46] := by simp [dotted]
    rw [this, ← List.append_assoc, List.getLast?_concat]

theorem getMbox_step {s : Stream} (h : Plain s) (g : Gap) (hg : g.Ok) (m : Mail) (origin : Name) (hm : m.Ok origin) (ho : OriginOk origin)
    (p : Piece) (hp : p.Ok) (hpc : m.host.relative = true → p.isComment = false) (k : Nat) (o : List UInt8)
    (hsz : o.length + (m.data origin).length < 512) (r : List UInt8) :
    getMbox (dotted origin) (k + 1) o (s.here (last g.first) (pieces g.rest ++ (m.text ++ (p.text ++ r)))) =
      getMbox (dotted origin) k (o ++ m.data origin) (s.here (last p) r) := by
  obtain ⟨user, host⟩ := m
  obtain ⟨c, u, hu, hc, hs⟩ := hm.first
  simp only at hu
  subst hu
  have hhost := hm.host
  have hstar : host.star = false := hm.star
  have hshort := hm.short
  have hul := hm.user
  obtain ⟨hc1, hc2, hc46, _, _, _, _, _⟩ := plain_facts c hc
  have hlab := nameOk_labels hhost
  obtain ⟨hlo, hby⟩ := name_labelsOk hhost ho
  have hsome := hhost.some
  simp only [Mail.data, encName_length, show dotted ((c :: u) :: host.name origin) = (c :: u) ++ 46 :: dotted (host.name origin) by simp [dotted],
    List.length_append, List.length_cons] at hshort hsz
  have hsub : (dotted host.labels).length + host.relative.toNat ≤ (dotted (host.name origin)).length := by
    rw [NameText.name, dotted_append, List.length_append]
    cases host.relative with
    | false => simp
    | true =>
      have : 1 ≤ (dotted origin).length := by
        obtain ⟨l, t, rfl⟩ := List.exists_cons_of_ne_nil ho.some
        simp [dotted]
        omega
      simpa using this
  have et : (Mail.mk (c :: u) host).text = c :: (userText u ++ 64 :: host.text) := by simp [Mail.text, userText, hc46]
  have e1 : processMbox (s.here c (userText u ++ 64 :: host.text ++ (p.text ++ r))) =
      .ok (some (90 :: c :: u ++ 64 :: host.text), s.here (last p) r) := by
    have p1 := process1st_run h (isOk := isAlphanumOrDot) [90] (by simp) c (by simp [isAlphanumOrDot, hc1]) hc2
      (userText u ++ 64 :: host.text ++ (p.text ++ r))
    have p2 := mbox_run h u true 10000 ([90] ++ [c]) c (host.text ++ (p.text ++ r)) hs (by simp [hc46]) (by simp; omega) (by simp at hul; omega)
    rw [show userText u ++ 64 :: host.text ++ (p.text ++ r) = userText u ++ 64 :: (host.text ++ (p.text ++ r)) by simp] at p1 ⊢
    rw [processMbox, bind_ok p1, bind_ok p2]
    simp only [if_true]
    rw [appendDname, bind_get, just_here h, if_neg (by decide), if_neg (by simp)]
    have p3 := dname_tail h host.labels host.relative p hp hpc 10000 false (by
        by_cases h1 : host.labels = []
        · cases h2 : host.relative
          · simp [NameText.text, h1, h2, hstar, dotted] at hsome
          · simp
        · simp [h1]) ([90] ++ [c] ++ u ++ [64]) hlab (by simp; omega) (by omega) 64 r
    have e2 : host.text = dotted host.labels ++ (if host.relative then [37] else []) := by simp [NameText.text, hstar]
    rw [e2, List.append_assoc (dotted host.labels), p3]
    simp
  have e3 : percent (90 :: c :: u ++ 64 :: host.text) (dotted origin) = some (90 :: ((c :: u) ++ 64 :: dotted (host.name origin))) := by
    have e2 : host.text = dotted host.labels ++ (if host.relative then [37] else []) := by simp [NameText.text, hstar]
    cases hr : host.relative with
    | true =>
      rw [hr] at e2
      simp only [if_true] at e2
      have l1 : (90 :: c :: u ++ 64 :: host.text) = (90 :: c :: u ++ 64 :: dotted host.labels) ++ [37] := by rw [e2]; simp
      rw [l1, percent, if_pos List.getLast?_concat, List.dropLast_concat, jsAppend_run]
      · simp [NameText.name, hr, dotted_append]
      · simp only [NameText.name, hr, if_true, dotted_append, List.length_append] at hshort
        simp only [List.length_append, List.length_cons]
        omega
    | false =>
      rw [hr] at e2
      simp only [Bool.false_eq_true, if_false, List.append_nil] at e2
      have l1 : host.labels ≠ [] := by
        intro h0
        rw [e2, h0] at hsome
        simp [dotted] at hsome
      rw [percent, if_neg]
      · simp [NameText.name, hr, e2]
      · rw [e2, show 90 :: c :: u ++ 64 :: dotted host.labels = (90 :: c :: u ++ [64]) ++ dotted host.labels by simp, dotted_last _ l1]
        decide
  have hne : host.name origin ≠ [] := by
    intro h0
    rw [NameText.name] at h0
    simp only [List.append_eq_nil_iff] at h0
    have h2 : host.relative = false := by
      cases hr : host.relative
      · rfl
      · rw [hr, if_pos rfl] at h0; exact absurd h0.2 ho.some
    simp [NameText.text, h0.1, hstar, h2, dotted] at hsome
  have e4 : mailWire ((c :: u) ++ 64 :: dotted (host.name origin)) (s.here (last p) r) =
      .ok (some (encName ((c :: u) :: host.name origin)), s.here (last p) r) := by
    have hc64 : (64 : UInt8) ∉ c :: u := by
      have := (user_facts c (plain_user c hc)).2.2.2.2.1
      have h2 := single_no64 u hs
      simp only [List.mem_cons, not_or]
      exact ⟨this.symm, h2⟩
    have hlast : ((c :: u) ++ 64 :: dotted (host.name origin)).getLast? ≠ some 64 := by
      rw [show (c :: u) ++ 64 :: dotted (host.name origin) = (c :: u ++ [64]) ++ dotted (host.name origin) by simp, dotted_last _ hne]
      decide
    rw [mailWire, if_neg (by simp), if_neg (by simp), if_neg (by simp), if_neg hlast,
      mailLoop_user (c :: u) [] _ hc64 (by simp) (by simpa using hul), wireLoop_dotted _ hlo (fun l hl => (hby l hl).2)]
    simp [encName, encLabels, orFail, pure_run]
  rw [getMbox, et, List.cons_append,
    bind_ok (get1st_gap h skips_alphanumOrDot g hg c (by simp [isAlphanumOrDot, hc1]) hc2 _), if_neg (by simp), bind_ok e1, bind_orFail e3,
    List.tail_cons, bind_ok e4, bind_orFail (jsAppend_run 512 _ _ ?_)]
  · rfl
  · rw [encName_length, show dotted ((c :: u) :: host.name origin) = (c :: u) ++ 46 :: dotted (host.name origin) by simp [dotted]]
    simp only [List.length_append, List.length_cons]
    omega

/-! ## SOA records -/

theorem add32_run (o : List UInt8) (n : Nat) (ho : o.length + 4 < 512) (hn : n < 2 ^ 32) : add32 512 o n = some (o ++ Spec.num32 n) := by
  have hu : Zf.u32 n = Spec.num32 n := rfl
  rw [add32, hu, jsAppend_run 512 _ _ (by simp [Spec.num32]; omega)]

theorem soaNums_step {s : Stream} (h : Plain s) (serial : Nat) (k : Nat) (first : Bool) (o : List UInt8) (g : Gap) (hg : g.Ok)
    (l : List UInt8) (hl : NumOk l) (p : Piece) (hp : p.Ok) (ho : o.length + 4 < 512) (r : List UInt8) :
    soaNums serial (k + 1) first o (s.here (last g.first) (pieces g.rest ++ (l ++ (p.text ++ r)))) =
      soaNums serial k false (o ++ Spec.num32 (value l)) (s.here (last p) r) := by
  have := hl.small
  rw [soaNums, bind_ok (getNum_run h g hg l hl p hp r), if_neg (by omega), if_neg (by omega), Int.toNat_natCast,
    bind_orFail (add32_run o _ ho (by omega))]

theorem soaNums_serial {s : Stream} (h : Plain s) (serial : Nat) (hser : serial < 2 ^ 32) (k : Nat) (o : List UInt8) (g : Gap) (hg : g.Ok)
    (p : Piece) (hp : p.Ok) (hpc : p.isComment = false) (ho : o.length + 4 < 512) (r : List UInt8) :
    soaNums serial (k + 1) true o (s.here (last g.first) (pieces g.rest ++ (ascii "/serial" ++ (p.text ++ r)))) =
      soaNums serial k false (o ++ Spec.num32 serial) (s.here (last p) r) := by
  rw [soaNums, bind_ok (getNum_serial h g hg p hp hpc r), if_pos ⟨rfl, rfl⟩, bind_orFail (add32_run o _ ho hser)]

end Csv2
end Mara
