import Verif.Mara.Csv2Read
import Verif.Mara.ZoneExact
/-!
# Lemmas: names in zone files
-/

namespace Mara
namespace Csv2

open Dw (Res)
open Spec (Name encName encLabels dotted LabelsOk)
open Spec.ZoneText (Piece Gap pieces NameText isPlain)

/-- Bytes of labels in zone files. -/
def NameByte (c : UInt8) : Prop := isPlain c = true ∨ c = 47

theorem plain_facts (c : UInt8) (h : isPlain c = true) : isAlphanum c.toNat = true ∧ c.toNat < 128 ∧ c ≠ 46 ∧ c ≠ 42 ∧ c ≠ 0 ∧
    c ≠ 123 ∧ c ≠ 126 ∧ c ≠ 35 ∧ c ≠ 37 := by
  have key : ∀ n : Fin 256, isPlain (UInt8.ofNat n) = true → isAlphanum (UInt8.ofNat n).toNat = true ∧
      (UInt8.ofNat n).toNat < 128 ∧ UInt8.ofNat n ≠ 46 ∧ UInt8.ofNat n ≠ 42 ∧ UInt8.ofNat n ≠ 0 ∧
      UInt8.ofNat n ≠ 123 ∧ UInt8.ofNat n ≠ 126 ∧ UInt8.ofNat n ≠ 35 ∧ UInt8.ofNat n ≠ 37 := by decide +kernel
  have := key ⟨c.toNat, c.toNat_lt⟩
  simp only [UInt8.ofNat_toNat] at this
  exact this h

theorem nameByte_facts {c : UInt8} (h : NameByte c) : isDname c.toNat = true ∧ c.toNat < 128 ∧ c ≠ 46 ∧ c ≠ 42 ∧ c ≠ 0 ∧
    c ≠ 123 ∧ c ≠ 126 ∧ c ≠ 35 ∧ c ≠ 37 := by
  rcases h with h | rfl
  · have := plain_facts c h
    refine ⟨?_, this.2⟩
    simp [isDname, this.1]
  · decide

theorem ne_int {c : UInt8} (n : Nat) (hn : n < 256) (h : c ≠ UInt8.ofNat n) : ¬ ((c.toNat : Int) = n) := by
  intro he
  apply h
  apply UInt8.toNat_inj.mp
  rw [UInt8.toNat_ofNat_of_lt' (by simpa using hn)]
  exact_mod_cast he

theorem dname_text {s : Stream} (h : Plain s) {c : UInt8} (hc : NameByte c) (n : Nat) (x : Bool) (o : List UInt8)
    (ho : o.length < 256) (j : UInt8) (r : List UInt8) (st : Dot) (hst : st = .text ∨ st = .dot) :
    dnameLoop (n + 1) x st o (s.here j (c :: r)) = dnameLoop n true .text (o ++ [c]) (s.here c r) := by
  obtain ⟨hd, hl, h46, _, _, h123, h126, h35, h37⟩ := nameByte_facts hc
  have e46 : ¬ ((c.toNat : Int) = 46) := ne_int 46 (by decide) h46
  have e35 : ¬ ((c.toNat : Int) = 35) := ne_int 35 (by decide) h35
  have e37 : ¬ ((c.toNat : Int) = 37) := ne_int 37 (by decide) h37
  rw [dnameLoop, bind_ok (readUnicode_here h j c r h123 h126 hl), if_neg (by omega), if_neg (by simp [e46])]
  rcases hst with rfl | rfl
  · rw [if_pos ⟨rfl, hd⟩, bind_orDie (appendUtf8_ascii c hl ho)]
  · rw [if_neg (by simp), if_neg (by simp [e35]), if_neg (by simp [e37]), if_pos ⟨rfl, hd⟩, bind_orDie (appendUtf8_ascii c hl ho)]

theorem dname_dot {s : Stream} (h : Plain s) (n : Nat) (x : Bool) (o : List UInt8)
    (ho : o.length < 256) (j : UInt8) (r : List UInt8) (st : Dot) (hst : st = .text ∨ st = .star) :
    dnameLoop (n + 1) x st o (s.here j (46 :: r)) = dnameLoop n true .dot (o ++ [46]) (s.here 46 r) := by
  have hr : readUnicode (s.here j (46 :: r)) = .ok (some 46, s.here 46 r) :=
    readUnicode_here h j 46 r (by decide) (by decide) (by decide)
  have ha : appendUtf8 256 o 46 = some (o ++ [46]) := appendUtf8_ascii 46 (by decide) ho
  rw [dnameLoop, bind_ok hr]
  rcases hst with rfl | rfl
  · rw [if_neg (by decide), if_pos ⟨rfl, rfl⟩, bind_orDie ha]
  · rw [if_neg (by decide), if_neg (by simp), if_neg (by simp), if_neg (by simp), if_neg (by simp), if_neg (by simp), if_neg (by simp),
      if_pos ⟨rfl, rfl⟩, bind_orDie ha]

/-- The rest of a label. -/
theorem dname_label {s : Stream} (h : Plain s) : ∀ (l : List UInt8) (n : Nat) (x : Bool) (o : List UInt8) (j : UInt8) (r : List UInt8),
    (∀ c ∈ l, NameByte c) → o.length + l.length < 256 →
    dnameLoop (n + (l.length + 1)) x .text o (s.here j (l ++ 46 :: r)) = dnameLoop n true .dot (o ++ (l ++ [46])) (s.here 46 r)
  | [], n, x, o, j, r, _, ho => by
    simpa using dname_dot h n x o (by simpa using ho) j r .text (Or.inl rfl)
  | c :: l, n, x, o, j, r, hc, ho => by
    have ih := dname_label h l n true (o ++ [c]) c r (fun d hd => hc d (by simp [hd])) (by simp at ho ⊢; omega)
    rw [List.length_cons, show n + (l.length + 1 + 1) = (n + (l.length + 1)) + 1 by omega, List.cons_append,
      dname_text h (hc c (by simp)) _ x o (by simp at ho; omega) j _ .text (Or.inl rfl), ih]
    simp

/-- Labels after a dot. -/
theorem dname_labels {s : Stream} (h : Plain s) : ∀ (ls : List (List UInt8)) (n : Nat) (x : Bool) (o : List UInt8) (j : UInt8)
    (r : List UInt8), (∀ l ∈ ls, l ≠ [] ∧ ∀ c ∈ l, NameByte c) → o.length + (dotted ls).length ≤ 256 →
    ∃ j1, dnameLoop (n + (dotted ls).length) x .dot o (s.here j (dotted ls ++ r)) =
      dnameLoop n (x || decide (ls ≠ [])) .dot (o ++ dotted ls) (s.here j1 r)
  | [], n, x, o, j, r, _, _ => ⟨j, by simp [dotted]⟩
  | l :: ls, n, x, o, j, r, hl, ho => by
    obtain ⟨hne, hc⟩ := hl l (by simp)
    obtain ⟨c, t, rfl⟩ := List.exists_cons_of_ne_nil hne
    have ed : dotted ((c :: t) :: ls) = (c :: t) ++ 46 :: dotted ls := by simp [dotted]
    rw [ed] at ho ⊢
    obtain ⟨j1, e1⟩ := dname_labels h ls n true (o ++ [c] ++ (t ++ [46])) 46 r (fun m hm => hl m (by simp [hm]))
      (by simp at ho ⊢; omega)
    refine ⟨j1, ?_⟩
    have el : n + ((c :: t) ++ 46 :: dotted ls).length = (n + (dotted ls).length + (t.length + 1)) + 1 := by simp; omega
    rw [el, show (c :: t ++ 46 :: dotted ls) ++ r = c :: (t ++ 46 :: (dotted ls ++ r)) by simp,
      dname_text h (hc c (by simp)) _ x o (by simp at ho; omega) j _ .dot (Or.inr rfl),
      dname_label h t _ true _ c _ (fun d hd => hc d (by simp [hd])) (by simp at ho ⊢; omega), e1]
    simp

/-- The end of a name. -/
theorem dname_end {s : Stream} (h : Plain s) (p : Piece) (hp : p.Ok) (n : Nat) (o : List UInt8) (j : UInt8) (r : List UInt8) :
    dnameLoop (n + 1) true .dot o (s.here j (p.text ++ r)) = .ok (some o, s.here (last p) r) := by
  cases p with
  | blank c =>
    have hr : readUnicode (s.here j (c :: r)) = .ok (some (c.toNat : Int), s.here c r) := by
      refine readUnicode_here h j c r ?_ ?_ ?_ <;> rcases hp with rfl | rfl | rfl | rfl <;> decide
    simp only [Piece.text, List.cons_append, List.nil_append]
    rw [dnameLoop, bind_ok hr]
    simp only [last]
    rcases hp with rfl | rfl | rfl | rfl <;> simp [isDelim, isDname, isAlphanum, isAlpha, isNumber, isLower, isUpper, pure_run]
  | pipe =>
    have hr : readUnicode (s.here j (124 :: r)) = .ok (some 124, s.here 124 r) :=
      readUnicode_here h j 124 r (by decide) (by decide) (by decide)
    simp only [Piece.text, List.cons_append, List.nil_append]
    rw [dnameLoop, bind_ok hr]
    simp [isDelim, isDname, isAlphanum, isAlpha, isNumber, isLower, isUpper, pure_run, last]
  | comment t e =>
    obtain ⟨he, hl, hc⟩ := hp
    have hr : readUnicode (s.here j (35 :: (t ++ e :: r))) = .ok (some 35, s.here 35 (t ++ e :: r)) :=
      readUnicode_here h j 35 _ (by decide) (by decide) (by decide)
    simp only [Piece.text, List.cons_append, List.append_assoc, List.nil_append]
    rw [dnameLoop, bind_ok hr]
    simp only [show ((35 : Int) = -164) = False by simp, show ((35 : Int) = 46 ∧ Dot.dot = Dot.text) = False by simp,
      show (Dot.dot = Dot.text ∧ isDname 35 = true) = False by simp, and_self, if_true, if_false]
    rw [bind_ok (comment_run h 35 e he t r hl hc)]
    rfl

theorem read_piece {s : Stream} (h : Plain s) (p : Piece) (hp : p.Ok) (hc : p.isComment = false) (j : UInt8) (r : List UInt8) :
    readUnicode (s.here j (p.text ++ r)) = .ok (some ((last p).toNat : Int), s.here (last p) r) := by
  cases p with
  | blank c =>
    refine readUnicode_here h j c r ?_ ?_ ?_ <;> rcases hp with rfl | rfl | rfl | rfl <;> decide
  | pipe => exact readUnicode_here h j 124 r (by decide) (by decide) (by decide)
  | comment t e => cases hc

/-- A percent sign at the end of a name. -/
theorem dname_percent {s : Stream} (h : Plain s) (p : Piece) (hp : p.Ok) (hpc : p.isComment = false) (n : Nat) (x : Bool)
    (o : List UInt8) (ho : o.length < 256) (j : UInt8) (r : List UInt8) :
    dnameLoop (n + 1) x .dot o (s.here j (37 :: (p.text ++ r))) = .ok (some (o ++ [37]), s.here (last p) r) := by
  have hr : readUnicode (s.here j (37 :: (p.text ++ r))) = .ok (some 37, s.here 37 (p.text ++ r)) :=
    readUnicode_here h j 37 _ (by decide) (by decide) (by decide)
  have ha : appendUtf8 256 o 37 = some (o ++ [37]) := appendUtf8_ascii 37 (by decide) ho
  rw [dnameLoop, bind_ok hr, if_neg (by decide), if_neg (by simp), if_neg (by simp), if_neg (by simp), if_pos ⟨rfl, rfl⟩,
    bind_orDie ha, bind_ok (read_piece h p hp hpc 37 r), if_neg (by omega)]
  rfl

/-- What comes after a dot, to the end of the name. -/
theorem dname_tail {s : Stream} (h : Plain s) (ls : List (List UInt8)) (rel : Bool) (p : Piece) (hp : p.Ok)
    (hpc : rel = true → p.isComment = false) (n : Nat) (x : Bool) (hx : x = true ∨ ls ≠ [] ∨ rel = true) (o : List UInt8)
    (hl : ∀ l ∈ ls, l ≠ [] ∧ ∀ c ∈ l, NameByte c) (ho : o.length + (dotted ls).length + rel.toNat ≤ 256)
    (hn : (dotted ls).length < n) (j : UInt8) (r : List UInt8) :
    dnameLoop n x .dot o (s.here j (dotted ls ++ ((if rel then [37] else []) ++ (p.text ++ r)))) =
      .ok (some (o ++ dotted ls ++ (if rel then [37] else [])), s.here (last p) r) := by
  obtain ⟨j1, e1⟩ := dname_labels h ls (n - (dotted ls).length) x o j ((if rel then [37] else []) ++ (p.text ++ r)) hl (by omega)
  rw [show n - (dotted ls).length + (dotted ls).length = n by omega] at e1
  rw [e1, show n - (dotted ls).length = (n - (dotted ls).length - 1) + 1 by omega]
  cases rel with
  | true =>
    have := dname_percent h p hp (hpc rfl) (n - (dotted ls).length - 1) (x || decide (ls ≠ [])) (o ++ dotted ls)
      (by simp at ho ⊢; omega) j1 r
    simpa using this
  | false =>
    have hx' : (x || decide (ls ≠ [])) = true := by
      rcases hx with h | h | h
      · simp [h]
      · simp [h]
      · cases h
    rw [hx']
    simpa using dname_end h p hp (n - (dotted ls).length - 1) (o ++ dotted ls) j1 r

/-! ## A whole name -/

theorem nameOk_labels {n : NameText} {origin : Name} (hn : n.Ok origin) : ∀ l ∈ n.labels, l ≠ [] ∧ ∀ c ∈ l, NameByte c := by
  intro l hl
  obtain ⟨h1, _, h3⟩ := hn.labels l hl
  exact ⟨by intro h; simp [h] at h1, h3⟩

theorem encName_length (n : Name) : (encName n).length = (dotted n).length + 1 := by
  induction n with
  | nil => rfl
  | cons l n ih =>
    simp only [encName, encLabels, dotted, List.flatMap_cons, List.length_append, List.length_cons, List.length_nil] at ih ⊢
    omega

theorem dotted_append (a b : Name) : dotted (a ++ b) = dotted a ++ dotted b := by simp [dotted]

/-- Origins: names with bytes other than stars and dots. -/
structure OriginOk (o : Name) : Prop where
  labels : LabelsOk o
  some : o ≠ []
  bytes : ∀ l ∈ o, (42 : UInt8) ∉ l ∧ (46 : UInt8) ∉ l

theorem name_size {n : NameText} {origin : Name} (hn : n.Ok origin) (ho : OriginOk origin) :
    (dotted n.labels).length + (if n.star then 2 else 0) + n.relative.toNat ≤ 254 := by
  have h := hn.short
  rw [encName_length, NameText.name] at h
  cases hr : n.relative with
  | false => rw [hr] at h; simp at h ⊢; omega
  | true =>
    rw [hr] at h
    rw [if_pos rfl, dotted_append, List.length_append] at h
    have h1 : 1 ≤ (dotted origin).length := by
      obtain ⟨l, t, rfl⟩ := List.exists_cons_of_ne_nil ho.some
      simp [dotted]
      omega
    simp only [Bool.toNat_true]
    omega

/-- `js_append_dname` reads a name. -/
theorem appendDname_run {s : Stream} (h : Plain s) (n : NameText) (origin : Name) (hn : n.Ok origin) (ho : OriginOk origin)
    (p : Piece) (hp : p.Ok) (hpc : n.relative = true → p.isComment = false) (star : Nat) (hs : star ≠ 0)
    (hs3 : star = 3 → n.star = false) (pre : List UInt8) (hpre : pre.length ≤ 1) (c : UInt8) (t : List UInt8) (ht : n.text = c :: t)
    (r : List UInt8) :
    appendDname (pre ++ [c]) star (s.here c (t ++ (p.text ++ r))) = .ok (some (pre ++ n.text), s.here (last p) r) := by
  have hsize := name_size hn ho
  have hlab := nameOk_labels hn
  obtain ⟨nstar, ls, rel⟩ := n
  simp only at hsize hlab hpc hs3
  rw [appendDname, bind_get, just_here h]
  cases nstar with
  | true =>
    simp only [NameText.text, if_true, List.cons_append, List.nil_append, List.cons.injEq] at ht
    obtain ⟨rfl, rfl⟩ := ht
    have h3 : star ≠ 3 := by intro h3; cases hs3 h3
    rw [if_neg (by decide), if_pos hs, if_neg (by decide), if_pos (by decide), if_neg h3]
    rw [show (46 :: (dotted ls ++ if rel = true then [37] else [])) ++ (p.text ++ r) =
      46 :: (dotted ls ++ ((if rel then [37] else []) ++ (p.text ++ r))) by simp,
      dname_dot h 9999 false (pre ++ [42]) (by simp; omega) 42 _ .star (Or.inr rfl),
      dname_tail h ls rel p hp hpc 9999 true (Or.inl rfl) (pre ++ [42] ++ [46]) hlab (by simp at hsize ⊢; omega) (by simp at hsize; omega)]
    simp [NameText.text]
  | false =>
    cases ls with
    | nil =>
      cases rel with
      | false => simp [NameText.text, dotted] at ht
      | true =>
        simp only [NameText.text, dotted, List.flatMap_nil, if_true, Bool.false_eq_true, if_false, List.nil_append, List.cons.injEq] at ht
        obtain ⟨rfl, rfl⟩ := ht
        rw [if_pos (by decide), List.nil_append, bind_ok (read_piece h p hp (hpc rfl) 37 r), if_neg (by omega)]
        simp [NameText.text, dotted, pure_run]
    | cons l ls =>
      obtain ⟨hne, hc⟩ := hlab l (by simp)
      obtain ⟨d, l, rfl⟩ := List.exists_cons_of_ne_nil hne
      have e1 : dotted ((d :: l) :: ls) = d :: (l ++ 46 :: dotted ls) := by simp [dotted]
      simp only [NameText.text, e1, Bool.false_eq_true, if_false, List.nil_append, List.cons_append, List.cons.injEq] at ht
      obtain ⟨rfl, rfl⟩ := ht
      obtain ⟨hd, _, h46, _, _, _, _, _, h37⟩ := nameByte_facts (hc d (by simp))
      have e46 : ¬ ((d.toNat : Int) = 46) := ne_int 46 (by decide) h46
      have e37 : ¬ ((d.toNat : Int) = 37) := ne_int 37 (by decide) h37
      rw [e1] at hsize
      simp only [List.length_cons, List.length_append, Bool.false_eq_true, if_false] at hsize
      rw [if_neg (by simp [e46, e37]), if_pos hs, if_pos hd]
      rw [show (l ++ 46 :: dotted ls ++ if rel = true then [37] else []) ++ (p.text ++ r) =
        l ++ 46 :: (dotted ls ++ ((if rel then [37] else []) ++ (p.text ++ r))) by simp,
        show 10000 = (9999 - l.length) + (l.length + 1) by omega,
        dname_label h l (9999 - l.length) false (pre ++ [d]) d _ (fun c' hc' => hc c' (by simp [hc'])) (by simp; omega),
        dname_tail h ls rel p hp hpc (9999 - l.length) true (Or.inl rfl) _ (fun m hm => hlab m (by simp [hm])) (by simp; omega) (by omega)]
      simp [NameText.text, e1]

theorem wireLoop_label : ∀ (l cur : List UInt8) (r : List UInt8), (46 : UInt8) ∉ l → 1 ≤ (cur ++ l).length → (cur ++ l).length ≤ 63 →
    wireLoop (l ++ 46 :: r) cur = (wireLoop r []).map fun w => UInt8.ofNat (cur ++ l).length :: (cur ++ l) ++ w
  | [], cur, r, _, h1, h2 => by
    simp only [List.append_nil] at h1 h2
    rw [List.nil_append, wireLoop, if_pos rfl, if_neg (by omega), List.append_nil]
    cases wireLoop r [] <;> rfl
  | c :: l, cur, r, hc, h1, h2 => by
    have hc' : c ≠ 46 := by intro h; simp [h] at hc
    rw [List.cons_append, wireLoop, if_neg hc', wireLoop_label l (cur ++ [c]) r (by simp at hc; exact hc.2) (by simp; omega) (by simp at h2 ⊢; omega)]
    simp

theorem wireLoop_dotted : ∀ (ls : Name), LabelsOk ls → (∀ l ∈ ls, (46 : UInt8) ∉ l) → wireLoop (dotted ls) [] = some (encName ls)
  | [], _, _ => rfl
  | l :: ls, hl, hd => by
    have ih := wireLoop_dotted ls (fun m hm => hl m (by simp [hm])) (fun m hm => hd m (by simp [hm]))
    have := hl l (by simp)
    rw [show dotted (l :: ls) = l ++ 46 :: dotted ls by simp [dotted], wireLoop_label l [] _ (hd l (by simp)) (by simpa using this.1) (by simpa using this.2), ih]
    simp [encName, encLabels]

theorem wire_dotted {s : Stream} (ls : Name) (hl : LabelsOk ls) (hd : ∀ l ∈ ls, (46 : UInt8) ∉ l) (hne : ls ≠ []) :
    wire (dotted ls) s = .ok (some (encName ls), s) := by
  obtain ⟨l, t, rfl⟩ := List.exists_cons_of_ne_nil hne
  obtain ⟨c, l, rfl⟩ : ∃ c l', l = c :: l' := by
    cases l with
    | nil => have := (hl [] (by simp)).1; simp at this
    | cons c l => exact ⟨c, l, rfl⟩
  have h1 : dotted ((c :: l) :: t) ≠ [] := by simp [dotted]
  have h2 : dotted ((c :: l) :: t) ≠ [46] := by
    intro h
    simp [dotted] at h
  rw [wire, if_neg h1, if_neg h2, wireLoop_dotted _ hl hd]
  rfl

theorem encName_no42 (ls : Name) (hl : LabelsOk ls) (h : ∀ l ∈ ls, (42 : UInt8) ∉ l) : starMeta (encName ls) = encName ls := by
  rw [starMeta]
  split_ifs with h1 h2 h3
  · rfl
  · exfalso
    cases ls with
    | nil => simp [encName, encLabels] at h2
    | cons l ls =>
      obtain ⟨hl1, hl2⟩ := hl l (by simp)
      cases l with
      | nil => simp at hl1
      | cons c l =>
        simp [encName, encLabels] at h2
        exact h (c :: l) (by simp) (by simp [h2.2])
  · exfalso
    obtain ⟨h4, h5⟩ := h3
    rcases List.eq_nil_or_concat ls with rfl | ⟨ls, l, rfl⟩
    · simp [encName, encLabels] at h4
    · obtain ⟨hl1, hl2⟩ := hl l (by simp)
      rcases List.eq_nil_or_concat l with rfl | ⟨l, c, rfl⟩
      · simp at hl1
      · have e1 : encName (ls.concat (l.concat c)) = (encLabels ls ++ (UInt8.ofNat (l.length + 1) :: l)) ++ [c, 0] := by
          simp [encName, encLabels]
        rw [e1] at h5
        have e2 := congrArg (fun x => x.reverse[1]?) h5
        simp only [List.reverse_cons, List.reverse_nil] at e2
        have e3 : ∀ (a : List UInt8) (k : Nat), k + 2 ≤ (a ++ [c, 0]).length → ((a ++ [c, 0]).drop k).reverse[1]? = some c := by
          intro a k hk
          rw [List.drop_append]
          simp only [List.length_append, List.length_cons, List.length_nil] at hk
          rw [show k - a.length = 0 by omega]
          simp
        rw [e3 _ _ (by simp; omega)] at e2
        simp at e2
        exact h (l.concat c) (by simp) (by simp [e2])
  · rfl

theorem starMeta_star (ls : Name) : starMeta (encName ([42] :: ls)) = Big.base true ls := by
  simp [starMeta, encName, encLabels, Big.base]

theorem name_labelsOk {n : NameText} {origin : Name} (hn : n.Ok origin) (ho : OriginOk origin) :
    LabelsOk (n.name origin) ∧ ∀ l ∈ n.name origin, (42 : UInt8) ∉ l ∧ (46 : UInt8) ∉ l := by
  have key : ∀ l ∈ n.name origin, (1 ≤ l.length ∧ l.length ≤ 63) ∧ (42 : UInt8) ∉ l ∧ (46 : UInt8) ∉ l := by
    intro l hl
    rw [NameText.name, List.mem_append] at hl
    rcases hl with hl | hl
    · obtain ⟨h1, h2, h3⟩ := hn.labels l hl
      exact ⟨⟨h1, h2⟩, fun h => (nameByte_facts (h3 _ h)).2.2.2.1 rfl, fun h => (nameByte_facts (h3 _ h)).2.2.1 rfl⟩
    · split_ifs at hl
      · exact ⟨ho.labels l hl, ho.bytes l hl⟩
      · simp at hl
  exact ⟨fun l hl => (key l hl).1, fun l hl => (key l hl).2⟩

/-- The text of a name with the origin in the place of the percent sign. -/
theorem percent_run {n : NameText} {origin : Name} (hn : n.Ok origin) (pre : List UInt8) (hpre : pre.length ≤ 1) :
    percent (pre ++ n.text) (dotted origin) = some (pre ++ dotted (if n.star then [42] :: n.name origin else n.name origin)) := by
  have hshort := hn.short
  rw [encName_length] at hshort
  obtain ⟨st, ls, rel⟩ := n
  cases rel with
  | false =>
    have h37 : (pre ++ NameText.text ⟨st, ls, false⟩).getLast? ≠ some 37 := by
      have h1 := hn.some
      rcases List.eq_nil_or_concat ls with rfl | ⟨ls, l, rfl⟩
      · cases st
        · simp [NameText.text, dotted] at h1
        · simp [NameText.text, dotted]
      · simp [NameText.text, dotted]
    rw [percent, if_neg h37]
    cases st <;> simp [NameText.text, NameText.name, dotted]
  | true =>
    have h37 : (pre ++ NameText.text ⟨st, ls, true⟩).getLast? = some 37 := by simp [NameText.text]
    have hd : (pre ++ NameText.text ⟨st, ls, true⟩).dropLast = pre ++ ((if st then [42, 46] else []) ++ dotted ls) := by
      simp [NameText.text, ← List.append_assoc]
    simp only [NameText.name, if_true, dotted_append, List.length_append] at hshort
    rw [percent, if_pos h37, hd, jsAppend]
    rw [if_neg (by cases st <;> simp at hshort ⊢ <;> omega)]
    cases st <;> simp [NameText.name, dotted]

theorem text_head {n : NameText} {origin : Name} (hn : n.Ok origin) {c : UInt8} {t : List UInt8} (ht : n.text = c :: t) :
    c.toNat < 128 ∧ (isStar c.toNat = true) ∧ c ≠ 46 ∧ (n.star = false → isDchar c.toNat = true) ∧ c ≠ 47 := by
  have hlab := hn.labels
  have hf : c ≠ 47 := by
    have := hn.first
    rw [ht] at this
    simpa using this
  obtain ⟨st, ls, rel⟩ := n
  cases st with
  | true =>
    simp only [NameText.text, if_true, List.cons_append, List.cons.injEq] at ht
    obtain ⟨rfl, rfl⟩ := ht
    exact ⟨by decide, by decide, by decide, by simp, hf⟩
  | false =>
    cases ls with
    | nil =>
      cases rel with
      | false => simp [NameText.text, dotted] at ht
      | true =>
        simp [NameText.text, dotted] at ht
        obtain ⟨rfl, rfl⟩ := ht
        exact ⟨by decide, by decide, by decide, fun _ => by decide, hf⟩
    | cons l ls =>
      obtain ⟨h1, _, h3⟩ := hlab l (by simp)
      cases l with
      | nil => simp at h1
      | cons d l =>
        simp [NameText.text, dotted] at ht
        obtain ⟨rfl, rfl⟩ := ht
        rcases h3 d (by simp) with h | h
        · have := plain_facts d h
          refine ⟨this.2.1, ?_, this.2.2.1, fun _ => ?_, hf⟩
          · simp [isStar, isText, this.1]
          · simp [isDchar, isText, this.1]
        · exact absurd h hf

/-- `csv2_get_hostname` reads a name. -/
theorem hostname_run {s : Stream} (h : Plain s) (n : NameText) (origin : Name) (hn : n.Ok origin) (ho : OriginOk origin)
    (p : Piece) (hp : p.Ok) (hpc : n.relative = true → p.isComment = false) (star : Nat) (hs : star ≠ 0)
    (hs3 : star = 3 → n.star = false) (c : UInt8) (t : List UInt8) (ht : n.text = c :: t) (r : List UInt8) :
    hostname (dotted origin) star (s.here c (t ++ (p.text ++ r))) =
      .ok (some (Big.base n.star (n.name origin)), s.here (last p) r) := by
  obtain ⟨hc1, hc2, hc3, _⟩ := text_head hn ht
  obtain ⟨hlo, hby⟩ := name_labelsOk hn ho
  have hsd : isStarOrDot c.toNat = true := by
    simp only [isStar, isStarOrDot] at hc2 ⊢
    simp only [decide_eq_true_eq] at hc2 ⊢
    rcases hc2 with h | h | h
    · exact Or.inl h
    · exact Or.inr (Or.inl h)
    · exact Or.inr (Or.inr (Or.inl h))
  have hpd : processDname star (s.here c (t ++ (p.text ++ r))) = .ok (some (90 :: n.text), s.here (last p) r) := by
    have h1 := process1st_run h (isOk := isStarOrDot) [90] (by simp) c hsd hc1 (t ++ (p.text ++ r))
    have h2 := appendDname_run h n origin hn ho p hp hpc star hs hs3 [90] (by simp) c t ht r
    rw [processDname, bind_ok h1, bind_ok h2, if_neg]
    · rfl
    · rw [ht]
      simp [hc3]
  rw [hostname, bind_ok hpd, show (90 :: n.text) = [90] ++ n.text from rfl, bind_orFail (percent_run hn [90] (by simp))]
  cases hst : n.star with
  | true =>
    simp only [if_true, List.singleton_append, List.tail_cons]
    rw [bind_ok (wire_dotted _ ?_ ?_ (by simp)), starMeta_star]
    · rfl
    · intro l hl
      rcases List.mem_cons.mp hl with rfl | hl
      · simp
      · exact hlo l hl
    · intro l hl
      rcases List.mem_cons.mp hl with rfl | hl
      · simp
      · exact (hby l hl).2
  | false =>
    simp only [Bool.false_eq_true, if_false, List.singleton_append, List.tail_cons]
    have hne : n.name origin ≠ [] := by
      intro h0
      have h1 := hn.some
      rw [NameText.name] at h0
      simp only [List.append_eq_nil_iff] at h0
      have h2 : n.relative = false := by
        cases hr : n.relative
        · rfl
        · rw [hr, if_pos rfl] at h0; exact absurd h0.2 ho.some
      simp [NameText.text, h0.1, hst, h2, dotted] at h1
    rw [bind_ok (wire_dotted _ hlo (fun l hl => (hby l hl).2) hne), encName_no42 _ hlo (fun l hl => (hby l hl).1)]
    rfl

end Csv2
end Mara
