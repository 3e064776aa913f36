import Verif.Deadwood.BlockMakeProps
/-!
# Block hash files: from the list of names to the answer
-/

namespace Dw
namespace BHM
open Spec BH

theorem fold_lower (c : UInt8) : fold c = lower c := by
  unfold fold lower
  simp only [and_comm, ge_iff_le]

theorem fold_fin : ∀ x : Fin 256, (UInt8.ofNat x.val ≠ 46 ∧ UInt8.ofNat x.val ≠ 10 ∧ UInt8.ofNat x.val ≠ 32 ∧
    UInt8.ofNat x.val ≠ 13) → isSep (fold (UInt8.ofNat x.val)) = false := by decide +kernel

theorem isSep_plain {c : UInt8} (h : Plain c) : isSep (fold c) = false := by
  have := fold_fin ⟨c.toNat, c.toNat_lt⟩
  simp only [UInt8.ofNat_toNat] at this
  exact this ⟨h.1, h.2.1, h.2.2.1, h.2.2.2.1⟩

theorem conv_chars (len : Nat) (l t : List UInt8) (P : List UInt8) (point : Nat) (hp : point < P.length)
    (hl : ∀ c ∈ l, Plain c) (hlen : len = P.length + l.length + t.length) :
    conv len (l.length + t.length) P.length point (P ++ l ++ t) =
      conv len t.length (P.length + l.length) point (P ++ l.map fold ++ t) := by
  induction l generalizing P with
  | nil => simp
  | cons c l ih =>
    rw [List.length_cons] at hlen
    rw [List.length_cons, show l.length + 1 + t.length = (l.length + t.length) + 1 by omega, conv, if_neg (by omega)]
    have hg : (P ++ (c :: l) ++ t).getD P.length 0 = c := by
      rw [List.append_assoc, List.getD_eq_getElem?_getD, List.getElem?_append_right (Nat.le_refl _)]
      simp
    have hset : (P ++ (c :: l) ++ t).set P.length (fold c) = (P ++ [fold c]) ++ l ++ t := by
      rw [List.append_assoc, List.set_append_right _ _ (Nat.le_refl _)]
      simp
    simp only [hg, hset, isSep_plain (hl c (by simp)), Bool.false_eq_true, if_false]
    have := ih (P ++ [fold c]) (by simp; omega) (fun c hc => hl c (by simp [hc])) (by simp; omega)
    rw [List.length_append, List.length_singleton] at this
    rw [this]
    simp [Nat.add_assoc, Nat.add_comm 1]

theorem fold_sep {c : UInt8} (h : isSep c = true) : fold c = c := by
  have : c = 46 ∨ c = 10 ∨ c = 32 ∨ c = 13 := by simpa [isSep, or_assoc] using h
  rcases this with rfl | rfl | rfl | rfl <;> rfl

theorem conv_sep (len : Nat) (pre f t : List UInt8) (x c : UInt8) (hc : isSep c = true)
    (hf : f.length < 64) (hlen : len = pre.length + f.length + t.length + 2) :
    conv len (t.length + 1) (pre.length + 1 + f.length) pre.length (pre ++ x :: (f ++ c :: t)) =
      if f = [] then (pre ++ 0 :: c :: t, pre.length + 1)
      else conv len t.length (pre.length + 1 + f.length + 1) (pre.length + 1 + f.length)
        (pre ++ UInt8.ofNat f.length :: (f ++ c :: t)) := by
  rw [conv, if_neg (by omega)]
  have hPl : (pre ++ x :: f).length = pre.length + 1 + f.length := by simp; omega
  have hsplit : pre ++ x :: (f ++ c :: t) = (pre ++ x :: f) ++ c :: t := by simp
  have hg : (pre ++ x :: (f ++ c :: t)).getD (pre.length + 1 + f.length) 0 = c := by
    rw [hsplit, ← hPl, List.getD_eq_getElem?_getD, List.getElem?_append_right (Nat.le_refl _)]
    simp
  have hset : (pre ++ x :: (f ++ c :: t)).set (pre.length + 1 + f.length) c = pre ++ x :: (f ++ c :: t) := by
    rw [hsplit, ← hPl, List.set_append_right _ _ (Nat.le_refl _)]
    simp
  simp only [hg, fold_sep hc, hset, hc, if_true]
  rw [show pre.length + 1 + f.length - pre.length - 1 = f.length by omega, if_pos hf]
  have hset2 : (pre ++ x :: (f ++ c :: t)).set pre.length (UInt8.ofNat f.length) =
      pre ++ UInt8.ofNat f.length :: (f ++ c :: t) := by
    rw [List.set_append_right _ _ (Nat.le_refl _)]
    simp
  rw [hset2]
  by_cases hfe : f = []
  · subst hfe; simp
  · rw [if_neg (by simpa using hfe), if_neg hfe]

theorem nameText_cons (l : List UInt8) (m : List UInt8) (ls : List (List UInt8)) :
    nameText (l :: m :: ls) = l ++ 46 :: nameText (m :: ls) := by
  simp [nameText, List.intercalate, List.intersperse]

theorem nameText_one (l : List UInt8) : nameText [l] = l := by
  simp [nameText, List.intercalate]

theorem fold_map (l : List UInt8) : l.map fold = l.map lower := by
  apply List.map_congr_left; intro c _; exact fold_lower c

/-- The conversion of a name in a line. -/
theorem conv_name (len : Nat) (ls : List (List UInt8)) (hne : ls ≠ []) (hok : LabelsOk ls)
    (hpl : ∀ l ∈ ls, ∀ c ∈ l, Plain c) (t pre : List UInt8) (x : UInt8)
    (ht : t = [10] ∨ ∃ a b r, t = a :: b :: r ∧ isSep a = true ∧ isSep b = true)
    (hlen : len = pre.length + 1 + (nameText ls).length + t.length) :
    ∃ s r, conv len ((nameText ls).length + t.length) (pre.length + 1) pre.length (pre ++ x :: (nameText ls ++ t)) =
        (s, r) ∧ 0 < r ∧ s.take r = pre ++ encName (ls.map fun l => l.map lower) := by
  induction ls generalizing pre x with
  | nil => exact absurd rfl hne
  | cons l ls ih =>
    have hl := hok.head
    have hPl : (pre ++ [x]).length = pre.length + 1 := by simp
    have hfl : (l.map fold).length = l.length := by simp
    cases ls with
    | nil =>
      rw [nameText_one] at hlen ⊢
      have h1 := conv_chars len l t (pre ++ [x]) pre.length (by simp) (hpl l (by simp)) (by rw [hPl]; omega)
      rw [hPl] at h1
      rw [show pre ++ x :: (l ++ t) = pre ++ [x] ++ l ++ t by simp, h1]
      rcases ht with rfl | ⟨a, b, r, rfl, ha, hb⟩
      · have h2 := conv_sep len pre (l.map fold) [] x 10 rfl (by omega) (by simp at hlen ⊢; omega)
        rw [hfl] at h2
        rw [show pre ++ [x] ++ l.map fold ++ [10] = pre ++ x :: (l.map fold ++ [10]) by simp]
        simp only [List.length_cons, List.length_nil, Nat.zero_add] at h2 hlen ⊢
        rw [h2, if_neg (by intro h; have := congrArg List.length h; simp at this; simp [this] at hl), conv]
        refine ⟨_, _, rfl, by omega, ?_⟩
        rw [show pre.length + 1 + l.length + 1 - (pre.length + 1 + l.length) - 1 = 0 by omega, if_pos (by omega)]
        rw [show pre ++ UInt8.ofNat l.length :: (l.map fold ++ [10]) =
          (pre ++ UInt8.ofNat l.length :: l.map fold) ++ [10] by simp]
        rw [show pre.length + 1 + l.length = (pre ++ UInt8.ofNat l.length :: l.map fold).length by
          simp; omega, List.set_append_right _ _ (Nat.le_refl _)]
        rw [List.take_of_length_le (by simp; omega)]
        simp [encName, encLabels, fold_map]
      · have h2 := conv_sep len pre (l.map fold) (b :: r) x a ha (by omega) (by simp at hlen ⊢; omega)
        rw [hfl] at h2
        rw [show pre ++ [x] ++ l.map fold ++ (a :: b :: r) = pre ++ x :: (l.map fold ++ a :: b :: r) by simp]
        simp only [List.length_cons] at h2 hlen ⊢
        rw [h2, if_neg (by intro h; have := congrArg List.length h; simp at this; simp [this] at hl)]
        have h3 := conv_sep len (pre ++ UInt8.ofNat l.length :: l.map fold) [] r a b hb (by simp)
          (by simp at hlen ⊢; omega)
        rw [if_pos rfl] at h3
        rw [show (pre ++ UInt8.ofNat l.length :: l.map fold).length = pre.length + 1 + l.length by simp; omega] at h3
        simp only [List.length_nil, Nat.add_zero, List.nil_append] at h3
        rw [show pre ++ UInt8.ofNat l.length :: (l.map fold ++ a :: b :: r) =
          (pre ++ UInt8.ofNat l.length :: l.map fold) ++ a :: b :: r by simp, h3]
        refine ⟨_, _, rfl, by omega, ?_⟩
        rw [show (pre ++ UInt8.ofNat l.length :: l.map fold) ++ 0 :: b :: r =
          (pre ++ UInt8.ofNat l.length :: l.map fold ++ [0]) ++ b :: r by simp]
        rw [List.take_left' (by simp; omega)]
        simp [encName, encLabels, fold_map]
    | cons m ls =>
      rw [nameText_cons] at hlen ⊢
      have h1 := conv_chars len l (46 :: (nameText (m :: ls) ++ t)) (pre ++ [x]) pre.length (by simp)
        (hpl l (by simp)) (by rw [hPl]; simp at hlen ⊢; omega)
      rw [hPl] at h1
      rw [show pre ++ x :: (l ++ 46 :: nameText (m :: ls) ++ t) = pre ++ [x] ++ l ++ 46 :: (nameText (m :: ls) ++ t) by
        simp]
      rw [show (l ++ 46 :: nameText (m :: ls)).length + t.length =
        l.length + (46 :: (nameText (m :: ls) ++ t)).length by simp; omega, h1]
      have h2 := conv_sep len pre (l.map fold) (nameText (m :: ls) ++ t) x 46 rfl (by omega)
        (by simp at hlen ⊢; omega)
      rw [hfl] at h2
      rw [show pre ++ [x] ++ l.map fold ++ 46 :: (nameText (m :: ls) ++ t) =
        pre ++ x :: (l.map fold ++ 46 :: (nameText (m :: ls) ++ t)) by simp]
      rw [List.length_cons, h2, if_neg (by intro h; have := congrArg List.length h; simp at this; simp [this] at hl)]
      obtain ⟨s, r, h3, h4, h5⟩ := ih (by simp) hok.tail (fun l hl => hpl l (by simp [hl]))
        (pre ++ UInt8.ofNat l.length :: l.map fold) 46 (by simp at hlen ⊢; omega)
      rw [show (pre ++ UInt8.ofNat l.length :: l.map fold).length = pre.length + 1 + l.length by simp; omega] at h3
      refine ⟨s, r, ?_, h4, ?_⟩
      · rw [← h3]
        simp
      · rw [h5]
        simp [encName, encLabels, fold_map]

theorem convert_line {x : Line} (h : x.Ok) : convert (32 :: x.text) = x.name := by
  have hs := h.short
  have ht : x.tail = [10] ∨ ∃ a b r, x.tail = a :: b :: r ∧ isSep a = true ∧ isSep b = true := by
    rcases h.tail with h | h | h | h
    · exact Or.inl h
    · exact Or.inr ⟨13, 10, [], h, rfl, rfl⟩
    · exact Or.inr ⟨46, 10, [], h, rfl, rfl⟩
    · exact Or.inr ⟨46, 13, [10], h, rfl, rfl⟩
  unfold Line.text at *
  rw [List.length_append] at hs
  obtain ⟨s, r, h1, h2, h3⟩ := conv_name (1 + (nameText x.labels).length + x.tail.length) x.labels h.ne h.labels h.plain
    x.tail [] 32 ht (by simp)
  rw [convert]
  simp only [List.length_cons, List.length_append]
  rw [if_neg (by omega)]
  simp only [List.length_nil, Nat.zero_add, List.nil_append] at h1 h3
  rw [show (nameText x.labels).length + x.tail.length + 1 - 1 = (nameText x.labels).length + x.tail.length by omega,
    show (nameText x.labels).length + x.tail.length + 1 = 1 + (nameText x.labels).length + x.tail.length by omega, h1]
  simp only
  rw [if_pos h2, h3]
  rfl

theorem fgets_line (l rest : List UInt8) (n : Nat) (hn : l.length < n) (h : ∀ c ∈ l, c ≠ 10) :
    fgets n (l ++ 10 :: rest) = (l ++ [10], rest) := by
  induction l generalizing n with
  | nil =>
    obtain ⟨n, rfl⟩ : ∃ m, n = m + 1 := ⟨n - 1, by simp at hn; omega⟩
    simp [fgets]
  | cons c l ih =>
    obtain ⟨n, rfl⟩ : ∃ m, n = m + 1 := ⟨n - 1, by simp at hn; omega⟩
    rw [List.cons_append, fgets, if_neg (h c (by simp)), ih n (by simp at hn; omega) (fun c hc => h c (by simp [hc]))]
    simp

theorem mem_nameText {ls : List (List UInt8)} {c : UInt8} (h : c ∈ nameText ls) : c = 46 ∨ ∃ l ∈ ls, c ∈ l := by
  induction ls with
  | nil => simp [nameText, List.intercalate] at h
  | cons l ls ih =>
    cases ls with
    | nil => rw [nameText_one] at h; exact Or.inr ⟨l, by simp, h⟩
    | cons m ls =>
      rw [nameText_cons] at h
      rcases List.mem_append.1 h with h | h
      · exact Or.inr ⟨l, by simp, h⟩
      · rcases List.mem_cons.1 h with h | h
        · exact Or.inl h
        · rcases ih h with h | ⟨l', h1, h2⟩
          · exact Or.inl h
          · exact Or.inr ⟨l', by simp [h1], h2⟩

theorem text_split {x : Line} (h : x.Ok) : ∃ l, x.text = l ++ [10] ∧ ∀ c ∈ l, c ≠ 10 ∧ c ≠ 0 := by
  have hn : ∀ c ∈ nameText x.labels, c ≠ 10 ∧ c ≠ 0 := by
    intro c hc
    rcases mem_nameText hc with rfl | ⟨l, h1, h2⟩
    · decide
    · have := h.plain l h1 c h2
      exact ⟨this.2.1, this.2.2.2.2⟩
  rcases h.tail with ht | ht | ht | ht
  · exact ⟨nameText x.labels, by rw [Line.text, ht], hn⟩
  · refine ⟨nameText x.labels ++ [13], by rw [Line.text, ht]; simp, ?_⟩
    intro c hc
    rcases List.mem_append.1 hc with h | h
    · exact hn c h
    · simp at h; subst h; decide
  · refine ⟨nameText x.labels ++ [46], by rw [Line.text, ht]; simp, ?_⟩
    intro c hc
    rcases List.mem_append.1 hc with h | h
    · exact hn c h
    · simp at h; subst h; decide
  · refine ⟨nameText x.labels ++ [46, 13], by rw [Line.text, ht]; simp, ?_⟩
    intro c hc
    rcases List.mem_append.1 hc with h | h
    · exact hn c h
    · simp at h; rcases h with rfl | rfl <;> decide

theorem head_text {x : Line} (h : x.Ok) : ∃ c t, x.text = c :: t ∧ c ≠ 35 := by
  have h1 := h.ne
  have h2 := h.labels
  have h3 := h.first
  rw [Line.text]
  match hl : x.labels, h1 with
  | l :: ls, _ =>
    rw [hl] at h2 h3
    have := h2.head
    match l, this with
    | c :: l, _ =>
      simp at h3
      cases ls with
      | nil => rw [nameText_one]; exact ⟨c, _, rfl, h3⟩
      | cons m ls => rw [nameText_cons]; exact ⟨c, _, rfl, h3⟩

theorem takeWhile_all {l : List UInt8} (h : ∀ c ∈ l, c ≠ 0) : l.takeWhile (· ≠ 0) = l := by
  induction l with
  | nil => rfl
  | cons c l ih =>
    rw [List.takeWhile_cons, if_pos (by simpa using h c (by simp)), ih (fun c hc => h c (by simp [hc]))]

theorem readFile_lines (xs : List Line) (h : ∀ x ∈ xs, x.Ok) :
    readFile (xs.flatMap Line.text) = xs.map fun x => 32 :: x.text := by
  induction xs with
  | nil => simp [readFile]
  | cons x xs ih =>
    have hx := h x (by simp)
    obtain ⟨l, h1, h2⟩ := text_split hx
    obtain ⟨c, t, h3, h4⟩ := head_text hx
    have hs := hx.short
    rw [List.flatMap_cons, h3, List.cons_append, readFile, ← List.cons_append, ← h3]
    have hf : fgets 1009 (x.text ++ xs.flatMap Line.text) = (x.text, xs.flatMap Line.text) := by
      rw [h1, List.append_assoc, List.singleton_append, fgets_line l _ _ _ (fun c hc => (h2 c hc).1)]
      rw [h1, List.length_append, List.length_singleton] at hs
      omega
    rw [hf]
    simp only
    rw [if_neg h4, takeWhile_all, ih (fun x hx => h x (by simp [hx])), List.map_cons]
    intro c hc
    rw [h1] at hc
    rcases List.mem_append.1 hc with h | h
    · exact (h2 c h).2
    · simp at h; subst h; decide

theorem dotted_len (ls : List (List UInt8)) (h : ls ≠ []) :
    (encName (ls.map fun l => l.map lower)).length = (nameText ls).length + 2 := by
  induction ls with
  | nil => exact absurd rfl h
  | cons l ls ih =>
    cases ls with
    | nil => simp [nameText_one, encName, encLabels]
    | cons m ls =>
      have := ih (by simp)
      rw [nameText_cons, List.map_cons, encName_cons, List.cons_append, List.length_cons, List.length_append, this]
      simp; omega

/-- The file that the tool makes from a list of names answers, in the resolver, 1 for
exactly the names of the list (in lower case) and 0 for every other string: for every key,
any number of buckets, any previous contents of the memory. -/
theorem make_exact (k1 k2 : UInt32) (buckets : Option Nat) (xs : List Line) (junk : Nat → UInt8)
    (h : ∀ x ∈ xs, x.Ok) (hne : xs ≠ []) (hlen : (xs.flatMap Line.text).length < 100000000)
    (hbk : ∀ n, buckets = some n → n < 100000000) :
    ∃ file, make k1 k2 buckets (xs.flatMap Line.text) junk = .ok file ∧ file.length < 2147483648 ∧
      ∀ (junk2 str : List UInt8) (len : Nat), len ≤ str.length → len ≤ 0xff00 →
        (load file junk2).bind (fun b => hasString b str len) =
          .ok (if str.take len ∈ xs.map Line.name then 1 else 0) := by
  unfold make
  rw [readFile_lines xs h, List.map_map]
  have hbuf : xs.map (convert ∘ fun x => 32 :: x.text) = xs.map Line.name := by
    apply List.map_congr_left
    intro x hx
    exact convert_line (h x hx)
  rw [hbuf]
  simp only
  generalize hn : bucketCount buckets (xs.map Line.name).length = n
  have hxl : 0 < xs.length := List.length_pos_iff.2 hne
  -- sizes
  have hname : ∀ x ∈ xs, x.name.length ≤ x.text.length + 1 := by
    intro x hx
    rw [Line.name, dotted_len _ (h x hx).ne, Line.text, List.length_append]
    have : 1 ≤ x.tail.length := by
      rcases (h x hx).tail with ht | ht | ht | ht <;> simp [ht]
    omega
  have hsum : ∀ ys : List Line, (∀ x ∈ ys, x ∈ xs) →
      ys.length ≤ (ys.flatMap Line.text).length ∧
      ((ys.map Line.name).map fun s => s.length + 2).sum ≤ 4 * (ys.flatMap Line.text).length := by
    intro ys
    induction ys with
    | nil => intro _; simp
    | cons y ys ih =>
      intro hy
      obtain ⟨i1, i2⟩ := ih (fun x hx => hy x (by simp [hx]))
      have h1 := hname y (hy y (by simp))
      obtain ⟨c, t, h3, -⟩ := head_text (h y (hy y (by simp)))
      have h4 : 1 ≤ y.text.length := by rw [h3]; simp
      rw [List.flatMap_cons, List.length_append, List.map_cons, List.map_cons, List.sum_cons, List.length_cons]
      omega
  obtain ⟨hs1, hs2⟩ := hsum xs (fun _ h => h)
  have hn0 : 0 < n ∧ n < 125000001 := by
    subst hn
    unfold bucketCount
    rcases buckets with _ | m
    · simp only [List.length_map]; omega
    · have := hbk m rfl
      simp only
      split <;> omega
  have hrl : (List.replicate n ([] : List (List UInt8))).length = n := by simp
  have hw0 : weight (List.replicate n []) = 0 := by
    unfold weight
    rw [List.map_replicate]
    simp
  have hpl : Placed k1 k2 (List.replicate n []) := by
    intro i hi s hs
    rw [List.getElem_replicate] at hs
    simp at hs
  obtain ⟨chains, f1, f2, f3, f4, f5⟩ := fillHash_exact k1 k2 (xs.map Line.name) (List.replicate n []) hpl
    (fun _ hc => by rw [hc] at hrl; simp at hrl; omega)
  rw [hw0] at f1 f4
  have hmem : ∀ y, y ∈ chains.flatten ↔ y ∈ xs.map Line.name := by
    intro y; rw [f5]
    constructor
    · rintro (h | h)
      · rw [List.mem_flatten] at h
        obtain ⟨c, hc, hy⟩ := h
        rw [List.eq_of_mem_replicate hc] at hy
        simp at hy
      · exact h
    · exact Or.inr
  have hlen2 : ∀ s ∈ chains.flatten, s.length ≤ 1010 := by
    intro s hs
    rw [hmem, List.mem_map] at hs
    obtain ⟨x, hx, rfl⟩ := hs
    have := hname x hx
    have := (h x hx).short
    omega
  rw [f1]
  simp only [Res.ok_bind]
  obtain ⟨file, g1, g2, g3⟩ := makeFile_exact k1 k2 chains junk (fun s hs => by have := hlen2 s hs; omega) (by omega)
  have hsz := size_le chains
  refine ⟨file, g1, by omega, fun junk2 str len hl1 hl2 => ?_⟩
  rw [hasString_exact junk2 str len g2 f3 (by omega) (by intro hc; rw [hc] at f2; simp at f2; omega)
    (fun s hs => by have := hlen2 s hs; omega) hl1 hl2]
  simp only [hmem]

/-- `Ad.example` and `x.y.` -/
example : ∀ x ∈ ([⟨[[65, 100], [101, 120]], [10]⟩, ⟨[[120], [121]], [46, 13, 10]⟩] : List Line), x.Ok := by
  intro x hx
  simp only [List.mem_cons, List.not_mem_nil, or_false] at hx
  rcases hx with rfl | rfl
  · exact ⟨by simp, by simp [LabelsOk], by simp [Plain], by simp, Or.inl rfl, by decide⟩
  · exact ⟨by simp, by simp [LabelsOk], by simp [Plain], by simp, Or.inr (Or.inr (Or.inr rfl)), by decide⟩

/-- A last line without newline is stored without the final zero, which no query matches:
`com`. -/
theorem last_line_without_newline_is_lost :
    (readFile [99, 111, 109]).map convert = [[3, 99, 111, 109]] := by decide +kernel

/-- An empty list gives a file without buckets. -/
theorem make_empty (k1 k2 : UInt32) (junk : Nat → UInt8) :
    make k1 k2 none [] junk = .ok ([0, 68, 119, 66] ++ be32 k1.toNat ++ be32 k2.toNat ++ be32 0) := by
  obtain ⟨file, h1, h2, h3⟩ := makeFile_exact k1 k2 [] junk (by simp) (by simp [weight])
  have h : make k1 k2 none [] junk = makeFile k1 k2 [] (weight []) junk := by
    unfold make
    simp [readFile, fillHash, bucketCount, weight]
  rw [h, h1]
  congr 1
  have e1 := h2.magic; have e2 := h2.key1; have e3 := h2.key2; have e4 := h2.count
  unfold At at e1 e2 e3 e4
  rw [be32_length] at e2 e3 e4
  simp only [List.length_nil, size] at h3 e4
  simp only [List.length_cons, List.length_nil, List.drop_zero] at e1
  conv => lhs; rw [← List.take_append_drop 4 file, ← List.take_append_drop 4 (file.drop 4), List.drop_drop,
    ← List.take_append_drop 4 (file.drop (4 + 4)), List.drop_drop, ← List.take_append_drop 4 (file.drop (4 + 4 + 4))]
  have e5 : List.drop 4 (List.drop (4 + 4 + 4) file) = [] := by
    rw [List.drop_drop]; exact List.drop_eq_nil_of_le (by omega)
  simp only [Nat.reduceAdd] at e1 e5 ⊢
  rw [e1, e2, e3, e4, e5]
  simp

/-- Writing over an existing longer file, which the tool does not cut, does no harm: what
comes after the block is not looked at. -/
theorem blockFile_append {file : List UInt8} {k1 k2 : UInt32} {chains : List (List (List UInt8))}
    (h : BlockFile file k1 k2 chains) (t : List UInt8) : BlockFile (file ++ t) k1 k2 chains := by
  have key : ∀ o l, At file o l → At (file ++ t) o l := by
    intro o l hl
    rw [at_iff] at *
    intro i hi
    have h1 := hl i hi
    rw [List.getElem?_eq_getElem hi] at h1
    have h2 := (List.getElem?_eq_some_iff.1 h1).1
    rw [List.getElem?_append_left h2, h1, List.getElem?_eq_getElem hi]
  refine ⟨key _ _ h.magic, key _ _ h.key1, key _ _ h.key2, key _ _ h.count, fun i hi he => key _ _ (h.empty i hi he), ?_⟩
  intro i hi hne
  obtain ⟨off, h1, h2, h3, h4⟩ := h.full i hi hne
  exact ⟨off, h1, h2, key _ _ h3, key _ _ h4⟩

end BHM
end Dw
