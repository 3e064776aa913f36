import Verif.Mara.GetlineTail
import Verif.Mara.RcProps

/-!
# The lines of a file, and the configuration in it

* `readAll_exact`: a file of lines that fit is got line by line as it is, wherever the blocks
  begin in which it is read; a text at the end without line end is got too, in two pieces if a
  block begins in it;
* `mararc_lines`: `read_mararc` does with the bytes of a file what it does with its lines;
* `mararc_exact`: the bytes of a configuration file made of the statements of the manual page
  set exactly what they say;
* `long_line_hangs`: with a line of 256 bytes or more in its first block, `read_mararc` never
  comes to an end.
-/

namespace Mara.Getline

open Spec.FileLines Spec.MaraRc
open Mara.Rc (newline mt search Reading Next Vars oneLine b known name?)

theorem eof_false {f : File} {k : Nat} {p : List UInt8} (h : At f k p) (hp : p ≠ []) :
    bufEof f = false := by
  cases h1 : bufEof f with
  | false => rfl
  | true => exact absurd ((bufEof_iff f k p h).1 h1) hp

theorem readAll_done (max n : Nat) (f : File) (js : List UInt8) (h : bufEof f = true) :
    readAll max (n + 1) f js = some ([], true) := by
  simp [readAll, h]

theorem readAll_step (max n : Nat) (f f' : File) (js l : List UInt8) (h : bufEof f = false)
    (hg : getline max f js = (1, f', l)) :
    readAll max (n + 1) f js = (readAll max n f' l).map fun r => (l :: r.1, r.2) := by
  have h1 : ¬ ((1 : Int) ≤ -1) := by omega
  simp [readAll, h, hg, h1]

/-- From a place in the file. -/
theorem readAll_at (max : Nat) (hm : max ≤ 1024) (t : List UInt8) (ht : OneLine t)
    (htl : t.length + 1 < max) (ls : List (List UInt8)) :
    ∀ (f : File) (k : Nat) (js : List UInt8), At f k (ls.flatten ++ t) →
      (∀ l ∈ ls, Whole l ∧ l.length < max) → ∀ n, ls.length + 3 ≤ n →
      readAll max n f js = some (ls ++ tail (k + ls.flatten.length) t, true) := by
  induction ls with
  | nil =>
    intro f k js hf _ n hn
    simp only [List.flatten_nil, List.nil_append] at hf
    obtain ⟨m, rfl⟩ : ∃ m, n = m + 3 := ⟨n - 3, by simp at hn; omega⟩
    simp only [List.flatten_nil, List.length_nil, Nat.add_zero, List.nil_append]
    by_cases hne : t = []
    · rw [readAll_done _ _ _ _ ((bufEof_iff _ _ _ hf).2 hne), tail, if_pos hne]
    · have h0 := eof_false hf hne
      cases he : f.eof with
      | true =>
        obtain ⟨f', hg, hd⟩ := getline_end max f k t js hf he ht hne (by omega)
        rw [readAll_step _ _ _ _ _ _ h0 hg, readAll_done _ _ _ _ hd]
        have h1 : t.length ≤ 1024 - k % 1024 := by
          obtain ⟨h2, h3⟩ := hf.last he
          have h4 := hf.left
          rw [h3, List.append_nil] at h4
          rw [← h4, List.length_drop]
          omega
        simp [tail, hne, h1]
      | false =>
        obtain ⟨hle, f', hg, hat, he'⟩ := getline_cut max hm f k t js hf he ht htl
        rw [readAll_step _ _ _ _ _ _ h0 hg]
        by_cases hd : t.drop (1024 - k % 1024) = []
        · rw [readAll_done _ _ _ _ ((bufEof_iff _ _ _ hat).2 hd)]
          rw [List.drop_eq_nil_iff] at hd
          rw [List.take_of_length_le hd]
          simp [tail, hne, hd]
        · have h1 := eof_false hat hd
          have ht2 : OneLine (t.drop (1024 - k % 1024)) :=
            fun x hx => ht x (List.mem_of_mem_drop hx)
          obtain ⟨f2, hg2, hd2⟩ := getline_end max f' _ _ (t.take (1024 - k % 1024)) hat he'
            ht2 hd (by rw [List.length_drop]; omega)
          rw [readAll_step _ _ _ _ _ _ h1 hg2, readAll_done _ _ _ _ hd2]
          rw [List.drop_eq_nil_iff] at hd
          simp [tail, hne, hd]
  | cons l ls ih =>
    intro f k js hf hw n hn
    obtain ⟨⟨u, c, rfl, hu, hc⟩, hlen⟩ := hw l (by simp)
    obtain ⟨m, rfl⟩ : ∃ m, n = m + 1 := ⟨n - 1, by simp at hn; omega⟩
    have hf' : At f k (u ++ c :: (ls.flatten ++ t)) := by simpa using hf
    obtain ⟨f', hg, hat⟩ := getline_whole max hm f k u _ js c hf' hu hc (by simpa using hlen)
    rw [readAll_step _ _ _ _ _ _ (eof_false hf' (by simp)) hg,
      ih f' _ _ hat (fun x hx => hw x (by simp [hx])) m (by simp at hn; omega)]
    have : k + (u.length + 1) + ls.flatten.length =
        k + ((u ++ [c]) :: ls).flatten.length := by simp; omega
    rw [this]
    simp

theorem readAll_opened (max n : Nat) (bytes js : List UInt8) (h : bytes ≠ []) :
    readAll max (n + 1) (opened bytes) js = readAll max (n + 1) (bufRead (opened bytes)) js := by
  have h1 : getline max (opened bytes) js = getline max (bufRead (opened bytes)) js := by
    simp [getline, opened, bufRead]
  have h2 : bufEof (opened bytes) = false := rfl
  have h3 := eof_false (at_opened bytes) h
  simp only [readAll, h1, h2, h3]

/-- A file of lines that fit, with or without a line end after the last, is got as it is. -/
theorem readAll_exact (max : Nat) (hm : max ≤ 1024) (ls : List (List UInt8)) (t : List UInt8)
    (h : ∀ l ∈ ls, Whole l ∧ l.length < max) (ht : OneLine t) (htl : t.length + 1 < max)
    (hne : ls.flatten ++ t ≠ []) (n : Nat) (hn : ls.length + 3 ≤ n) :
    readAll max n (opened (ls.flatten ++ t)) [] =
      some (ls ++ tail ls.flatten.length t, true) := by
  obtain ⟨m, rfl⟩ : ∃ m, n = m + 1 := ⟨n - 1, by omega⟩
  rw [readAll_opened _ _ _ _ hne,
    readAll_at max hm t ht htl ls _ 0 [] (at_opened _) h _ hn, Nat.zero_add]

/-- From a place in the file. -/
theorem mararc_at (ls : List (List UInt8)) :
    ∀ (f : File) (k : Nat) (r : Reading) (num : Nat) (js : List UInt8), At f k ls.flatten →
      (∀ l ∈ ls, Whole l ∧ l.length < 256) → ∀ n, ls.length < n →
      mararcLoop n r num f js = some (Rc.lines r num ls) := by
  induction ls with
  | nil =>
    intro f k r num js hf _ n hn
    obtain ⟨m, rfl⟩ : ∃ m, n = m + 1 := ⟨n - 1, by simp at hn; omega⟩
    have := (bufEof_iff _ _ _ hf).2 rfl
    simp [mararcLoop, this, Rc.lines]
  | cons l ls ih =>
    intro f k r num js hf hw n hn
    obtain ⟨⟨u, c, rfl, hu, hc⟩, hlen⟩ := hw l (by simp)
    obtain ⟨m, rfl⟩ : ∃ m, n = m + 1 := ⟨n - 1, by simp at hn; omega⟩
    have hf' : At f k (u ++ c :: ls.flatten) := by simpa using hf
    obtain ⟨f', hg, hat⟩ :=
      getline_whole 256 (by omega) f k u _ js c hf' hu hc (by simpa using hlen)
    have h0 := eof_false hf' (by simp)
    have h1 : ¬ ((1 : Int) ≤ -1) := by omega
    simp only [mararcLoop, h0, Bool.false_eq_true, if_false, hg, h1, Rc.lines]
    cases oneLine r num (u ++ [c]) with
    | go r => exact ih f' _ r (num + 1) _ hat (fun x hx => hw x (by simp [hx])) m (by simp at hn; omega)
    | exit => rfl
    | fail => rfl

/-- An empty line says nothing. -/
theorem oneLine_nil (r : Reading) (num : Nat) : oneLine r num [] = .go r := by
  have h : Rc.parseline [] = .line 1 [] [78, 79, 84, 72, 65, 83, 72] [] false := by
    decide +kernel
  have h1 : ([] : List UInt8) ∉ Rc.keywords := by decide +kernel
  have h2 : ¬ ([] : List UInt8) = b "ERROR" := by decide +kernel
  simp [oneLine, h, h1, h2]

/-- The configuration reader does with the bytes of a file what it does with its lines. -/
theorem mararc_lines (ls : List (List UInt8)) (h : ∀ l ∈ ls, Whole l ∧ l.length < 256)
    (n : Nat) (hn : ls.length + 1 < n) : mararc n ls.flatten = some (Rc.readMararc ls) := by
  obtain ⟨m, rfl⟩ : ∃ m, n = m + 1 := ⟨n - 1, by omega⟩
  by_cases hne : ls.flatten = []
  · have hl : ls = [] := by
      cases ls with
      | nil => rfl
      | cons l ls =>
        obtain ⟨⟨u, c, rfl, -, -⟩, -⟩ := h l (by simp)
        simp at hne
    subst hl
    obtain ⟨j, rfl⟩ : ∃ j, m = j + 1 := ⟨m - 1, by simp at hn; omega⟩
    simp only [mararc, mararcLoop, List.flatten_nil]
    have e1 : bufEof (opened []) = false := rfl
    have e2 : getline 256 (opened []) [] = (1, ⟨[], [], 1, true⟩, []) := by decide +kernel
    have e3 : bufEof ⟨[], [], 1, true⟩ = true := rfl
    have e4 : ¬ ((1 : Int) ≤ -1) := by omega
    simp only [e1, Bool.false_eq_true, if_false, e2, e4, oneLine_nil, e3, if_true]
    rfl
  · have h1 : getline 256 (opened ls.flatten) [] =
        getline 256 (bufRead (opened ls.flatten)) [] := by
      simp [getline, opened, bufRead]
    have h2 : bufEof (opened ls.flatten) = false := rfl
    have h3 := eof_false (at_opened ls.flatten) hne
    have e : mararcLoop (m + 1) ⟨Vars.init, none⟩ 1 (opened ls.flatten) [] =
        mararcLoop (m + 1) ⟨Vars.init, none⟩ 1 (bufRead (opened ls.flatten)) [] := by
      simp only [mararcLoop, h1, h2, h3]
    rw [mararc, e]
    exact mararc_at ls _ 0 _ 1 [] (at_opened _) h _ (by omega)

theorem textByte_one {c : UInt8} (h : textByte c = true) : ¬ ends c := by
  simp only [textByte, Bool.and_eq_true, decide_eq_true_eq] at h
  rintro (h1 | h1) <;> simp_all

theorem padByte_one {c : UInt8} (h : padByte c = true) : ¬ ends c := by
  simp only [padByte, Bool.or_eq_true, decide_eq_true_eq] at h
  rintro (h1 | h1) <;> subst h1 <;> simp at h

theorem wordByte_one {c : UInt8} (h : wordByte c = true) : ¬ ends c := by
  rintro (h1 | h1) <;> subst h1 <;> revert h <;> decide

theorem numByte_one {c : UInt8} (h : numByte c = true) : ¬ ends c := by
  rintro (h1 | h1) <;> subst h1 <;> revert h <;> decide

theorem keyByte_one {c : UInt8} (h : keyByte c = true) : ¬ ends c := by
  simp only [keyByte, Bool.and_eq_true] at h
  exact textByte_one h.1.1

theorem one_app {x y : List UInt8} (hx : OneLine x) (hy : OneLine y) : OneLine (x ++ y) := by
  intro c hc
  rw [List.mem_append] at hc
  exact hc.elim (hx c) (hy c)

theorem one_all {p : UInt8 → Bool} (hp : ∀ {c}, p c = true → ¬ ends c) {x : List UInt8}
    (h : x.all p = true) : OneLine x := fun c hc => hp (List.all_eq_true.1 h c hc)

theorem whole_app {x y : List UInt8} (hx : OneLine x) (hy : Whole y) : Whole (x ++ y) := by
  obtain ⟨t, c, rfl, ht, hc⟩ := hy
  exact ⟨x ++ t, c, by simp, one_app hx ht, hc⟩

theorem whole_tail (y : Layout) (h : y.Ok) : Whole y.tail := by
  unfold Layout.tail
  cases hc : y.comment with
  | none => exact ⟨[], 10, rfl, by simp [OneLine], Or.inl rfl⟩
  | some d =>
    refine ⟨35 :: d, 10, rfl, ?_, Or.inl rfl⟩
    have := one_all (fun {c} => textByte_one (c := c)) (h.2.2.2.2 d hc)
    exact one_app (x := [35]) (by simp [OneLine, ends]) this

theorem whole_line (y : Layout) (s : Stmt) (hy : y.Ok) (hs : s.Ok) : Whole (s.line y) := by
  have q1 := one_all (fun {c} => padByte_one (c := c)) hy.1
  have q2 := one_all (fun {c} => padByte_one (c := c)) hy.2.1
  have q3 := one_all (fun {c} => padByte_one (c := c)) hy.2.2.1
  have q4 := one_all (fun {c} => padByte_one (c := c)) hy.2.2.2.1
  have qt := whole_tail y hy
  have qs : ∀ a, OneLine (sign a) := by intro a; cases a <;> simp [OneLine, sign, ends]
  have one1 : OneLine [34] := by simp [OneLine, ends]
  have one2 : OneLine [91, 34] := by simp [OneLine, ends]
  have one3 : OneLine [34, 93] := by simp [OneLine, ends]
  have one4 : OneLine [123, 125] := by simp [OneLine, ends]
  have one5 : OneLine [61] := by simp [OneLine, ends]
  cases s with
  | note => exact whole_app q1 qt
  | text n v a =>
    have a1 := one_all (fun {c} => wordByte_one (c := c)) hs.2.1
    have a2 := one_all (fun {c} => textByte_one (c := c)) hs.2.2
    have e : Stmt.line y (.text n v a) = y.p1 ++ (n ++ (y.p2 ++ (sign a ++ (y.p3 ++
        ([34] ++ (v ++ ([34] ++ (y.p4 ++ y.tail)))))))) := by simp [Stmt.line]
    rw [e]
    exact whole_app q1 (whole_app a1 (whole_app q2 (whole_app (qs a) (whole_app q3
      (whole_app one1 (whole_app a2 (whole_app one1 (whole_app q4 qt))))))))
  | number n v a =>
    have a1 := one_all (fun {c} => wordByte_one (c := c)) hs.2.1
    have a2 := one_all (fun {c} => numByte_one (c := c)) hs.2.2.2
    simp only [Stmt.line, List.append_assoc]
    exact whole_app q1 (whole_app a1 (whole_app q2 (whole_app (qs a) (whole_app q3
      (whole_app a2 (whole_app q4 qt))))))
  | dict n =>
    have a1 := one_all (fun {c} => wordByte_one (c := c)) hs.2
    simp only [Stmt.line, List.append_assoc]
    exact whole_app q1 (whole_app a1 (whole_app q2 (whole_app one5 (whole_app q3
      (whole_app one4 (whole_app q4 qt))))))
  | entry n k v a =>
    have a1 := one_all (fun {c} => wordByte_one (c := c)) hs.2.1
    have a2 := one_all (fun {c} => keyByte_one (c := c)) hs.2.2.1
    have a3 := one_all (fun {c} => textByte_one (c := c)) hs.2.2.2
    have e : Stmt.line y (.entry n k v a) = y.p1 ++ (n ++ ([91, 34] ++ (k ++ ([34, 93] ++
        (y.p2 ++ (sign a ++ (y.p3 ++ ([34] ++ (v ++ ([34] ++ (y.p4 ++ y.tail))))))))))) := by
      simp [Stmt.line]
    rw [e]
    exact whole_app q1 (whole_app a1 (whole_app one2 (whole_app a2 (whole_app one3
      (whole_app q2 (whole_app (qs a) (whole_app q3 (whole_app one1 (whole_app a3
      (whole_app one1 (whole_app q4 qt)))))))))))

/-- The bytes of a file made of statements mean what they say. -/
theorem mararc_exact (f : List (Layout × Stmt))
    (h : ∀ x ∈ f, x.1.Ok ∧ x.2.Ok ∧ (x.2.line x.1).length < 256 ∧
      name? x.2 ≠ some (b "ERROR")) (n : Nat) (hn : f.length + 1 < n) :
    mararc n (f.map fun x => x.2.line x.1).flatten =
      some (match meaning known Settings.none (f.map Prod.snd) with
      | none => .exit
      | some s => .go ⟨⟨s.value, s.entries⟩, none⟩) := by
  rw [mararc_lines, Rc.readMararc_exact f h]
  · rfl
  · intro l hl
    rw [List.mem_map] at hl
    obtain ⟨x, hx, rfl⟩ := hl
    obtain ⟨h1, h2, h3, -⟩ := h x hx
    exact ⟨whole_line _ _ h1 h2, h3⟩
  · simpa using hn

/-- With a line that is too long in its first block the configuration is never read to its
end. -/
theorem long_line_hangs (t q : List UInt8) (c : UInt8) (ht : OneLine t) (hc : ends c)
    (hl : 256 ≤ t.length + 1) (hb : t.length < 1024) (n : Nat) :
    mararc n (t ++ c :: q) = none := by
  have hat := at_opened (t ++ c :: q)
  have h3 := eof_false hat (by simp)
  have hg : ∀ js, getline 256 (bufRead (opened (t ++ c :: q))) js =
      (1, bufRead (opened (t ++ c :: q)), []) := fun js =>
    getline_stuck 256 _ 0 t q js c hat ht hc hl (by simpa using hb)
  have h1 : ¬ ((1 : Int) ≤ -1) := by omega
  have key : ∀ n r num js, mararcLoop n r num (bufRead (opened (t ++ c :: q))) js = none := by
    intro n
    induction n with
    | zero => intros; rfl
    | succ n ih =>
      intro r num js
      simp only [mararcLoop, h3, Bool.false_eq_true, if_false, hg, h1, oneLine_nil, ih]
  cases n with
  | zero => rfl
  | succ n =>
    have e1 : getline 256 (opened (t ++ c :: q)) [] =
        getline 256 (bufRead (opened (t ++ c :: q))) [] := by
      simp [getline, opened, bufRead]
    have h2 : bufEof (opened (t ++ c :: q)) = false := rfl
    simp only [mararc, mararcLoop, h2, Bool.false_eq_true, if_false, e1, hg, h1, oneLine_nil, key]

end Mara.Getline
