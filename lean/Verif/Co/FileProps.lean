import Verif.Co.FileModel

/-!
# C123: what files scripts of coLunacyDNS can read
-/

namespace Co
namespace OneFile

open Spec.OneFile (Op Out letter nameOk ending text)

/-! ## Names -/

theorem takeWhile_self {p : UInt8 → Bool} : ∀ {l : List UInt8}, (∀ x ∈ l, p x = true) → l.takeWhile p = l
  | [], _ => rfl
  | c :: l, h => by
    rw [List.takeWhile_cons_of_pos (h c List.mem_cons_self), takeWhile_self (fun x hx => h x (List.mem_cons_of_mem _ hx))]

theorem byte_ok (signed : Bool) : ∀ c : UInt8,
    (let f := charVal signed c
     ¬ (f < 46 ∨ (f > 46 ∧ f < 48) ∨ (f > 57 ∧ f < 65) ∨ (f > 90 ∧ f < 95) ∨ f = 96 ∨ f > 122)) ↔ (letter c || c == 46) = true := by
  intro c
  have t : ∀ n : Fin 256, (let f := charVal signed (UInt8.ofNat n)
      ¬ (f < 46 ∨ (f > 46 ∧ f < 48) ∨ (f > 57 ∧ f < 65) ∨ (f > 90 ∧ f < 95) ∨ f = 96 ∨ f > 122)) ↔
        (letter (UInt8.ofNat n) || UInt8.ofNat n == 46) = true := by
    cases signed <;> decide +kernel
  have := t ⟨c.toNat, c.toNat_lt⟩
  simpa using this

theorem dot_iff (signed : Bool) (c : UInt8) : charVal signed c = 46 ↔ c = 46 := by
  unfold charVal
  rw [← UInt8.toNat_inj]
  have := c.toNat_lt
  split
  · next h =>
    have : 128 ≤ c.toNat := by simpa [UInt8.le_iff_toNat_le] using h.2
    simp
    omega
  · simp
    omega

theorem refused_rest (signed : Bool) : ∀ l : List UInt8, refused signed false l = !(l.all fun c => letter c || c == 46)
  | [] => rfl
  | c :: r => by
    rw [refused]
    simp only [Bool.false_eq_true, and_false, if_false]
    by_cases h : (letter c || c == 46) = true
    · rw [if_neg ((byte_ok signed c).mpr h), refused_rest signed r, List.all_cons, h, Bool.true_and]
    · rw [if_pos (Decidable.byContradiction fun hh => h ((byte_ok signed c).mp hh)), List.all_cons, Bool.eq_false_iff.mpr h]
      rfl

theorem refused_eq (signed : Bool) (l : List UInt8) : refused signed true l = !nameOk l := by
  cases l with
  | nil => rfl
  | cons c r =>
    rw [refused]
    simp only [and_true, dot_iff]
    by_cases hd : c = 46
    · rw [if_pos hd, hd]
      simp [nameOk]
    · rw [if_neg hd]
      have hh : ((c :: r).head? != some 46) = true := by simp [hd]
      unfold nameOk
      rw [hh, Bool.and_true]
      by_cases h : (letter c || c == 46) = true
      · rw [if_neg ((byte_ok signed c).mpr h), refused_rest signed r, List.all_cons, h, Bool.true_and]
      · rw [if_pos (Decidable.byContradiction fun hh => h ((byte_ok signed c).mp hh)), List.all_cons, Bool.eq_false_iff.mpr h]
        rfl

/-! ## Reading -/

theorem fgets_line : ∀ (l : List UInt8) (n : Nat) (r : List UInt8), (10 : UInt8) ∉ l → l.length < n → fgets n (l ++ 10 :: r) = (l ++ [10], r)
  | [], n + 1, r, _, _ => by simp [fgets]
  | c :: l, n + 1, r, h, hn => by
    rw [List.mem_cons, not_or] at h
    rw [List.cons_append, fgets, if_neg (Ne.symm h.1), fgets_line l n r h.2 (by simpa using hn)]
    rfl
  | _, 0, _, _, hn => absurd hn (Nat.not_lt_zero _)

theorem fgets_full : ∀ (l : List UInt8) (r : List UInt8), (10 : UInt8) ∉ l → fgets l.length (l ++ r) = (l, r)
  | [], r, _ => rfl
  | c :: l, r, h => by
    rw [List.mem_cons, not_or] at h
    rw [List.length_cons, List.cons_append, fgets, if_neg (Ne.symm h.1), fgets_full l r h.2]

theorem fgets_end : ∀ (l : List UInt8) (n : Nat), (10 : UInt8) ∉ l → l.length ≤ n → fgets n l = (l, [])
  | [], 0, _, _ => rfl
  | [], _ + 1, _, _ => rfl
  | c :: l, n + 1, h, hn => by
    rw [List.mem_cons, not_or] at h
    rw [fgets, if_neg (Ne.symm h.1), fgets_end l n h.2 (by simpa using hn)]
  | _ :: _, 0, _, hn => absurd hn (Nat.not_succ_le_zero _)

/-- A line without NUL and line ends in it. -/
def Plain (l : List UInt8) : Prop := ∀ c ∈ l, c ≠ 0 ∧ c ≠ 13 ∧ c ≠ 10

theorem stripped_plain {l : List UInt8} (h : Plain l) {c : UInt8} (hc : c = 0 ∨ c = 13 ∨ c = 10) (r : List UInt8) :
    stripped (l ++ c :: r) = l := by
  unfold stripped
  rw [List.takeWhile_append_of_pos (fun x hx => decide_eq_true (h x hx)), List.takeWhile_cons_of_neg (by
    simp only [decide_eq_true_eq]
    rcases hc with rfl | rfl | rfl <;> decide)]
  simp

theorem stripped_whole {l : List UInt8} (h : Plain l) : stripped l = l := by
  unfold stripped
  exact takeWhile_self (fun x hx => decide_eq_true (h x hx))

theorem Plain.noEnd {l : List UInt8} (h : Plain l) : (10 : UInt8) ∉ l := fun hm => (h 10 hm).2.2 rfl

theorem read_step {signed : Bool} {dir : List UInt8 → Option (List UInt8)} {l : List UInt8} (hne : l ≠ []) :
    step signed dir (some l) .read = (.line (stripped (fgets 499 l).1), some (fgets 499 l).2) := by
  cases l with
  | nil => exact absurd rfl hne
  | cons c r => rfl

theorem read_line (signed : Bool) (dir : List UInt8 → Option (List UInt8)) {l : List UInt8} {cr : Bool} (h : Plain l)
    (hl : l.length + (ending cr).length ≤ 499) (r : List UInt8) :
    step signed dir (some (l ++ ending cr ++ r)) .read = (.line l, some r) := by
  cases cr with
  | false =>
    have e : l ++ ending false ++ r = l ++ 10 :: r := by simp [ending]
    simp only [ending, Bool.false_eq_true, if_false, List.length_singleton] at hl
    rw [e, read_step (by simp), fgets_line l 499 r h.noEnd (by omega)]
    rw [stripped_plain h (Or.inr (Or.inr rfl)) []]
  | true =>
    have e : l ++ ending true ++ r = (l ++ [13]) ++ 10 :: r := by simp [ending]
    simp only [ending, if_true, List.length_cons, List.length_nil] at hl
    rw [e, read_step (by simp), fgets_line (l ++ [13]) 499 r (by
      rw [List.mem_append, not_or]
      exact ⟨h.noEnd, by decide⟩) (by simp; omega)]
    rw [List.append_assoc]
    show (Out.line (stripped (l ++ 13 :: [10])), some r) = _
    rw [stripped_plain h (Or.inr (Or.inl rfl))]

theorem run_append (signed : Bool) (dir : List UInt8 → Option (List UInt8)) : ∀ (a b : List Op) (s : Option (List UInt8)),
    run signed dir s (a ++ b) = ((run signed dir s a).1 ++ (run signed dir (run signed dir s a).2 b).1, (run signed dir (run signed dir s a).2 b).2)
  | [], b, s => rfl
  | o :: a, b, s => by
    simp only [List.cons_append, run, run_append signed dir a b]

/-! ## The theorems -/

/-- **C123.** Whatever a script does, in any order, it gets nothing that depends on files other than those whose names are made of
letters, digits, `_` and dots and do not begin with a dot: nothing in other directories, and nothing hidden. -/
theorem files_confined (signed : Bool) {dir dir' : List UInt8 → Option (List UInt8)} (h : ∀ n, nameOk n = true → dir n = dir' n) :
    ∀ (ops : List Op) (s : Option (List UInt8)), run signed dir s ops = run signed dir' s ops
  | [], _ => rfl
  | o :: os, s => by
    have e : step signed dir s o = step signed dir' s o := by
      cases o with
      | «open» n =>
        simp only [step, refused_eq]
        by_cases hn : nameOk (cString n) = true
        · simp [hn, h _ hn]
        · simp [Bool.eq_false_iff.mpr hn]
      | read => rfl
      | close => rfl
    simp only [run, e, files_confined signed h os]

/-- **C123.** A file is opened if its name is allowed and it is there, also if `char` is signed or another file is open; otherwise
false is given. -/
theorem open_exact (signed : Bool) (dir : List UInt8 → Option (List UInt8)) (s : Option (List UInt8)) {n : List UInt8} (hn : (0 : UInt8) ∉ n) :
    step signed dir s (.open n) = match (if nameOk n then dir n else none) with
      | some content => (.yes, some content)
      | none => (.no, none) := by
  have e : cString n = n := by
    unfold cString
    exact takeWhile_self (fun x hx => decide_eq_true (fun h => hn (h ▸ hx)))
  simp only [step, refused_eq, e]
  cases nameOk n
  · simp
  · simp
    cases dir n <;> rfl

/-- **C123.** The lines of a file are read one after the other as they are, with either kind of line end, then false is given, if
each of them has with its line end less than 500 bytes; and then the file is closed. -/
theorem read_exact_partial (signed : Bool) {dir : List UInt8 → Option (List UInt8)} : ∀ {ls : List (List UInt8 × Bool)},
    (∀ x ∈ ls, Plain x.1 ∧ x.1.length + (ending x.2).length ≤ 499) →
    run signed dir (some (text ls)) (List.replicate (ls.length + 1) .read) = (ls.map (fun x => Out.line x.1) ++ [.no], none)
  | [], _ => rfl
  | (l, cr) :: r, h => by
    have hx := h (l, cr) List.mem_cons_self
    have ih := read_exact_partial signed (dir := dir) (ls := r) (fun x hx => h x (List.mem_cons_of_mem _ hx))
    rw [List.length_cons, List.replicate_succ]
    simp only [run, text, read_line signed dir hx.1 hx.2, ih]
    rfl

/-- **C123.** So is a last line without line end. -/
theorem read_last (signed : Bool) {dir : List UInt8 → Option (List UInt8)} {ls : List (List UInt8 × Bool)} {last : List UInt8}
    (h : ∀ x ∈ ls, Plain x.1 ∧ x.1.length + (ending x.2).length ≤ 499) (hl : Plain last) (hlen : last.length ≤ 499) (hne : last ≠ []) :
    run signed dir (some (text ls ++ last)) (List.replicate (ls.length + 2) .read) =
      (ls.map (fun x => Out.line x.1) ++ [.line last, .no], none) := by
  induction ls with
  | nil =>
    simp only [text, List.nil_append, List.length_nil, List.replicate, run, read_step hne, fgets_end last 499 hl.noEnd hlen, stripped_whole hl]
    rfl
  | cons x r ih =>
    obtain ⟨l, cr⟩ := x
    have hx := h (l, cr) List.mem_cons_self
    have ih := ih (fun x hx => h x (List.mem_cons_of_mem _ hx))
    rw [List.length_cons, Nat.add_right_comm, List.replicate_succ]
    simp only [run, text]
    rw [List.append_assoc (l ++ ending cr), read_line signed dir hx.1 hx.2, ih]
    rfl

/-- **C123, refuted at the limit.** A line of 499 bytes, which the manual allows, is followed by an empty line that is not there. -/
theorem read_499 (signed : Bool) (dir : List UInt8 → Option (List UInt8)) {l : List UInt8} (h : Plain l) (hl : l.length = 499) (r : List UInt8) :
    run signed dir (some (l ++ 10 :: r)) [.read, .read] = ([.line l, .line []], some r) := by
  have hne : l ++ 10 :: r ≠ [] := by simp
  have e : fgets 499 (l ++ 10 :: r) = (l, 10 :: r) := by rw [← hl]; exact fgets_full l _ h.noEnd
  simp only [run, read_step hne, e, stripped_whole h]
  rfl

/-- **C123.** A NUL or a carriage return in a line hides the rest of that line, as the manual says of the former. -/
theorem read_hidden (signed : Bool) (dir : List UInt8 → Option (List UInt8)) {l t : List UInt8} (h : Plain l) {c : UInt8} (hc : c = 0 ∨ c = 13)
    (ht : (10 : UInt8) ∉ t) (hl : l.length + t.length + 2 ≤ 499) (r : List UInt8) :
    step signed dir (some (l ++ c :: (t ++ 10 :: r))) .read = (.line l, some r) := by
  have e : l ++ c :: (t ++ 10 :: r) = (l ++ c :: t) ++ 10 :: r := by simp
  rw [e, read_step (by simp), fgets_line (l ++ c :: t) 499 r (by
    rw [List.mem_append, List.mem_cons, not_or, not_or]
    exact ⟨h.noEnd, by rcases hc with rfl | rfl <;> decide, ht⟩) (by simp; omega), List.append_assoc]
  show (Out.line (stripped (l ++ c :: (t ++ [10]))), some r) = _
  rw [stripped_plain h (by rcases hc with rfl | rfl <;> simp)]

/-- **C123.** Only one file is open: once another one is opened, or cannot be, nothing of the first one is read; and if none is
open, false is given. -/
theorem one_file (signed : Bool) (dir : List UInt8 → Option (List UInt8)) (s t : Option (List UInt8)) (n : List UInt8) (ops : List Op) :
    run signed dir s (.open n :: ops) = run signed dir t (.open n :: ops) ∧
      step signed dir none .read = (.no, none) ∧ step signed dir none .close = (.no, none) ∧ (step signed dir s .close).2 = none := by
  refine ⟨rfl, rfl, rfl, ?_⟩
  cases s <;> rfl

/-! ## Examples -/

-- `blocklist` and `/etc/passwd`
def exDir : List UInt8 → Option (List UInt8) := fun n =>
  if n = "blocklist".toUTF8.toList then some "a.com\nb.com\r\n\nc".toUTF8.toList
  else if n = "/etc/passwd".toUTF8.toList then some "root".toUTF8.toList
  else if n = ".secret".toUTF8.toList then some "s".toUTF8.toList
  else none

def exOps : List Op := [.open "blocklist".toUTF8.toList, .read, .open "/etc/passwd".toUTF8.toList, .read, .open ".secret".toUTF8.toList,
  .read, .open "..".toUTF8.toList, .open [200], .open "blocklist".toUTF8.toList, .read, .read, .read, .read, .read, .read]

example : (run true exDir none exOps).1 = [.yes, .line "a.com".toUTF8.toList, .no, .no, .no, .no, .no, .no, .yes, .line "a.com".toUTF8.toList,
    .line "b.com".toUTF8.toList, .line [], .line "c".toUTF8.toList, .no, .no] := by decide +kernel

example : run true exDir none exOps = run true (fun n => if nameOk n then exDir n else none) none exOps :=
  files_confined true (fun n hn => by simp [hn]) exOps none

example : step false exDir none (.open "blocklist".toUTF8.toList) = (.yes, some "a.com\nb.com\r\n\nc".toUTF8.toList) := by
  rw [open_exact _ _ _ (by decide +kernel)]
  decide +kernel

example : run true exDir (some (text [([97], false), ([], true), ([98, 99], true)])) (List.replicate 4 .read) =
    ([.line [97], .line [], .line [98, 99], .no], none) := read_exact_partial true (by unfold Plain; decide)

example : run true exDir (some (text [([97], false)] ++ [98])) (List.replicate 3 .read) = ([.line [97], .line [98], .no], none) :=
  read_last true (by unfold Plain; decide) (by unfold Plain; decide) (by decide) (by decide)

example : run true exDir (some (List.replicate 499 97 ++ 10 :: [98])) [.read, .read] = ([.line (List.replicate 499 97), .line []], some [98]) :=
  read_499 true exDir (fun c hc => by rw [List.eq_of_mem_replicate hc]; decide) List.length_replicate _

example : step true exDir (some ([97] ++ 13 :: ([98] ++ 10 :: [99]))) .read = (.line [97], some [99]) :=
  read_hidden true exDir (by unfold Plain; decide) (Or.inr rfl) (by decide) (by decide) _

end OneFile
end Co
