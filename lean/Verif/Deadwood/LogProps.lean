import Verif.Deadwood.LogModel
import Verif.Spec.Journal

/-!
# C122: the log of Deadwood can be read back, and nobody can forge it
-/

namespace Dw
namespace Log

open Spec.Journal (lines linesFrom printable readBack numbers numbersFrom hexes)

/-! ## One byte -/

theorem each {P : UInt8 → Prop} (h : ∀ n : Fin 256, P (UInt8.ofNat n)) (c : UInt8) : P c := by
  have := h ⟨c.toNat, c.toNat_lt⟩
  simpa using this

theorem escByte_facts : ∀ c : UInt8, (escByte c).all printable = true ∧
    ((escByte c = [c] ∧ c ≠ 92 ∧ c ≠ 123) ∨ escByte c = [123, c, 125] ∨
      (escByte c = [92, UInt8.ofNat (48 + c.toNat / 64), UInt8.ofNat (48 + c.toNat / 8 % 8), UInt8.ofNat (48 + c.toNat % 8)] ∧
        UInt8.ofNat (((UInt8.ofNat (48 + c.toNat / 64)).toNat - 48) * 64 + ((UInt8.ofNat (48 + c.toNat / 8 % 8)).toNat - 48) * 8 +
          ((UInt8.ofNat (48 + c.toNat % 8)).toNat - 48)) = c)) := by
  refine each ?_
  decide +kernel

theorem dec_facts : ∀ c : UInt8, (dec c).all (fun d => decide (48 ≤ d ∧ d ≤ 57)) = true ∧
    (dec c).foldl (fun n d => n * 10 + (d.toNat - 48)) 0 = c.toNat := by
  refine each ?_
  decide +kernel

theorem hex_facts : ∀ c : UInt8, (hex c).all (fun d => decide ((48 ≤ d ∧ d ≤ 57) ∨ (97 ≤ d ∧ d ≤ 102))) = true ∧
    ∃ a b, hex c = [a, b] ∧ Spec.Journal.hexDigit a * 16 + Spec.Journal.hexDigit b = c.toNat := by
  intro c
  have t : (hex c).all (fun d => decide ((48 ≤ d ∧ d ≤ 57) ∨ (97 ≤ d ∧ d ≤ 102))) = true ∧
      Spec.Journal.hexDigit (hexDigit (c.toNat / 16)) * 16 + Spec.Journal.hexDigit (hexDigit (c.toNat % 16)) = c.toNat := by
    revert c
    refine each ?_
    decide +kernel
  exact ⟨t.1, _, _, rfl, t.2⟩

theorem read_plain {c : UInt8} (h1 : c ≠ 92) (h2 : c ≠ 123) (r : List UInt8) : readBack (c :: r) = c :: readBack r := by
  rw [readBack]
  · rintro - - - - rfl _; exact h1 rfl
  · rintro - - rfl _; exact h2 rfl

theorem numbersFrom_digits : ∀ (l : List UInt8) (n : Nat) (sep : UInt8) (r : List UInt8), (∀ d ∈ l, 48 ≤ d ∧ d ≤ 57) →
    ¬ (48 ≤ sep ∧ sep ≤ 57) → numbersFrom n (l ++ sep :: r) = l.foldl (fun n d => n * 10 + (d.toNat - 48)) n :: numbersFrom 0 r
  | [], n, sep, r, _, hs => by simp [numbersFrom, hs]
  | d :: l, n, sep, r, hd, hs => by
    rw [List.cons_append, numbersFrom, if_pos (hd d List.mem_cons_self), List.foldl_cons]
    exact numbersFrom_digits l _ sep r (fun x hx => hd x (List.mem_cons_of_mem _ hx)) hs

theorem numbers_dec (b sep : UInt8) (r : List UInt8) (hs : ¬ (48 ≤ sep ∧ sep ≤ 57)) : numbers (dec b ++ sep :: r) = b.toNat :: numbers r := by
  unfold numbers
  rw [numbersFrom_digits _ 0 sep r (fun d hd => of_decide_eq_true (List.all_eq_true.mp (dec_facts b).1 d hd)) hs, (dec_facts b).2]

theorem hexes_hex (b sep : UInt8) (r : List UInt8) : hexes (hex b ++ sep :: r) = b.toNat :: hexes r := by
  obtain ⟨x, y, e, v⟩ := (hex_facts b).2
  rw [e]
  show (_ :: hexes r) = _
  rw [v]

/-! ## Lines -/

theorem linesFrom_append : ∀ (a : List UInt8) (acc r : List UInt8), (10 : UInt8) ∉ a → linesFrom acc (a ++ 10 :: r) = (acc ++ a) :: lines r
  | [], acc, r, _ => by simp [linesFrom, lines]
  | c :: a, acc, r, h => by
    rw [List.mem_cons, not_or] at h
    rw [List.cons_append, linesFrom, if_neg (Ne.symm h.1), linesFrom_append a _ r h.2]
    simp

theorem lines_append {a : List UInt8} (r : List UInt8) (h : (10 : UInt8) ∉ a) : lines (a ++ 10 :: r) = a :: lines r := by
  unfold lines
  rw [linesFrom_append a [] r h]
  rfl

theorem joined_mem {f : UInt8 → List UInt8} {sep : UInt8} {c : UInt8} : ∀ (l : List UInt8), c ∈ joined f sep l →
    c = 32 ∨ c = sep ∨ ∃ b, c ∈ f b
  | [], h => by cases h
  | [b], h => by
    rw [joined, List.mem_append, List.mem_singleton] at h
    exact h.elim (fun h => Or.inr (Or.inr ⟨b, h⟩)) Or.inl
  | b :: d :: r, h => by
    rw [joined, List.mem_append, List.mem_cons] at h
    · rcases h with h | h | h
      · exact Or.inr (Or.inr ⟨b, h⟩)
      · exact Or.inr (Or.inl h)
      · exact joined_mem (d :: r) h
    · intro e; cases e

theorem escaped_mem {l : List UInt8} {c : UInt8} (h : c ∈ l.flatMap escByte) : printable c = true := by
  obtain ⟨a, -, h⟩ := List.mem_flatMap.mp h
  exact List.all_eq_true.mp (escByte_facts a).1 c h

theorem dec_mem {b c : UInt8} (h : c ∈ dec b) : printable c = true := by
  have := of_decide_eq_true (List.all_eq_true.mp (dec_facts b).1 c h)
  unfold printable
  simp only [Bool.and_eq_true, decide_eq_true_eq, UInt8.le_iff_toNat_le] at *
  simp at *
  omega

theorem hex_mem {b c : UInt8} (h : c ∈ hex b) : printable c = true := by
  have := of_decide_eq_true (List.all_eq_true.mp (hex_facts b).1 c h)
  unfold printable
  simp only [Bool.and_eq_true, decide_eq_true_eq, UInt8.le_iff_toNat_le] at *
  simp at *
  omega

/-- The fixed parts of a call are printable, and there is an address. -/
def Call.Ok : Call → Prop
  | .text s _ => ∀ c ∈ s, printable c = true
  | .bytes f _ b _ => (∀ c ∈ f, printable c = true) ∧ ∀ c ∈ b, printable c = true
  | .ip f a _ => (∀ c ∈ f, printable c = true) ∧ a.isSome = true
  | .dotted f _ _ => ∀ c ∈ f, printable c = true

theorem body_line {c : Call} (h : c.Ok) : ∃ l, c.body = l ++ [10] ∧ ∀ x ∈ l, printable x = true := by
  cases c with
  | text s m => exact ⟨s, rfl, h⟩
  | bytes f s b m =>
    refine ⟨f ++ (showStr s ++ b), by simp [Call.body], ?_⟩
    intro x hx
    rcases List.mem_append.mp hx with hx | hx
    · exact h.1 x hx
    · rcases List.mem_append.mp hx with hx | hx
      · cases s with
        | none =>
          have : (showStr none).all printable = true := by decide
          exact List.all_eq_true.mp this x hx
        | some l => exact escaped_mem hx
      · exact h.2 x hx
  | ip f a m =>
    refine ⟨f ++ 32 :: showIp a, by simp [Call.body], ?_⟩
    intro x hx
    rcases List.mem_append.mp hx with hx | hx
    · exact h.1 x hx
    · rcases List.mem_cons.mp hx with rfl | hx
      · rfl
      · cases a with
        | none => cases h.2
        | some a =>
          unfold showIp at hx
          simp only at hx
          split at hx
          · rcases joined_mem _ hx with rfl | rfl | ⟨b, hb⟩
            · rfl
            · rfl
            · exact dec_mem hb
          · split at hx
            · rcases joined_mem _ hx with rfl | rfl | ⟨b, hb⟩
              · rfl
              · rfl
              · exact hex_mem hb
            · rcases List.mem_append.mp hx with hx | hx
              · have : ([73, 80, 32, 111, 102, 32, 108, 101, 110, 103, 116, 104, 32] : List UInt8).all printable = true := by decide
                exact List.all_eq_true.mp this x hx
              · exact dec_mem hx
  | dotted f s m =>
    refine ⟨f ++ (s.getD []).flatMap (fun b => dec b ++ [46]), by simp [Call.body], ?_⟩
    intro x hx
    rcases List.mem_append.mp hx with hx | hx
    · exact h x hx
    · obtain ⟨b, -, hb⟩ := List.mem_flatMap.mp hx
      rcases List.mem_append.mp hb with hb | hb
      · exact dec_mem hb
      · rw [List.mem_singleton.mp hb]
        rfl

theorem no_end {l : List UInt8} (h : ∀ x ∈ l, printable x = true) : (10 : UInt8) ∉ l := by
  intro hm
  exact absurd (h 10 hm) (by decide)

/-! ## The theorems -/

/-- **C122.** Whatever bytes are logged, they are written as printable characters from which they can be read back. -/
theorem bytes_readable (l : List UInt8) : (∀ c ∈ showStr (some l), printable c = true) ∧ readBack (showStr (some l)) = l := by
  refine ⟨fun c h => escaped_mem h, ?_⟩
  unfold showStr
  simp only
  induction l with
  | nil => rfl
  | cons c l ih =>
    rw [List.flatMap_cons]
    rcases (escByte_facts c).2 with ⟨h, h1, h2⟩ | h | ⟨h, hv⟩
    · rw [h, List.singleton_append, read_plain h1 h2, ih]
    · rw [h]
      show c :: readBack (List.flatMap escByte l) = _
      rw [ih]
    · rw [h]
      simp only [List.cons_append, List.nil_append]
      rw [readBack, hv, ih]

/-- **C122.** Every call that the level allows writes one line, and the lines of the log are those, in their order: whatever
clients and servers have sent, they cannot end a line or begin one. -/
theorem log_lines (level : Int) : ∀ {cs : List Call}, (∀ c ∈ cs, c.Ok) →
    lines (log level cs) = (cs.filter fun c => decide (0 < level ∧ c.min ≤ level)).map (fun c => c.body.dropLast)
  | [], _ => rfl
  | c :: cs, h => by
    have ih := log_lines level (cs := cs) (fun x hx => h x (List.mem_cons_of_mem _ hx))
    rw [log, List.flatMap_cons]
    unfold Call.write
    by_cases hl : 0 < level ∧ c.min ≤ level
    · rw [if_neg (by omega), List.filter_cons_of_pos (by simpa using hl), List.map_cons]
      obtain ⟨l, e, hp⟩ := body_line (h c List.mem_cons_self)
      rw [e, List.append_assoc]
      show lines (l ++ 10 :: _) = _
      rw [lines_append _ (no_end hp), List.dropLast_concat]
      exact congrArg _ ih
    · rw [if_pos (by omega), List.filter_cons_of_neg (by simpa using hl)]
      exact ih

/-- **C122.** Every character of the log is printable or ends a line. -/
theorem log_printable (level : Int) {cs : List Call} (h : ∀ c ∈ cs, c.Ok) : ∀ x ∈ log level cs, printable x = true ∨ x = 10 := by
  intro x hx
  obtain ⟨c, hc, hx⟩ := List.mem_flatMap.mp hx
  unfold Call.write at hx
  split at hx
  · cases hx
  · obtain ⟨l, e, hp⟩ := body_line (h c hc)
    rw [e] at hx
    rcases List.mem_append.mp hx with hx | hx
    · exact Or.inl (hp x hx)
    · exact Or.inr (List.mem_singleton.mp hx)

/-- **C122.** Two lines with the same fixed parts are the same only if the bytes in them are; no bytes look like no string. -/
theorem bytes_told_apart {f b : List UInt8} {m : Int} {s t : Option (List UInt8)} (h : (Call.bytes f s b m).body = (Call.bytes f t b m).body) :
    s = t := by
  have e : showStr s = showStr t := List.append_cancel_right (List.append_cancel_left h)
  have nul : ∀ l : List UInt8, showStr none ≠ showStr (some l) := by
    intro l hl
    have hr := (bytes_readable l).2
    rw [← hl] at hr
    rw [← hr] at hl
    exact absurd hl (by decide +kernel)
  cases s with
  | none =>
    cases t with
    | none => rfl
    | some t => exact absurd e (nul t)
  | some s =>
    cases t with
    | none => exact absurd e.symm (nul s)
    | some t => rw [← (bytes_readable s).2, ← (bytes_readable t).2, e]

/-- **C122.** An address of IPv4 is written as its four numbers, one of IPv6 as its sixteen numbers in hexadecimal. -/
theorem address_readable (ip : List UInt8) :
    numbers (showIp (some ⟨4, ip⟩)) = (ip.take 4).map UInt8.toNat ∧ hexes (showIp (some ⟨16, ip⟩)) = (ip.take 16).map UInt8.toNat := by
  have n4 : ∀ l : List UInt8, numbers (joined dec 46 l) = l.map UInt8.toNat := by
    intro l
    induction l with
    | nil => rfl
    | cons b r ih =>
      cases r with
      | nil =>
        show numbers (dec b ++ 32 :: []) = _
        rw [numbers_dec b 32 [] (by decide)]
        rfl
      | cons d r =>
        show numbers (dec b ++ 46 :: joined dec 46 (d :: r)) = _
        rw [numbers_dec b 46 _ (by decide), ih]
        rfl
  have n16 : ∀ l : List UInt8, hexes (joined hex 58 l) = l.map UInt8.toNat := by
    intro l
    induction l with
    | nil => rfl
    | cons b r ih =>
      cases r with
      | nil =>
        show hexes (hex b ++ 32 :: []) = _
        rw [hexes_hex]
        rfl
      | cons d r =>
        show hexes (hex b ++ 58 :: joined hex 58 (d :: r)) = _
        rw [hexes_hex, ih]
        rfl
  exact ⟨n4 _, n16 _⟩

/-- **C122.** Data of an address record are written as their numbers, however many. -/
theorem data_readable (f : List UInt8) (l : List UInt8) (m : Int) :
    ∃ w, (Call.dotted f (some l) m).body = f ++ w ++ [10] ∧ numbers w = l.map UInt8.toNat := by
  refine ⟨l.flatMap fun b => dec b ++ [46], by simp [Call.body], ?_⟩
  induction l with
  | nil => rfl
  | cons b r ih =>
    rw [List.flatMap_cons, List.append_assoc, List.singleton_append, numbers_dec b 46 _ (by decide), ih]
    rfl

/-- **C122.** Without a level nothing is written at all. -/
theorem log_quiet {level : Int} (h : level ≤ 0) (cs : List Call) : log level cs = [] := by
  unfold log
  rw [List.flatMap_eq_nil_iff]
  intro c _
  unfold Call.write
  rw [if_pos (Or.inl h)]

/-! ## Examples -/

-- a name with a line end and more in it
def exCalls : List Call := [.bytes [71, 32] (some [3, 97, 10, 32, 0, 92, 0, 1]) [] 100, .text [88] 1000,
  .ip [77] (some ⟨4, [10, 0, 255, 1, 0, 0, 0, 0, 0, 0, 0, 0, 0, 0, 0, 0, 0]⟩) 100]

theorem exCalls_ok : ∀ c ∈ exCalls, c.Ok := by
  intro c hc
  rcases List.mem_cons.mp hc with rfl | hc
  · exact ⟨by decide, by decide⟩
  · rcases List.mem_cons.mp hc with rfl | hc
    · show ∀ c ∈ _, _
      decide
    · rw [List.mem_singleton.mp hc]
      exact ⟨by decide, rfl⟩

example : lines (log 128 exCalls) = (exCalls.filter fun c => decide (0 < (128 : Int) ∧ c.min ≤ 128)).map (fun c => c.body.dropLast) :=
  log_lines 128 exCalls_ok

-- `G \003a\012{ }\000\134\000\001` and `M 10.0.255.1 `
example : lines (log 128 exCalls) = ["G \\003a\\012{ }\\000\\134\\000\\001".toUTF8.toList, "M 10.0.255.1 ".toUTF8.toList] := by decide +kernel

example : ∀ x ∈ log 128 exCalls, printable x = true ∨ x = 10 := log_printable 128 exCalls_ok

example : readBack (showStr (some [3, 97, 10, 32, 0, 92])) = [3, 97, 10, 32, 0, 92] := (bytes_readable _).2

example : (Call.bytes [71] none [] 1).body ≠ (Call.bytes [71] (some ("(null dw_str)".toUTF8.toList)) [] 1).body := fun h => by
  cases bytes_told_apart h

example : numbers (showIp (some ⟨4, List.replicate 17 200⟩)) = [200, 200, 200, 200] := (address_readable _).1

example : ∃ w, (Call.dotted [71] (some [127, 0, 0, 1]) 1).body = [71] ++ w ++ [10] ∧ numbers w = [127, 0, 0, 1] := data_readable _ _ _

example : log 0 exCalls = [] := log_quiet (by decide) _

end Log
end Dw
