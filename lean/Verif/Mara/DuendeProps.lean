import Verif.Mara.DuendeModel
import Verif.Spec.Daemon
/-!
# C128: duende logs what the program says, and starts it again when it should
-/

namespace Mara
namespace Duende

open Spec.Daemon

theorem fgets_all : ∀ (n : Nat) (s : List UInt8), (fgets n s).1 ++ (fgets n s).2 = s
  | 0, _ => rfl
  | _ + 1, [] => rfl
  | n + 1, b :: r => by
    unfold fgets
    split
    · rfl
    · simp [fgets_all n r]

theorem fgets_len : ∀ (n : Nat) (s : List UInt8), (fgets n s).1.length ≤ n
  | 0, _ => by simp [fgets]
  | _ + 1, [] => by simp [fgets]
  | n + 1, b :: r => by
    unfold fgets
    split
    · simp
    · have := fgets_len n r
      simp; omega

theorem fgets_some (n : Nat) (b : UInt8) (r : List UInt8) : (fgets (n + 1) (b :: r)).2.length ≤ r.length := by
  unfold fgets
  split
  · simp
  · have := congrArg List.length (fgets_all n r)
    simp only [List.length_append] at this
    show (fgets n r).2.length ≤ _
    omega

theorem fgets_line : ∀ (n : Nat) (l rest : List UInt8), 10 ∉ l → l.length < n → fgets n (l ++ 10 :: rest) = (l ++ [10], rest)
  | 0, _, _, _, h => by omega
  | n + 1, [], rest, _, _ => by simp [fgets]
  | n + 1, b :: l, rest, h1, h2 => by
    simp only [List.mem_cons, not_or] at h1
    rw [List.length_cons] at h2
    rw [List.cons_append, fgets, if_neg (fun e => h1.1 e.symm), fgets_line n l rest h1.2 (by omega)]
    rfl

theorem fgets_newline : ∀ (n : Nat) (s : List UInt8), 10 ∉ (fgets n s).1.dropLast
  | 0, _ => by simp [fgets]
  | _ + 1, [] => by simp [fgets]
  | n + 1, b :: r => by
    unfold fgets
    split
    · simp
    · rename_i hb
      have ih := fgets_newline n r
      cases h : (fgets n r).1 with
      | nil => simp
      | cons x y =>
        rw [h] at ih
        simp only [List.dropLast_cons_cons, List.mem_cons, not_or]
        exact ⟨fun e => hb e.symm, ih⟩

theorem takeWhile_no_null {l : List UInt8} (h : 0 ∉ l) : l.takeWhile (· != 0) = l := by
  induction l with
  | nil => rfl
  | cons x l ih =>
    simp only [List.mem_cons, not_or] at h
    rw [List.takeWhile_cons, if_pos (by simpa using fun e => h.1 (Eq.symm e)), ih h.2]

theorem messages_whole : ∀ (f : Nat) (s : List UInt8), s.length ≤ f → 0 ∉ s → (messages f s).flatten = s
  | 0, s, h, _ => by
    have : s = [] := List.length_eq_zero_iff.1 (by omega)
    subst this; rfl
  | _ + 1, [], _, _ => rfl
  | f + 1, b :: r, h, h0 => by
    have hall := fgets_all 1019 (b :: r)
    have hlen : (fgets 1019 (b :: r)).2.length ≤ r.length := fgets_some 1018 b r
    rw [List.length_cons] at h
    have h1 : 0 ∉ (fgets 1019 (b :: r)).1 := fun hm => h0 (by rw [← hall]; simp [hm])
    have h2 : 0 ∉ (fgets 1019 (b :: r)).2 := fun hm => h0 (by rw [← hall]; simp [hm])
    rw [messages, List.flatten_cons, takeWhile_no_null h1, messages_whole f _ (by omega) h2, hall]
    simp

/-- **C128.** Whatever a program prints, if it prints no null, the messages logged are together exactly what it printed. -/
theorem log_whole (s : List UInt8) (h : 0 ∉ s) : (logged s).flatten = s := messages_whole s.length s (Nat.le_refl _) h

/-- Lines of a text, each with its end. -/
def text (lines : List (List UInt8)) : List UInt8 := lines.flatMap (· ++ [10])

theorem messages_lines : ∀ (lines : List (List UInt8)) (f : Nat), (text lines).length ≤ f →
    (∀ l ∈ lines, 10 ∉ l ∧ 0 ∉ l ∧ l.length ≤ 1018) → messages f (text lines) = lines.map (· ++ [10])
  | [], 0, _, _ => rfl
  | [], _ + 1, _, _ => rfl
  | l :: ls, 0, h, _ => by simp [text] at h
  | l :: ls, f + 1, h, hl => by
    obtain ⟨h1, h2, h3⟩ := hl l (by simp)
    have e : text (l :: ls) = l ++ 10 :: text ls := by simp [text]
    have hf := fgets_line 1019 l (text ls) h1 (by omega)
    have ih := messages_lines ls f (by rw [e] at h; simp at h; omega) (fun x hx => hl x (by simp [hx]))
    rw [e]
    cases hc : l ++ 10 :: text ls with
    | nil => simp at hc
    | cons x y =>
      rw [messages, ← hc, hf]
      · simp only [ih, List.map_cons]
        rw [takeWhile_no_null]
        simp [h2]
      · rw [← hc]; simp

/-- **C128.** Each line of up to 1018 bytes is one message. -/
theorem log_lines (lines : List (List UInt8)) (h : ∀ l ∈ lines, 10 ∉ l ∧ 0 ∉ l ∧ l.length ≤ 1018) :
    logged (text lines) = lines.map (· ++ [10]) := messages_lines lines _ (Nat.le_refl _) h

theorem messages_each : ∀ (f : Nat) (s : List UInt8), ∀ m ∈ messages f s, m.length ≤ 1019 ∧ 10 ∉ m.dropLast
  | 0, _ => by simp [messages]
  | _ + 1, [] => by simp [messages]
  | f + 1, b :: r => by
    intro m hm
    rw [messages] at hm
    · rcases List.mem_cons.1 hm with rfl | hm
      · have hp := List.takeWhile_prefix (l := (fgets 1019 (b :: r)).1) (· != 0)
        refine ⟨Nat.le_trans hp.length_le (fgets_len _ _), ?_⟩
        intro hx
        have hn := fgets_newline 1019 (b :: r)
        obtain ⟨t, ht⟩ := hp
        rw [← ht] at hn
        apply hn
        by_cases htn : t = []
        · rw [htn, List.append_nil]; exact hx
        · rw [List.dropLast_append_of_ne_nil htn]
          exact List.mem_append_left _ (List.dropLast_subset _ hx)
      · exact messages_each f _ m hm
    · simp

/-- **C128.** No message is longer than 1019 bytes, and none has more than one line, whatever a program prints. -/
theorem log_one_line (s : List UInt8) : ∀ m ∈ logged s, m.length ≤ 1019 ∧ 10 ∉ m.dropLast := messages_each _ s

/-- As the code has it: what comes after a null in a line is lost. -/
theorem null_hides : logged [97, 0, 98, 10, 99, 10] = [[97], [99, 10]] := by decide +kernel

/-! ### Endings -/

theorem afterEnd_code {c : Nat} (h : c < 256) : afterEnd (256 * c) = if c = 8 then .restart else .quit c := by
  have h1 : 256 * c % 128 = 0 := by omega
  have h2 : 256 * c / 256 % 256 = c := by omega
  have h3 : 256 * c % 256 ≠ 127 := by omega
  unfold afterEnd
  rw [h2]
  by_cases hc : c = 8
  · rw [if_pos hc, if_neg (fun x => x.2 hc), if_neg (fun x => x.1.1 h1), if_neg h3]
  · rw [if_neg hc, if_pos ⟨h1, hc⟩]

theorem afterEnd_signal {t s : Nat} (h : t % 128 = s) (h2 : t % 256 ≠ 127) (h3 : 1 ≤ s) (h4 : s < 127) :
    afterEnd t = if s = 1 then .restart else .quit 1 := by
  unfold afterEnd
  rw [if_neg (by omega)]
  by_cases hs : s = 1
  · rw [if_pos hs, if_neg (by omega), if_neg h2]
  · rw [if_neg hs, if_pos (by omega)]

theorem end_exact {e : Ending} (h : e.Ok) :
    (e.Again → afterEnd e.status = .restart) ∧ (¬ e.Again → afterEnd e.status = .quit e.pass) := by
  cases e with
  | code c =>
    have := afterEnd_code (c := c) h
    exact ⟨fun (hc : c = 8) => by rw [if_pos hc] at this; exact this,
      fun (hc : ¬ c = 8) => by rw [if_neg hc] at this; exact this⟩
  | signal s core =>
    have hs : 1 ≤ s ∧ s < 127 := h
    have := afterEnd_signal (t := s + if core then 128 else 0) (s := s) (by cases core <;> simp <;> omega)
      (by cases core <;> simp <;> omega) hs.1 hs.2
    exact ⟨fun (hc : s = 1) => by rw [if_pos hc] at this; exact this,
      fun (hc : ¬ s = 1) => by rw [if_neg hc] at this; exact this⟩

/-- **C128.** The program is started again after each ending with the code 8 or by the signal HUP, however often, and duende
goes on. -/
theorem runs_on (es : List Ending) (h : ∀ e ∈ es, e.Ok ∧ e.Again) : supervise (es.map Ending.status) = (es.length + 1, none) := by
  induction es with
  | nil => rfl
  | cons e es ih =>
    obtain ⟨h1, h2⟩ := h e (by simp)
    rw [List.map_cons, supervise, (end_exact h1).1 h2, ih (fun x hx => h x (by simp [hx]))]
    rfl

/-- **C128.** The first other ending ends duende, with the code of the program, or with 1 after a signal; the program is
not started again. -/
theorem stops (es : List Ending) (h : ∀ e ∈ es, e.Ok ∧ e.Again) {e : Ending} (he : e.Ok) (hn : ¬ e.Again) (more : List Nat) :
    supervise (es.map Ending.status ++ e.status :: more) = (es.length + 1, some e.pass) := by
  induction es with
  | nil =>
    rw [List.map_nil, List.nil_append, supervise, (end_exact he).2 hn]
    rfl
  | cons x es ih =>
    obtain ⟨h1, h2⟩ := h x (by simp)
    rw [List.map_cons, List.cons_append, supervise, (end_exact h1).1 h2, ih (fun y hy => h y (by simp [hy]))]
    rfl

/-! ### Examples -/

example : logged (text [[97, 98], [], [99]]) = [[97, 98, 10], [10], [99, 10]] := by decide +kernel

/-- Ended with the code 8, then by HUP with memory left behind, then with the code 3. -/
example : supervise ([Ending.code 8, .signal 1 true, .code 3].map Ending.status) = (3, some 3) ∧ (Ending.signal 1 true).Again ∧
    ¬ (Ending.code 3).Again := ⟨by decide, rfl, by simp [Ending.Again]⟩

end Duende
end Mara
