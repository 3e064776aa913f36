import Verif.Mara.RcRead

/-!
# What MaraDNS takes from its configuration file

* `readMararc_exact`: a file made of the statements of the manual page, laid out in any of the
  ways there are, sets exactly what it says, or is refused exactly when it has to be;
* `parseline_safe`: no line whatever makes the parser fail;
* `parseline_within`: whatever a line is, what is taken from it stands in it;
* `error_first`: the line named in the message is the first one that is wrong, and nothing that
  follows changes a setting.
-/

namespace Mara.Rc

open Spec.MaraRc

/-- A file made of statements means what it says. -/
theorem readMararc_exact (f : List (Layout × Stmt))
    (h : ∀ x ∈ f, x.1.Ok ∧ x.2.Ok ∧ (x.2.line x.1).length < 256 ∧
      name? x.2 ≠ some (b "ERROR")) :
    readMararc (f.map fun x => x.2.line x.1) =
      match meaning known Settings.none (f.map Prod.snd) with
      | none => .exit
      | some s => .go ⟨⟨s.value, s.entries⟩, none⟩ :=
  lines_stmts Settings.none 1 f h

theorem quotes_bounds (l : List UInt8) (q : Quotes) (h : quotes l = .ok q) :
    (q.q1 = -2 ∧ q.q2 = -2 ∧ q.q3 = -2 ∧ q.q4 = -2) ∨
    (0 ≤ q.q1 ∧ q.q1 < q.q2 ∧ q.q2 < l.length ∧
      ((q.q3 = -2 ∧ q.q4 = -2) ∨ (q.q2 < q.q3 ∧ q.q3 < q.q4 ∧ q.q4 < l.length))) := by
  simp only [quotes] at h
  have b1 := mt_bounds quote l 0 (by omega)
  generalize mt quote l 0 = q1 at *
  split_ifs at h with h1 h2 h3 h4
  · cases h
    have b2 := mt_bounds quote l (q1 + 1) (by omega)
    generalize mt quote l (q1 + 1) = q2 at *
    have b3 := mt_bounds quote l (q2 + 1) (by omega)
    generalize mt quote l (q2 + 1) = q3 at *
    have b4 := mt_bounds quote l (q3 + 1) (by omega)
    simp only; omega
  · cases h
    have b2 := mt_bounds quote l (q1 + 1) (by omega)
    right
    refine ⟨by simp only; omega, by simp only; omega, by simp only; omega, .inl ⟨rfl, rfl⟩⟩
  · cases h; simp

theorem drop_bounds (l : List UInt8) (q : Quotes) (h : Int)
    (hb : (q.q1 = -2 ∧ q.q2 = -2 ∧ q.q3 = -2 ∧ q.q4 = -2) ∨
      (0 ≤ q.q1 ∧ q.q1 < q.q2 ∧ q.q2 < l.length ∧
        ((q.q3 = -2 ∧ q.q4 = -2) ∨ (q.q2 < q.q3 ∧ q.q3 < q.q4 ∧ q.q4 < l.length)))) :
    ((dropQuotes q h).q1 = -2 ∧ (dropQuotes q h).q2 = -2 ∧ (dropQuotes q h).q3 = -2 ∧
      (dropQuotes q h).q4 = -2) ∨
    (0 ≤ (dropQuotes q h).q1 ∧ (dropQuotes q h).q1 < (dropQuotes q h).q2 ∧
      (dropQuotes q h).q2 < l.length ∧
        (((dropQuotes q h).q3 = -2 ∧ (dropQuotes q h).q4 = -2) ∨
          ((dropQuotes q h).q2 < (dropQuotes q h).q3 ∧
            (dropQuotes q h).q3 < (dropQuotes q h).q4 ∧
            (dropQuotes q h).q4 < l.length))) := by
  simp only [dropQuotes]
  split_ifs <;> (simp_all; try omega)

/-- The value of a line stands between these places. -/
theorem valuePart_bounds (l : List UInt8) (q : Quotes) (h varend equalp : Int) (cmd : Nat)
    (s e : Int) (c : Nat) (hb : (q.q1 = -2 ∧ q.q2 = -2) ∨
      (0 ≤ q.q1 ∧ q.q1 < q.q2 ∧ q.q2 < l.length))
    (hv : valuePart l q h varend equalp cmd = .ok (s, e, c)) :
    s < 0 ∨ e < s ∨ (s < l.length ∧ e < l.length) := by
  simp only [valuePart] at hv
  split_ifs at hv with h1 h2 h3 h4 h5 h6 h7
  · cases hv; omega
  · cases hv
    have := mt_bounds digit l equalp (by omega)
    have := wordEnd_bounds l (mt digit l equalp) (by omega) (by omega)
    omega
  · cases hv
    have b1 := mt_bounds digit l equalp (by omega)
    omega

theorem firstWord_bounds (l : List UInt8) (h : Int) (hs : (firstWord l h).1 ≥ 0) :
    (firstWord l h).1 < l.length ∧ (firstWord l h).2 < l.length := by
  have := mt_bounds an l 0 (by omega)
  simp only [firstWord] at hs ⊢
  split_ifs at hs ⊢ with h1 h2
  · have := wordEnd_bounds l (mt an l 0) (by omega) (by omega)
    simp only at hs ⊢; omega
  · simp at hs
  · simp only at hs ⊢; omega

theorem keyPart_ok (l : List UInt8) (q q2 : Quotes) (ve : Int) (key : List UInt8) (cmd : Nat)
    (h : keyPart l q ve = some (.ok (key, q2, cmd))) :
    (substr l (q.q1 + 1) (q.q2 - q.q1 - 1) = some key ∧ q2 = ⟨q.q3, q.q4, -2, -2⟩ ∧ cmd = 2) ∨
    (key = b "NOTHASH" ∧ q2 = q ∧ cmd = 1) := by
  simp only [keyPart] at h
  split_ifs at h with k1 k2 k3 k4 k5
  · cases h
  · cases h
  · cases h
  · cases h
  · cases hx : substr l (q.q1 + 1) (q.q2 - q.q1 - 1) with
    | none => simp [hx] at h
    | some x =>
      simp only [hx, Option.some.injEq, Except.ok.injEq, Prod.mk.injEq] at h
      exact .inl ⟨by rw [h.1], h.2.1.symm, h.2.2.symm⟩
  · simp only [Option.some.injEq, Except.ok.injEq, Prod.mk.injEq] at h
    exact .inr ⟨h.1.symm, h.2.1.symm, h.2.2.symm⟩

/-- No line whatever makes the parser fail. -/
theorem parseline_safe (l : List UInt8) (hl : l.length < 256) : parseline l ≠ .fatal := by
  intro hf
  simp only [parseline] at hf
  split at hf
  · cases hf
  cases hq : quotes l with
  | error p => simp [hq] at hf
  | ok q =>
    simp only [hq] at hf
    have hb := drop_bounds l q (hashAt l q) (quotes_bounds l q hq)
    generalize dropQuotes q (hashAt l q) = q' at *
    generalize hashAt l q = h at *
    cases hc : checkChars l q' h with
    | some p => simp [hc] at hf
    | none =>
      simp only [hc] at hf
      generalize mt equal l 0 = e at *
      cases hp : checkPlus l e with
      | error p => simp [hp] at hf
      | ok pl =>
        simp only [hp] at hf
        have hw := firstWord_bounds l h
        generalize firstWord l h = v at *
        split at hf
        · cases hf
        cases hk : keyPart l q' v.2 with
        | none =>
          simp only [keyPart] at hk
          split_ifs at hk with k1 k2 k3 k4 k5
          have b1 := mt_bounds left l 0 (by omega)
          obtain ⟨x, hx, -⟩ := substr_some l (q'.q1 + 1) (q'.q2 - q'.q1 - 1) (by omega)
            (by omega) (by omega) (by omega) (by omega)
          simp [hx] at hk
        | some r =>
          simp only [hk] at hf
          cases r with
          | error p => simp at hf
          | ok r =>
            obtain ⟨key, q2, cmd⟩ := r
            simp only at hf
            have hb2 : (q2.q1 = -2 ∧ q2.q2 = -2) ∨
                (0 ≤ q2.q1 ∧ q2.q1 < q2.q2 ∧ q2.q2 < l.length) := by
              rcases keyPart_ok _ _ _ _ _ _ hk with ⟨-, h2, -⟩ | ⟨-, h2, -⟩
              · rw [h2]; simp only; omega
              · rw [h2]; omega
            cases hvp : valuePart l q2 h v.2 e cmd with
            | error p => simp [hvp] at hf
            | ok r =>
              obtain ⟨s, en, c⟩ := r
              simp only [hvp] at hf
              have hvb := valuePart_bounds l q2 h v.2 e cmd s en c hb2 hvp
              split at hf
              · cases hf
              cases hvt : varText l v.1 v.2 e with
              | none =>
                simp only [varText] at hvt
                split_ifs at hvt with t1 t2 t3
                have := hw t1.1
                obtain ⟨x, hx, -⟩ := substr_some l v.1 (v.2 - v.1 + 1) (by omega) (by omega)
                  (by omega) (by omega) (by omega)
                simp [hx] at hvt
              | some r =>
                simp only [hvt] at hf
                cases r with
                | error p => simp at hf
                | ok var =>
                  simp only at hf
                  cases hxt : valText l q2 s en e with
                  | none =>
                    simp only [valText] at hxt
                    split_ifs at hxt with t1 t2 t3
                    obtain ⟨x, hx, -⟩ := substr_some l s (en - s + 1) (by omega) (by omega)
                      (by omega) (by omega) (by omega)
                    simp [hx] at hxt
                  | some r =>
                    simp only [hxt] at hf
                    cases r with
                    | error p => simp at hf
                    | ok value =>
                      simp only at hf
                      split_ifs at hf

/-- What is taken from a line stands in it; and a line with a backslash is never taken. -/
theorem parseline_within (l var key value : List UInt8) (cmd : Nat) (p : Bool)
    (h : parseline l = .line cmd var key value p) :
    var <:+: l ∧ value <:+: l ∧ (key <:+: l ∨ (cmd ≠ 2 ∧ key = b "NOTHASH")) ∧
      (var ≠ [] → 92 ∉ l) := by
  simp only [parseline] at h
  split at h
  · cases h; simp
  cases hq : quotes l with
  | error p => simp [hq] at h
  | ok q =>
    simp only [hq] at h
    generalize dropQuotes q (hashAt l q) = q' at *
    generalize hashAt l q = hp at *
    cases hc : checkChars l q' hp with
    | some p => simp [hc] at h
    | none =>
      simp only [hc] at h
      generalize mt equal l 0 = e at *
      cases hpl : checkPlus l e with
      | error p => simp [hpl] at h
      | ok pl =>
        simp only [hpl] at h
        generalize firstWord l hp = v at *
        split at h
        · cases h
        cases hk : keyPart l q' v.2 with
        | none => simp [hk] at h
        | some r =>
          simp only [hk] at h
          cases r with
          | error p => simp at h
          | ok r =>
            obtain ⟨key', q2, cmd'⟩ := r
            simp only at h
            have hkey : key' <:+: l ∨ (cmd' = 1 ∧ key' = b "NOTHASH") := by
              rcases keyPart_ok _ _ _ _ _ _ hk with ⟨h1, -, -⟩ | ⟨h1, -, h3⟩
              · exact .inl (substr_infix _ _ _ _ h1)
              · exact .inr ⟨h3, h1⟩
            cases hvp : valuePart l q2 hp v.2 e cmd' with
            | error p => simp [hvp] at h
            | ok r =>
              obtain ⟨s, en, c⟩ := r
              simp only [hvp] at h
              have hcmd : cmd' = 1 → c ≠ 2 := by
                intro e1
                simp only [valuePart] at hvp
                split_ifs at hvp <;> cases hvp <;> omega
              split at h
              · cases h
              rename_i hbs
              have hno := mt_none bslash l (by simpa using hbs)
              cases hvt : varText l v.1 v.2 e with
              | none => simp [hvt] at h
              | some r =>
                simp only [hvt] at h
                cases r with
                | error p => simp at h
                | ok var' =>
                  simp only at h
                  cases hxt : valText l q2 s en e with
                  | none => simp [hxt] at h
                  | some r =>
                    simp only [hxt] at h
                    cases r with
                    | error p => simp at h
                    | ok value' =>
                      simp only at h
                      split_ifs at h
                      cases h
                      refine ⟨?_, ?_, ?_, ?_⟩
                      · simp only [varText] at hvt
                        split_ifs at hvt
                        · cases hvt
                        · cases hvt
                        · simp only [Option.map_eq_some_iff, Except.ok.injEq] at hvt
                          obtain ⟨x, hx, rfl⟩ := hvt
                          exact substr_infix _ _ _ _ hx
                        · cases hvt; exact List.nil_infix
                      · simp only [valText] at hxt
                        split_ifs at hxt
                        · cases hxt
                        · cases hxt
                        · simp only [Option.map_eq_some_iff, Except.ok.injEq] at hxt
                          obtain ⟨x, hx, rfl⟩ := hxt
                          exact substr_infix _ _ _ _ hx
                        · cases hxt; exact List.nil_infix
                      · rcases hkey with hk | ⟨h1, h2⟩
                        · exact .inl hk
                        · exact .inr ⟨hcmd h1, h2⟩
                      · intro _ hm
                        have := hno 92 hm
                        simp [bslash] at this

/-- After an error nothing changes but that dictionaries may be declared. -/
theorem lines_error (r : Reading) (num : Nat) (ls : List (List UInt8)) (r' : Reading)
    (he : r.error ≠ none) (h : lines r num ls = .go r') :
    r'.error = r.error ∧ r'.vars.k = r.vars.k ∧
      ∀ n f, r.vars.d n = some f → r'.vars.d n = some f := by
  induction ls generalizing r num with
  | nil => cases h; exact ⟨rfl, rfl, fun _ _ h => h⟩
  | cons l ls ih =>
    simp only [lines] at h
    cases ho : oneLine r num l with
    | exit => simp [ho] at h
    | fail => simp [ho] at h
    | go r1 =>
      simp only [ho] at h
      have key : r1.error = r.error ∧ r1.vars.k = r.vars.k ∧
          ∀ n f, r.vars.d n = some f → r1.vars.d n = some f := by
        simp only [oneLine] at ho
        split at ho
        · cases ho
        · rw [if_neg he] at ho; cases ho; exact ⟨rfl, rfl, fun _ _ h => h⟩
        · rw [if_neg (by simp [he]), if_neg (by simp [he])] at ho
          split_ifs at ho with h3 h4
          · cases ho
            refine ⟨rfl, rfl, fun n f hn => ?_⟩
            simp only [Vars.newD]
            split_ifs with e
            · subst e; simp [hn] at h4
            · exact hn
          · cases ho; exact ⟨rfl, rfl, fun _ _ h => h⟩
          · cases ho; exact ⟨rfl, rfl, fun _ _ h => h⟩
      obtain ⟨e1, e2, e3⟩ := ih r1 (num + 1) (by rw [key.1]; exact he) h
      exact ⟨e1.trans key.1, e2.trans key.2.1, fun n f hn => e3 n f (key.2.2 n f hn)⟩

theorem lines_append (r : Reading) (num : Nat) (a c : List (List UInt8)) :
    lines r num (a ++ c) = match lines r num a with
      | .go r => lines r (num + a.length) c
      | .exit => .exit
      | .fail => .fail := by
  induction a generalizing r num with
  | nil => simp [lines]
  | cons l a ih =>
    simp only [List.cons_append, lines]
    cases oneLine r num l with
    | exit => rfl
    | fail => rfl
    | go r => simp only [ih, List.length_cons]; congr 1; funext r; congr 1; omega

/-- The message names the first line that is wrong; what stood before it holds, and nothing
after it changes a setting. -/
theorem error_first (a c : List (List UInt8)) (l : List UInt8) (p : Problem) (r r' : Reading)
    (ha : readMararc a = .go r) (hr : r.error = none) (hl : parseline l = .bad p)
    (h : readMararc (a ++ l :: c) = .go r') :
    r'.error = some (a.length + 1, some p) ∧ r'.vars.k = r.vars.k ∧
      ∀ n f, r.vars.d n = some f → r'.vars.d n = some f := by
  simp only [readMararc] at ha h
  rw [lines_append, ha] at h
  simp only [lines, oneLine, hl, hr, if_true] at h
  have := lines_error _ _ c r' (by simp) h
  obtain ⟨h1, h2, h3⟩ := this
  exact ⟨by rw [h1]; simp [Nat.add_comm], h2, h3⟩

end Mara.Rc
