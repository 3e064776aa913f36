import Verif.Mara.ServeModel
import Verif.Mara.Csv2Read
/-!
# The zone transfer server: the records of the file come one by one
-/

namespace Mara
namespace Serve

open Dw (Res)
open Csv2

/-! ## The end of a file -/

/-- Nothing more can be read. -/
def Dry (s : Stream) : Prop := s.isOpen = false ∨ (s.input = [] ∧ s.stack = [] ∧ s.newline = false)

theorem popEmpty_nil : ∀ {a : List UInt8} {b fs : List (List UInt8)}, popEmpty a b = ([], fs) → fs = []
  | c :: r, b, fs, h => by simp [popEmpty] at h
  | [], [], fs, h => by simpa [popEmpty] using h.symm
  | [], f :: b, fs, h => popEmpty_nil (a := f) (b := b) (by simpa [popEmpty] using h)

theorem readChar_dry {s : Stream} (h : Dry s) : readChar s = (-2, s) := by
  unfold readChar
  rcases h with h | ⟨h1, h2, h3⟩
  · rw [if_pos h]
  · by_cases ho : s.isOpen = false
    · rw [if_pos ho]
    · rw [if_neg ho, h3, if_neg (by decide), h1, h2]
      simp only [popEmpty]
      cases s
      simp_all

theorem readChar_neg {s s' : Stream} {c : Int} (h : readChar s = (c, s')) (hc : c < 0) : c = -2 ∧ Dry s' := by
  unfold readChar at h
  split at h
  · rename_i ho
    cases h
    exact ⟨rfl, .inl ho⟩
  split at h
  · cases h; omega
  split at h
  · rename_i hn _ fs hp
    cases h
    exact ⟨rfl, .inr ⟨rfl, popEmpty_nil hp, by simpa using hn⟩⟩
  · simp only at h
    split at h <;> (cases h; omega)

theorem getUtf8_neg (s : Stream) : (getUtf8 s).1 = -164 ∨ 128 ≤ (getUtf8 s).1 := by
  unfold getUtf8
  simp only
  by_cases h1 : utf8Len s.just < 2
  · rw [if_pos h1]; exact .inl rfl
  rw [if_neg h1]
  generalize utf8Rest _ _ s = x
  by_cases h2 : x.1 = -164
  · rw [if_pos h2]; exact .inl rfl
  rw [if_neg h2]
  split
  · exact .inl rfl
  · rename_i h3
    right
    show 128 ≤ x.1
    omega

theorem readUnicode_dry {s : Stream} (h : Dry s) : readUnicode s = .ok (some (-2), s) := by
  unfold readUnicode
  rw [readChar_dry h]
  rfl

theorem readUnicode_end2 (s : Stream) : ∃ c s', readUnicode s = .ok (some c, s') ∧ (c = -2 → Dry s') := by
  unfold readUnicode
  cases hc : readChar s with
  | mk c s1 =>
    simp only
    split
    · exact ⟨c, _, rfl, fun e => (readChar_neg hc (by assumption)).2⟩
    split
    · have := getUtf8_neg s1
      exact ⟨_, _, rfl, fun e => by omega⟩
    · exact ⟨c, _, rfl, fun e => by omega⟩

theorem tildeProc_run (s : Stream) : ∃ q s', tildeProc s = .ok (some q, s') ∧ (q = 1 ∨ q = -1) ∧ (Dry s → Dry s') ∧
    (q = 1 → s'.just = s.just ∧ s'.uni = s.uni) := by
  unfold tildeProc
  rw [bind_get]
  by_cases h1 : s.mode > 100
  · rw [if_pos h1]
    generalize (if s.mode = 102 then (-2 : Int) else if s.mode = 103 then 1 else 0) = k
    simp only
    by_cases h2 : s.tildeSeen > 1
    · rw [if_pos h2]
      exact ⟨_, _, rfl, .inr rfl, fun _ => .inl rfl, fun h => by cases h⟩
    rw [if_neg h2]
    by_cases h3 : k ≠ -2 ∧ s.tildeSeen ≠ k
    · rw [if_pos h3]
      exact ⟨_, _, rfl, .inr rfl, fun _ => .inl rfl, fun h => by cases h⟩
    rw [if_neg h3]
    by_cases h4 : k = -2
    · rw [if_pos h4]
      exact ⟨_, _, rfl, .inl rfl, fun h => h, fun _ => ⟨rfl, rfl⟩⟩
    · rw [if_neg h4]
      exact ⟨_, _, rfl, .inl rfl, fun h => h, fun _ => ⟨rfl, rfl⟩⟩
  rw [if_neg h1]
  by_cases h2 : s.mode > 0 ∧ s.mode < 20
  · rw [if_pos h2]
    exact ⟨_, _, rfl, .inl rfl, fun h => h, fun _ => ⟨rfl, rfl⟩⟩
  · rw [if_neg h2]
    exact ⟨_, _, rfl, .inl rfl, fun h => h, fun _ => ⟨rfl, rfl⟩⟩

theorem comment_run2 (s : Stream) : ∃ s', comment s = .ok (some (), s') := by
  unfold comment
  simp only
  split <;> exact ⟨_, rfl⟩

/-- The result -2 is the end of the file. -/
theorem firstLoop_end {isOk : Int → Bool} {opt : Nat} : ∀ {n : Nat} {last : Int} {pipe : Bool} {s s' : Stream},
    Csv2.firstLoop isOk opt n last pipe s = .ok (some (-2), s') → Dry s'
  | 0, _, _, s, s', h => by cases h
  | n + 1, last, pipe, s, s', h => by
    unfold Csv2.firstLoop at h
    obtain ⟨c, s1, hr, hd⟩ := readUnicode_end2 s
    have ht : ∀ {t : Stream}, tildeProc s1 = .ok (some (-2), t) → False := by
      intro t h
      obtain ⟨q, t', h1, h2, -, -⟩ := tildeProc_run s1
      rw [h1] at h
      cases h
      rcases h2 with h2 | h2 <;> cases h2
    rw [bind_ok hr, bind_get] at h
    by_cases h2 : c = -2
    · subst h2
      rw [if_neg (by decide), if_pos rfl] at h
      cases h
      exact hd rfl
    · split_ifs at h
      all_goals first
        | exact firstLoop_end h
        | exact (ht h).elim
        | cases h
        | skip
      obtain ⟨s2, h3⟩ := comment_run2 s1
      rw [bind_ok h3] at h
      exact firstLoop_end h

theorem get1st_end {isOk : Int → Bool} {opt : Nat} {s s' : Stream} (h : get1st isOk opt s = .ok (some (-2), s')) : Dry s' := by
  unfold get1st at h
  have ht : ∀ {t : Stream}, tildeProc s = .ok (some (-2), t) → False := by
    intro t h
    obtain ⟨q, t', h1, h2, -, -⟩ := tildeProc_run s
    rw [h1] at h
    cases h
    rcases h2 with h2 | h2 <;> cases h2
  rw [bind_get] at h
  simp only at h
  generalize (if s.just > 127 then s.uni else s.just) = c at h
  by_cases h1 : opt ≠ 1 ∧ isOk c
  · rw [if_pos h1] at h; cases h
  rw [if_neg h1] at h
  by_cases h2 : opt = 1 ∧ c = -328 ∧ isOk c
  · rw [if_pos h2] at h; exact (ht h).elim
  rw [if_neg h2] at h
  by_cases h3 : opt = 1 ∧ c = 46
  · rw [if_pos h3] at h; exact (ht h).elim
  rw [if_neg h3] at h
  by_cases h4 : c ≠ -328 ∧ isDelim c = false ∧ ¬ (c = 126 ∧ s.mode = 103)
  · rw [if_pos h4] at h; cases h
  rw [if_neg h4] at h
  by_cases h5 : opt = 1
  · rw [if_pos h5] at h
    exact firstLoop_end h
  · rw [if_neg h5] at h
    exact firstLoop_end h

theorem done_dry {files : List UInt8 → Option (List UInt8)} {p : Ps} {s s' : Stream} (h : readRr files p s = .ok (.done, s')) : Dry s' := by
  unfold readRr at h
  split at h
  · cases h
  · cases h
  · cases h
  · rename_i q s1 hg
    by_cases hq : q = -2
    · rw [if_pos hq] at h
      subst hq
      cases h
      exact get1st_end hg
    · rw [if_neg hq] at h
      split_ifs at h
      all_goals first | cases h | skip
      · split at h <;> cases h
      · split at h <;> cases h

/-! ## Behind the end of a file -/

theorem get1st_dry {isOk : Int → Bool} {s : Stream} (h : Dry s) (h328 : isOk (-328) = false) : ∃ q s', get1st isOk 1 s = .ok (some q, s') ∧ Dry s' ∧
    (q = 1 ∨ q = -1 → (if s.just > 127 then s.uni else s.just) = 46) ∧ (q = 1 → s'.just = s.just ∧ s'.uni = s.uni) ∧ 
    (q ≠ 1 → q = -1 ∨ q = -2 ∨ (q = -164 ∧ s'.isOpen = false)) := by
  unfold get1st
  rw [bind_get]
  simp only
  generalize (if s.just > 127 then s.uni else s.just) = c
  rw [if_neg (by simp), if_neg (fun hc => by rw [hc.2.1, h328] at hc; exact absurd hc.2.2 (by decide))]
  by_cases h3 : c = 46
  · rw [if_pos ⟨trivial, h3⟩]
    obtain ⟨q, s', h1, h2, h4, h5⟩ := tildeProc_run s
    refine ⟨q, s', h1, h4 h, fun _ => h3, h5, fun hq => .inl (h2.resolve_left hq)⟩
  rw [if_neg (fun hc => h3 hc.2)]
  by_cases h4 : c ≠ -328 ∧ isDelim c = false ∧ ¬ (c = 126 ∧ s.mode = 103)
  · rw [if_pos h4]
    exact ⟨-164, { s with isOpen := false }, rfl, .inl rfl, fun hc => by omega, fun hc => by omega, fun _ => .inr (.inr ⟨rfl, rfl⟩)⟩
  · rw [if_neg h4, if_pos trivial, bind_modify]
    have hd : Dry { s with tildeOk := (if s.mode = 101 then false else if s.mode = 102 ∨ s.mode = 103 then true else s.tildeOk), tildeSeen := (if c = 126 then 1 else 0) } := h
    refine ⟨-2, _, ?_, hd, fun hc => by omega, fun hc => by omega, fun _ => .inr (.inl rfl)⟩
    rw [show (10000 : Nat) = 9999 + 1 from rfl]
    unfold Csv2.firstLoop
    rw [bind_ok (readUnicode_dry hd), bind_get, if_neg (by decide), if_pos rfl]
    rfl

theorem record_closed {p : Ps} {s : Stream} (h : s.isOpen = false) : ∃ s', record p s = .ok (none, s') := by
  have hj : s.just = -1 := by unfold Stream.just; rw [h]; rfl
  have h1 : process1st isStarOrDot [90] s = .ok (none, { s with isOpen := false }) := by
    unfold process1st
    rw [bind_get, hj]
    rfl
  have h2 : processDname 1 s = .ok (none, { s with isOpen := false }) := by
    unfold processDname
    exact bind_none h1
  have h3 : hostname p.origin 1 s = .ok (none, { s with isOpen := false }) := by
    unfold hostname
    exact bind_none h2
  exact ⟨_, by unfold record; exact bind_none h3⟩

theorem getUtf8_dry {s : Stream} (h : Dry s) : (getUtf8 s).1 = -164 := by
  unfold getUtf8
  simp only
  by_cases h1 : utf8Len s.just < 2
  · rw [if_pos h1]
  rw [if_neg h1]
  obtain ⟨k, hk⟩ : ∃ k, (utf8Len s.just - 1).toNat = k + 1 := ⟨(utf8Len s.just - 2).toNat, by omega⟩
  rw [hk]
  unfold utf8Rest
  rw [readChar_dry h]
  simp

theorem record_dot {p : Ps} {s : Stream} (h : Dry s) (hc : (if s.just > 127 then s.uni else s.just) = 46) :
    ∃ s', record p s = .ok (none, s') := by
  by_cases hj : s.just > 127
  · rw [if_pos hj] at hc
    suffices ∃ s', processDname 1 s = .ok (none, s') by
      obtain ⟨s', h1⟩ := this
      exact ⟨s', by unfold record hostname; exact bind_none (bind_none h1)⟩
    by_cases h2 : s.just ≥ 0xc0 ∧ s.just < 0xfe
    · have h3 : process1st isStarOrDot [90] s = .ok (none, (getUtf8 s).2) := by
        unfold process1st
        rw [bind_get, if_pos h2]
        have : ∀ (f : P Int) (g : Int → P (List UInt8)), f s = .ok (some (-164), (getUtf8 s).2) → (f >>= g) s = g (-164) (getUtf8 s).2 :=
          fun f g h => bind_ok h
        exact this _ _ (by rw [← getUtf8_dry h])
      exact ⟨_, by unfold processDname; exact bind_none h3⟩
    · have h3 : process1st isStarOrDot [90] s = .ok (some [90, 46], s) := by
        unfold process1st
        rw [bind_get, if_neg h2, if_pos (by omega), bind_pure', hc]
        rfl
      have h4 : ∃ s', appendDname [90, 46] 1 s = .ok (none, s') := by
        unfold appendDname
        rw [bind_get]
        rw [if_neg (by omega), if_pos (by decide), if_pos (by unfold isDname; simp; omega)]
        rw [show (10000 : Nat) = 9999 + 1 from rfl]
        unfold dnameLoop
        rw [bind_ok (readUnicode_dry h)]
        exact ⟨_, rfl⟩
      obtain ⟨s', h4⟩ := h4
      exact ⟨s', by unfold processDname; rw [bind_ok h3]; exact bind_none h4⟩
  · rw [if_neg hj] at hc
    have h3 : process1st isStarOrDot [90] s = .ok (some [90, 46], s) := by
      unfold process1st
      rw [bind_get, hc]
      rfl
    have h4 : appendDname [90, 46] 1 s = .ok (some [90, 46], s) := by
      unfold appendDname
      rw [bind_get, hc]
      rw [if_pos (.inr rfl), bind_ok (readUnicode_dry h)]
      rfl
    have h5 : hostname p.origin 1 s = .ok (some [0], s) := by
      unfold hostname processDname
      rw [bind_ok (show (do
          let o ← process1st isStarOrDot [90]
          let o ← appendDname o 1
          if o.length > 1 ∧ o[1]? = some 46 ∧ o.length ≠ 2 then die
          else pure o : P (List UInt8)) s = .ok (some [90, 46], s) by rw [bind_ok h3, bind_ok h4]; rfl)]
      rfl
    have h6 : get1st isAlphanumOrPlus 0 s = .ok (some (-164), { s with isOpen := false }) := by
      unfold get1st
      rw [bind_get, hc]
      rfl
    refine ⟨{ s with isOpen := false }, ?_⟩
    unfold record
    rw [bind_ok h5, bind_ok h6, if_pos (by decide)]
    rfl

/-- Behind the end, the end is found again, or a mistake. -/
theorem next_dry {files : List UInt8 → Option (List UInt8)} {F : Nat} {p : Ps} {s : Stream} (h : Dry s) :
    ∃ g r, next files (F + 1) p s = .ok (g, r) ∧ (g = .stop ∨ g = .bad) := by
  obtain ⟨q, s', h1, h2, h3, h4, h5⟩ := get1st_dry (isOk := isStarOrSlash) h (by decide)
  have key : ∀ {x}, readRr files p s = .ok (x, s') → (x = .done ∨ x = .stop) →
      ∃ g r, next files (F + 1) p s = .ok (g, r) ∧ (g = .stop ∨ g = .bad) := by
    intro x hx hxx
    unfold next
    rw [hx]
    rcases hxx with rfl | rfl
    · exact ⟨_, _, rfl, .inl rfl⟩
    · exact ⟨_, _, rfl, .inr rfl⟩
  have key2 : ∀ {s''}, s'.just ≠ 47 → q ≠ -2 → q ≠ -1 → record p s' = .ok (none, s'') →
      ∃ g r, next files (F + 1) p s = .ok (g, r) ∧ (g = .stop ∨ g = .bad) := by
    intro s'' hj hq1 hq2 hx
    have : readRr files p s = .ok (.stop, s'') := by
      unfold readRr
      rw [h1]
      simp only
      rw [if_neg hq1, if_neg hq2, if_neg hj, hx]
    unfold next
    rw [this]
    exact ⟨_, _, rfl, .inr rfl⟩
  by_cases hq : q = 1
  · obtain ⟨h6, h7⟩ := h4 hq
    have hc := h3 (.inl hq)
    rw [← h6, ← h7] at hc
    obtain ⟨s'', h8⟩ := record_dot (p := p) h2 hc
    refine key2 ?_ (by omega) (by omega) h8
    intro hj
    rw [hj] at hc
    revert hc
    simp
  rcases h5 hq with h5 | h5 | ⟨h5, h6⟩
  · refine key (x := .stop) ?_ (.inr rfl)
    unfold readRr
    rw [h1, h5]
    rfl
  · refine key (x := .done) ?_ (.inl rfl)
    unfold readRr
    rw [h1, h5]
    rfl
  · obtain ⟨s'', h8⟩ := record_closed (p := p) h6
    refine key2 ?_ (by omega) (by omega) h8
    unfold Stream.just
    rw [h6]
    simp

/-! ## What is read -/

/-- The reader finds the records `l` one after the other, and then the end of the file, or, if not `fin`, a mistake. -/
inductive Yields {R : Type} (read : R → Res (Got × R)) (fin : Bool) : R → List Entry → Prop
  | stop {r r' r'' g} (hf : fin = true) (h1 : read r = .ok (.stop, r')) (h2 : read r' = .ok (g, r''))
      (h3 : g = .stop ∨ g = .bad) : Yields read fin r []
  | bad {r r'} (hf : fin = false) (h : read r = .ok (.bad, r')) : Yields read fin r []
  | cons {r r' e l} (h : read r = .ok (.rr e, r')) (hl : Yields read fin r' l) : Yields read fin r (e :: l)

theorem parse_first {files : List UInt8 → Option (List UInt8)} {F : Nat} {fin : Bool} :
    ∀ {fuel left k : Nat} {p : Ps} {s : Stream} {l : List Entry}, fuel ≤ k → fuel ≤ F →
      parse files fuel left p s = .ok (if fin then .read l else .partly l) → (fin = false → l.length < left) →
      (l = [] ∧ fin = true ∧ ∃ p' s', next files k p s = .ok (.stop, p', s') ∧ Dry s') ∨
      (l = [] ∧ fin = false ∧ ∃ r, next files k p s = .ok (.bad, r)) ∨
      ∃ e l' r, l = e :: l' ∧ next files k p s = .ok (.rr e, r) ∧ Yields (fun r => next files F r.1 r.2) fin r l'
  | 0, left, k, p, s, l, hk, hF, h, hl => by cases fin <;> cases h
  | fuel + 1, 0, k, p, s, l, hk, hF, h, hl => by
    cases fin
    · exact absurd (hl rfl) (by omega)
    · cases h
  | fuel + 1, left + 1, 0, p, s, l, hk, hF, h, hl => by omega
  | fuel + 1, left + 1, k + 1, p, s, l, hk, hF, h, hl => by
    unfold parse at h
    rw [next]
    cases hr : readRr files p s with
    | ub => rw [hr] at h; cases h
    | err => rw [hr] at h; cases h
    | ok x =>
      obtain ⟨x, s1⟩ := x
      rw [hr] at h
      cases x with
      | done =>
        cases fin <;> cases h
        exact .inl ⟨rfl, rfl, _, _, rfl, done_dry hr⟩
      | stop =>
        cases fin <;> cases h
        exact .inr (.inl ⟨rfl, rfl, _, rfl⟩)
      | other => cases fin <;> cases h
      | again p' =>
        simp only at h ⊢
        exact parse_first (fuel := fuel) (k := k) (F := F) (by omega) (by omega) h hl
      | found e =>
        simp only at h ⊢
        cases hp : parse files fuel left p s1 with
        | ub => rw [hp] at h; cases h
        | err => rw [hp] at h; cases h
        | ok o =>
          rw [hp] at h
          have : ∃ l', l = e :: l' ∧ o = if fin then .read l' else .partly l' := by
            cases fin <;> cases o <;> cases h <;> exact ⟨_, rfl, rfl⟩
          obtain ⟨l', rfl, rfl⟩ := this
          refine .inr (.inr ⟨e, l', _, rfl, rfl, ?_⟩)
          obtain ⟨F', rfl⟩ : ∃ F', F = F' + 1 := ⟨F - 1, by omega⟩
          rcases parse_first (F := F' + 1) (k := F' + 1) (by omega) (by omega) hp
              (fun hf => by have := hl hf; simp only [List.length_cons] at this; omega) with
            ⟨rfl, hf, p2, s2, h1, h2⟩ | ⟨rfl, hf, r, h1⟩ | ⟨e', l2, r, rfl, h1, h2⟩
          · obtain ⟨g, r, h3, h4⟩ := next_dry (files := files) (F := F') (p := p2) h2
            exact .stop hf h1 h3 h4
          · exact .bad hf h1
          · exact .cons h1 h2

theorem parse_yields {files : List UInt8 → Option (List UInt8)} {F fuel left : Nat} {fin : Bool} {p : Ps} {s : Stream} {l : List Entry}
    (hF : fuel ≤ F) (h : parse files fuel left p s = .ok (if fin then .read l else .partly l)) (hl : fin = false → l.length < left) :
    Yields (fun r => next files F r.1 r.2) fin (p, s) l := by
  cases fuel with
  | zero => cases fin <;> cases h
  | succ fuel =>
    obtain ⟨F', rfl⟩ : ∃ F', F = F' + 1 := ⟨F - 1, by omega⟩
    rcases parse_first (k := F' + 1) hF hF h hl with ⟨rfl, hf, p2, s2, h1, h2⟩ | ⟨rfl, hf, r, h1⟩ | ⟨e', l2, r, rfl, h1, h2⟩
    · obtain ⟨g, r, h3, h4⟩ := next_dry (files := files) (F := F') (p := p2) h2
      exact .stop hf h1 h3 h4
    · exact .bad hf h1
    · exact .cons h1 h2

end Serve
end Mara
