import Verif.Mara.Csv2Lines
/-!
# Lemmas: whole zone files
-/

namespace Mara
namespace Csv2

open Dw (Res)
open Spec (LabelsOk encName dotted lower Name ascii ZoneLine)
open Spec.ZoneText

/-! ## The beginning of a line -/

/-- How tildes are handled from the second line on. -/
def nextMode (m : Nat) (tilde : Bool) : Nat := if tilde then 103 else if m = 0 then 0 else 101

/-- How tildes are handled while a line is read. -/
def Style (m : Nat) (tilde : Bool) : Prop := if tilde then m = 102 ∨ m = 103 else m = 0 ∨ m = 101 ∨ m = 102

theorem style_next {m : Nat} {tilde : Bool} (h : Style m tilde) : Style (nextMode m tilde) tilde := by
  unfold Style nextMode at *
  cases tilde
  · simp only [Bool.false_eq_true, if_false] at h ⊢
    split_ifs <;> omega
  · simp

theorem nextMode_ne (m : Nat) (tilde : Bool) : nextMode m tilde ≠ 2 ∧ nextMode m tilde ≠ 102 := by
  unfold nextMode
  split_ifs <;> omega

/-- What comes before a line has been read, or before the end of the file. -/
def Ready (m : Nat) (rest : List UInt8) (s0 : Stream) : Prop :=
  (rest = [] → ∃ s2, get1st isStarOrSlash 1 s0 = .ok (some (-2), s2)) ∧
  ∀ c t, rest = c :: t → isStarOrSlash c.toNat = true → c.toNat < 128 →
    ∃ s2, Plain s2 ∧ s2.tildeSeen ≤ 5 ∧ s2.mode = m ∧ get1st isStarOrSlash 1 s0 = .ok (some 1, s2.here c t)

theorem firstLoop_line {s : Stream} (h : Plain s) (n : Nat) (last0 : Int) (hl : last0 = 10 ∨ last0 = 13 ∨ last0 = -328) (pipe : Bool) (j c : UInt8)
    (t : List UInt8) (hc : isStarOrSlash c.toNat = true) (hc2 : c.toNat < 128) :
    firstLoop isStarOrSlash 1 (n + 1) last0 pipe (s.here j (c :: t)) = tildeProc (s.here c t) := by
  obtain ⟨n1, n2, n3, n4, n5, n6, n7, n8⟩ := skips_starOrSlash.ne hc
  rw [firstLoop, bind_ok (readUnicode_here h j c t n6 n8 hc2), bind_get, if_neg (by omega), if_neg (by omega), if_neg (ne35 n5), if_neg (by simp),
    if_pos ⟨by trivial, by omega, hc⟩]

theorem firstLoop_end {s : Stream} (h : Plain s) (isOk : Int → Bool) (opt n : Nat) (last0 : Int) (pipe : Bool) (j : UInt8) :
    firstLoop isOk opt (n + 1) last0 pipe (s.here j []) = .ok (some (-2), s.here j []) := by
  rw [firstLoop, bind_ok (readUnicode_end h j), bind_get, if_neg (by decide), if_pos (by trivial)]
  rfl

theorem firstLoop_tilde {s : Stream} (h : Plain s) (ht : s.tildeOk = true) (hm : s.mode > 100) (n : Nat) (last0 : Int) (pipe : Bool) (j : UInt8)
    (t : List UInt8) : firstLoop isStarOrSlash 1 (n + 1) last0 pipe (s.here j (126 :: t)) =
      firstLoop isStarOrSlash 1 n 126 pipe (s.tilde.here 126 t) := by
  have hm' : (s.tilde.here 126 t).mode > 100 := hm
  rw [firstLoop, bind_ok (readUnicode_tilde h ht j t), bind_get, if_neg (by decide), if_neg (by decide), if_neg (by decide), if_neg (by decide),
    if_neg (by simp [show isStarOrSlash 126 = false by decide]), if_neg (by simp [show isStarOrSlash 126 = false by decide]), if_neg (by decide), if_neg (by decide), if_pos ⟨by trivial, by trivial, hm'⟩]

/-- `csv2_tilde_processing` after tildes as they should be. -/
theorem tildeProc_run (m : Nat) (tilde : Bool) (h : Style m tilde) {s : Stream} (hm : s.mode = m) (hs : s.tildeSeen = if tilde then 1 else 0) :
    ∃ k, tildeProc s = .ok (some 1, { s with mode := nextMode m tilde, tildeOk := k }) := by
  unfold Style at h
  rw [tildeProc, bind_get]
  cases tilde
  · simp only [Bool.false_eq_true, if_false] at h hs
    rcases h with h | h | h
    · refine ⟨s.tildeOk, ?_⟩
      rw [if_neg (by omega), if_neg (by omega), pure_run]
      simp [nextMode, h]
      rw [show (0 : Nat) = s.mode by omega]
    · refine ⟨false, ?_⟩
      rw [if_pos (by omega), hm, h]
      simp only [hs]
      rw [if_neg (by decide), if_neg (by decide), if_neg (by decide), bind_modify]
      simp [nextMode, pure_run]
      omega
    · refine ⟨false, ?_⟩
      rw [if_pos (by omega), hm, h]
      simp only [hs]
      rw [if_neg (by decide), if_neg (by decide), if_pos (by decide), bind_modify, bind_modify]
      simp [nextMode, pure_run, hs]
  · simp only [if_true] at h hs
    refine ⟨false, ?_⟩
    rcases h with h | h
    · rw [if_pos (by omega), hm, h]
      simp only [hs]
      rw [if_neg (by decide), if_neg (by decide), if_pos (by decide), bind_modify, bind_modify]
      simp [nextMode, pure_run, hs]
    · rw [if_pos (by omega), hm, h]
      simp only [hs]
      rw [if_neg (by decide), if_neg (by decide), if_neg (by decide), bind_modify]
      simp [nextMode, pure_run]
      omega

theorem endsLine_last {p : Piece} (hp : p.Ok) (h : p.endsLine = true) : (last p = 10 ∨ last p = 13) := by
  cases p with
  | blank c => simpa [Piece.endsLine, last] using h
  | pipe => cases h
  | comment t e => exact hp.1

/-- The pieces up to a line, and the line. -/
theorem ready_pieces {s : Stream} (h : Plain s) (m : Nat) (tilde : Bool) (hst : Style m tilde) (hm : s.mode = m)
    (hs : s.tildeSeen = if tilde then 1 else 0) (l : List Piece) (hl : ∀ p ∈ l, p.Ok) (n : Nat) (hn : l.length < n) (last0 : Int) (pipe : Bool)
    (hpipe : l.countP Piece.isPipe + pipe.toNat ≤ 1) (j : UInt8) (rest : List UInt8)
    (hline : rest ≠ [] → (∃ p, l.getLast? = some p ∧ p.endsLine = true) ∨ (l = [] ∧ (last0 = 10 ∨ last0 = 13))) :
    (rest = [] → ∃ s2, firstLoop isStarOrSlash 1 n last0 pipe (s.here j (pieces l ++ rest)) = .ok (some (-2), s2)) ∧
    ∀ c t, rest = c :: t → isStarOrSlash c.toNat = true → c.toNat < 128 →
      ∃ s2, Plain s2 ∧ s2.tildeSeen ≤ 5 ∧ s2.mode = nextMode m tilde ∧
        firstLoop isStarOrSlash 1 n last0 pipe (s.here j (pieces l ++ rest)) = .ok (some 1, s2.here c t) := by
  obtain ⟨k, rfl⟩ : ∃ k, n = k + 1 + l.length := ⟨n - 1 - l.length, by omega⟩
  obtain ⟨last1, pipe1, j1, e, f1, f2, -, -⟩ := firstLoop_pieces h skips_starOrSlash 1 l (k + 1) last0 pipe j rest hl hpipe
  constructor
  · rintro rfl
    exact ⟨_, e.trans (firstLoop_end h _ _ _ _ _ _)⟩
  · rintro c t rfl hc hc2
    have hlast : last1 = 10 ∨ last1 = 13 ∨ last1 = -328 := by
      rcases hline (by simp) with ⟨p, hp, hpe⟩ | ⟨hnil, h0⟩
      · have hpo : p.Ok := hl p (List.mem_of_getLast? hp)
        rw [f1 p hp]
        split_ifs
        · simp
        · rcases endsLine_last hpo hpe with h | h <;> rw [h] <;> simp
      · rw [f2 hnil]
        omega
    obtain ⟨kk, e2⟩ := tildeProc_run m tilde hst (s := s.here c t) hm hs
    refine ⟨{ s with mode := nextMode m tilde, tildeOk := kk }, ⟨h.isOpen, h.newline, h.stack, h.seen⟩, ?_, rfl, ?_⟩
    · show s.tildeSeen ≤ 5
      rw [hs]
      split_ifs <;> decide
    · rw [e, firstLoop_line h k last1 hlast pipe1 j1 c t hc hc2, e2]
      rfl

/-- The state that `csv2_get_1st` begins with at the beginning of a line. -/
def Stream.opening (s : Stream) (seen : Int) : Stream :=
  { s with tildeOk := if s.mode = 101 then false else if s.mode = 102 ∨ s.mode = 103 then true else s.tildeOk, tildeSeen := seen }

theorem opening_plain {s : Stream} (h : Plain s) {k : Int} (hk : k < 10) : Plain (s.opening k) := ⟨h.isOpen, h.newline, h.stack, hk⟩

theorem get1st_open {s : Stream} {c : Int} (hj : s.just = c) (h1 : c ≤ 127) (h2 : isStarOrSlash c = false) (h46 : c ≠ 46)
    (h3 : c = -328 ∨ isDelim c = true ∨ (c = 126 ∧ s.mode = 103)) :
    get1st isStarOrSlash 1 s = firstLoop isStarOrSlash 1 10000 c (decide (c = 124)) (s.opening (if c = 126 then 1 else 0)) := by
  rw [get1st, bind_get, hj]
  simp only []
  rw [if_neg (show ¬ (c > 127) by omega), if_neg (by simp), if_neg (by simp [h2]), if_neg (by simp [h46]),
    if_neg (by rcases h3 with h | h | h <;> simp [h]), if_pos (by trivial), bind_modify]
  rfl

/-- After a line. -/
theorem left_ready {m : Nat} {sep : Sep} {rest : List UInt8} {s1 : Stream} (h : Left m sep rest s1) (hsep : sep.Ok) (hnl : rest ≠ [] → sep.newLine)
    (hst : Style m sep.tilde) : Ready (nextMode m sep.tilde) rest s1 := by
  obtain ⟨s, hs, hm, h⟩ := h
  have hshort := hsep.short
  have hpipes := hsep.pipes
  have hpipes : sep.before.countP Piece.isPipe + sep.after.countP Piece.isPipe + sep.first.isPipe.toNat ≤ 1 := by
    rw [List.countP_cons, List.countP_append] at hpipes
    cases hpp : sep.first.isPipe <;> simpa [hpp] using hpipes
  rcases h with rfl | ⟨h103, htl, rfl⟩
  · have hd := last_delim hsep.first
    have hd1 : isDelim (last sep.first).toNat = true := by rcases hd with h | h | h | h | h <;> rw [h] <;> decide
    have hlt : (last sep.first).toNat < 128 := by rcases hd with h | h | h | h | h <;> rw [h] <;> decide
    have h46 : ¬ (((last sep.first).toNat : Int) = 46) := by rcases hd with h | h | h | h | h <;> rw [h] <;> decide
    have h126 : ¬ (((last sep.first).toNat : Int) = 126) := by rcases hd with h | h | h | h | h <;> rw [h] <;> decide
    have hpf : decide (((last sep.first).toNat : Int) = 124) = sep.first.isPipe := by
      have hf := hsep.first
      cases hx : sep.first with
      | blank c => rw [hx] at hf; rcases hf with rfl | rfl | rfl | rfl <;> decide
      | pipe => decide
      | comment t e => rw [hx] at hf; rcases hf.1 with rfl | rfl <;> simp [last, Piece.isPipe]
    have e : get1st isStarOrSlash 1 (s.here (last sep.first) (sepRest sep rest)) =
        firstLoop isStarOrSlash 1 10000 (last sep.first).toNat sep.first.isPipe ((s.opening 0).here (last sep.first) (sepRest sep rest)) := by
      rw [get1st_open (just_here hs _ _) (by omega) (by rcases hd with h | h | h | h | h <;> rw [h] <;> decide) h46 (Or.inr (Or.inl hd1)), hpf,
        if_neg h126]
      rfl
    unfold Ready
    rw [e]
    cases htl : sep.tilde with
    | false =>
      have ha := hsep.none htl
      have er : sepRest sep rest = pieces sep.before ++ rest := by simp [sepRest, htl, ha, pieces]
      rw [er]
      rw [htl] at hst
      refine ready_pieces (opening_plain hs (by decide)) m false hst hm rfl sep.before hsep.before 10000 (by omega) _ _ ?_ _ rest ?_
      · omega
      · intro hr
        have hn := hnl hr
        unfold Sep.newLine at hn
        rw [htl] at hn
        simp only [Bool.false_eq_true, if_false] at hn
        cases hb : sep.before with
        | nil =>
          right
          simp only [hb, List.getLast_singleton] at hn
          refine ⟨rfl, ?_⟩
          rcases endsLine_last hsep.first hn with h | h <;> rw [h] <;> decide
        | cons a l =>
          left
          refine ⟨(a :: l).getLast (by simp), List.getLast?_eq_some_getLast _, ?_⟩
          simpa [hb] using hn
    | true =>
      rw [htl] at hst
      have er : sepRest sep rest = pieces sep.before ++ 126 :: (pieces sep.after ++ rest) := by simp [sepRest, htl]
      have hm2 : s.mode = 102 ∨ s.mode = 103 := by
        rw [hm]
        simpa [Style] using hst
      have htk : (s.opening 0).tildeOk = true := by
        show (if s.mode = 101 then false else if s.mode = 102 ∨ s.mode = 103 then true else s.tildeOk) = true
        rw [if_neg (by omega), if_pos hm2]
      have hp0 := opening_plain hs (k := 0) (by decide)
      obtain ⟨last1, pipe1, j1, e1, -, -, f3, -⟩ := firstLoop_pieces hp0 skips_starOrSlash 1 sep.before (10000 - sep.before.length)
        (last sep.first).toNat sep.first.isPipe (last sep.first) (126 :: (pieces sep.after ++ rest)) hsep.before
        (by omega)
      rw [show 10000 - sep.before.length + sep.before.length = 10000 by omega] at e1
      have e2 := firstLoop_tilde hp0 htk (by show s.mode > 100; omega) (9999 - sep.before.length) last1 pipe1 j1 (pieces sep.after ++ rest)
      rw [show 9999 - sep.before.length + 1 = 10000 - sep.before.length by omega] at e2
      rw [er, e1, e2]
      refine ready_pieces (tilde_plain hp0 (by show (0 : Int) ≤ 5; decide)) m true hst hm rfl sep.after hsep.after _ (by omega) _ _ ?_ _ rest ?_
      · omega
      · intro hr
        have hn := hnl hr
        unfold Sep.newLine at hn
        rw [htl] at hn
        exact Or.inl (by simpa using hn)
  · have e : get1st isStarOrSlash 1 (s.here 126 (pieces sep.after ++ rest)) =
        firstLoop isStarOrSlash 1 10000 126 false ((s.opening 1).here 126 (pieces sep.after ++ rest)) := by
      have hj : (s.here 126 (pieces sep.after ++ rest)).just = 126 := just_here hs 126 _
      have hmm : (s.here 126 (pieces sep.after ++ rest)).mode = 103 := by rw [← h103, ← hm]; rfl
      rw [get1st_open hj (by decide) (by decide) (by decide) (Or.inr (Or.inr ⟨rfl, hmm⟩)), if_pos (by trivial)]
      rfl
    unfold Ready
    rw [e, htl]
    rw [htl] at hst
    refine ready_pieces (opening_plain hs (by decide)) m true hst hm rfl sep.after hsep.after 10000 (by omega) _ _ ?_ _ rest ?_
    · simp
      omega
    · intro hr
      have hn := hnl hr
      unfold Sep.newLine at hn
      rw [htl] at hn
      exact Or.inl (by simpa using hn)

/-! ## The beginning of a file -/

theorem readUnicode_plain {s : Stream} (h : Plain s) {c : UInt8} {r : List UInt8} (hi : s.input = c :: r) (h1 : c ≠ 123) (h2 : c ≠ 126)
    (h3 : c.toNat < 128) : readUnicode s = .ok (some (c.toNat : Int), s.here c r) := by
  rw [← readUnicode_here h 0 c r h1 h2 h3]
  obtain ⟨i, st, nl, tok, ts, m, jr, u, op⟩ := s
  simp only at hi
  obtain ⟨rfl, rfl, rfl, -⟩ := (⟨h.isOpen, h.newline, h.stack, trivial⟩ : op = true ∧ nl = false ∧ st = [] ∧ True)
  subst hi
  have h12 : ¬ (c = 123 ∨ (c = 126 ∧ tok = false)) := by simp [h1, h2]
  simp only [readUnicode, readChar, Stream.here, popEmpty, h12, if_false, Bool.true_eq_false, Bool.false_eq_true]
  rfl

theorem firstLoop_any {s : Stream} (h : Plain s) {c : UInt8} {r : List UInt8} (hi : s.input = c :: r) (h1 : c ≠ 123) (h2 : c ≠ 126)
    (h3 : c.toNat < 128) (isOk : Int → Bool) (opt n : Nat) (last0 : Int) (pipe : Bool) :
    firstLoop isOk opt (n + 1) last0 pipe s = firstLoop isOk opt (n + 1) last0 pipe (s.here 0 (c :: r)) := by
  rw [firstLoop, bind_ok (readUnicode_plain h hi h1 h2 h3), bind_ok (readUnicode_here h 0 c r h1 h2 h3)]

/-- How tildes are handled while the first line is read. -/
def firstMode (mode : Nat) : Nat := if mode = 0 then 0 else mode + 100

theorem tildeProc_first {s : Stream} {m : Nat} (hm : s.mode = m) (h3 : m ≤ 3) : tildeProc s = .ok (some 1, { s with mode := firstMode m }) := by
  rw [tildeProc, bind_get, if_neg (by omega)]
  unfold firstMode
  split_ifs with h h'
  · omega
  · rw [bind_modify, pure_run, hm]
  · rw [pure_run]
    obtain ⟨i, st, nl, tok, ts, m', jr, u, op⟩ := s
    simp only at hm
    subst hm
    simp_all
  · omega

theorem piece_head {p : Piece} (hp : p.Ok) : ∃ c t, p.text = c :: t ∧ c ≠ 123 ∧ c ≠ 126 ∧ c.toNat < 128 := by
  cases p with
  | blank c => exact ⟨c, [], rfl, by rcases hp with rfl | rfl | rfl | rfl <;> decide⟩
  | pipe => exact ⟨124, [], rfl, by decide⟩
  | comment t e => exact ⟨35, _, rfl, by decide⟩

theorem start_ready (mode : Nat) (hmode : mode ≤ 3) (head : List Piece) (hh : ∀ p ∈ head, p.Ok) (hpipe : head.countP Piece.isPipe ≤ 1)
    (hlen : head.length < 10000) (hline : ∀ p, head.getLast? = some p → p.endsLine = true) (rest : List UInt8) :
    Ready (firstMode mode) rest (Stream.start mode (pieces head ++ rest)) := by
  have e : get1st isStarOrSlash 1 (Stream.start mode (pieces head ++ rest)) =
      firstLoop isStarOrSlash 1 10000 (-328) false ((Stream.start mode (pieces head ++ rest)).opening 0) := by
    have hj : (Stream.start mode (pieces head ++ rest)).just = -328 := rfl
    rw [get1st_open hj (by decide) (by decide) (by decide) (Or.inl rfl), if_neg (by decide)]
    rfl
  have hp : Plain ((Stream.start mode (pieces head ++ rest)).opening 0) := ⟨rfl, rfl, rfl, by show (0 : Int) < 10; decide⟩
  unfold Ready
  rw [e]
  by_cases hnil : pieces head ++ rest = []
  · have hr : rest = [] := (List.append_eq_nil_iff.mp hnil).2
    constructor
    · intro _
      refine ⟨(Stream.start mode (pieces head ++ rest)).opening 0, ?_⟩
      have : readUnicode ((Stream.start mode (pieces head ++ rest)).opening 0) = .ok (some (-2), (Stream.start mode (pieces head ++ rest)).opening 0) := by
        rw [hnil]
        rfl
      rw [firstLoop, bind_ok this, bind_get, if_neg (by decide), if_pos (by trivial)]
      rfl
    · rintro c t rfl
      cases hr
  · have hgo : ∀ c0 t0, pieces head ++ rest = c0 :: t0 → c0 ≠ 123 → c0 ≠ 126 → c0.toNat < 128 →
        firstLoop isStarOrSlash 1 10000 (-328) false ((Stream.start mode (pieces head ++ rest)).opening 0) =
          firstLoop isStarOrSlash 1 10000 (-328) false (((Stream.start mode (pieces head ++ rest)).opening 0).here 0 (pieces head ++ rest)) := by
      intro c0 t0 h0 h1 h2 h3
      rw [firstLoop_any hp (c := c0) (r := t0) h0 h1 h2 h3, ← h0]
    obtain ⟨last1, pipe1, j1, e1, f1, f2, -, -⟩ := firstLoop_pieces hp skips_starOrSlash 1 head (10000 - head.length) (-328) false 0 rest hh
      (by simpa using hpipe)
    rw [show 10000 - head.length + head.length = (9999 - head.length) + 1 + head.length by omega] at e1
    rw [show 9999 - head.length + 1 + head.length = 10000 by omega, show 10000 - head.length = 9999 - head.length + 1 by omega] at e1
    constructor
    · rintro rfl
      have : ∃ p l, head = p :: l := by
        cases head with
        | nil => exact absurd rfl hnil
        | cons p l => exact ⟨p, l, rfl⟩
      obtain ⟨p, l, hpl⟩ := this
      obtain ⟨c0, t0, hc0, h1, h2, h3⟩ := piece_head (hh p (by rw [hpl]; simp))
      rw [hgo c0 (t0 ++ (pieces l ++ [])) (by rw [hpl]; simp [pieces, hc0]) h1 h2 h3, e1]
      exact ⟨_, firstLoop_end hp _ _ _ _ _ _⟩
    · rintro c t rfl hc hc2
      obtain ⟨n1, n2, n3, n4, n5, n6, n7, n8⟩ := skips_starOrSlash.ne hc
      have h0 : ∃ c0 t0, pieces head ++ c :: t = c0 :: t0 ∧ c0 ≠ 123 ∧ c0 ≠ 126 ∧ c0.toNat < 128 := by
        cases hpl : head with
        | nil => exact ⟨c, t, rfl, n6, n8, hc2⟩
        | cons p l =>
          obtain ⟨c0, t0, hc0, h1, h2, h3⟩ := piece_head (hh p (by rw [hpl]; simp))
          exact ⟨c0, t0 ++ (pieces l ++ c :: t), by simp [pieces, hc0], h1, h2, h3⟩
      obtain ⟨c0, t0, h00, h1, h2, h3⟩ := h0
      have hlast : last1 = 10 ∨ last1 = 13 ∨ last1 = -328 := by
        cases hgl : head.getLast? with
        | none =>
          rw [f2 (List.getLast?_eq_none_iff.mp hgl)]
          simp
        | some p =>
          have hpo : p.Ok := hh p (List.mem_of_getLast? hgl)
          rw [f1 p hgl]
          split_ifs
          · simp
          · rcases endsLine_last hpo (hline p hgl) with h | h <;> rw [h] <;> simp
      refine ⟨{ (Stream.start mode (pieces head ++ c :: t)).opening 0 with mode := firstMode mode }, ⟨rfl, rfl, rfl, by show (0 : Int) < 10; decide⟩,
        by show (0 : Int) ≤ 5; decide, rfl, ?_⟩
      rw [hgo c0 t0 h00 h1 h2 h3, e1, firstLoop_line hp _ last1 hlast pipe1 j1 c t hc hc2]
      exact tildeProc_first rfl hmode

/-! ## All lines -/

/-- What is given on for a line of the specification. -/
def toEntry (e : ZoneLine) : Entry := ⟨Big.base e.star e.name, e.type, e.ttl, some e.data⟩

/-- The state of the parser, as the specification has it; `k` is how often `/opush` has been used. -/
structure PsOk (p : Ps) (c : Ctx) (serial k : Nat) : Prop where
  origin : p.origin = dotted c.origin
  stack : p.ostack = c.stack.map dotted
  ttl : p.ttl = c.ttl
  serial : p.serial = serial
  height : p.height = k
  depth : c.stack.length ≤ k
  originOk : OriginOk c.origin
  stackOk : ∀ o ∈ c.stack, OriginOk o

theorem name_originOk {n : NameText} {origin : Name} (hn : n.Ok origin) (ho : OriginOk origin) (hne : n.name origin ≠ []) : OriginOk (n.name origin) :=
  ⟨(name_labelsOk hn ho).1, hne, (name_labelsOk hn ho).2⟩

theorem starOrSlash_of_star {c : UInt8} (h : isStar c.toNat = true) : isStarOrSlash c.toNat = true := by
  simp only [isStar, isStarOrSlash, decide_eq_true_eq] at h ⊢
  tauto

/-- How a line begins. -/
theorem line_head {ctx : Ctx} {next : Piece} {l : Line} (hl : l.Ok ctx next) (rest : List UInt8) :
    ∃ c t, l.text ++ rest = c :: t ∧ isStarOrSlash c.toNat = true ∧ c.toNat < 128 ∧ (l.isRecord = true → c ≠ 47) := by
  cases l with
  | record n g tt cs b =>
    obtain ⟨d, nt, hd⟩ := List.exists_cons_of_ne_nil hl.1.some
    obtain ⟨f1, f2, f3, f4, f5⟩ := text_head hl.1 hd
    exact ⟨d, _, by rw [record_text, hd]; rfl, starOrSlash_of_star f2, f1, fun _ => f5⟩
  | ttl g n => exact ⟨47, _, rfl, by decide, by decide, by intro h; cases h⟩
  | origin g n => exact ⟨47, _, rfl, by decide, by decide, by intro h; cases h⟩
  | push g n => exact ⟨47, _, rfl, by decide, by decide, by intro h; cases h⟩
  | pop => exact ⟨47, _, rfl, by decide, by decide, by intro h; cases h⟩

/-- One line. -/
theorem line_run (files : List UInt8 → Option (List UInt8)) {p : Ps} {ctx : Ctx} {serial k : Nat} (hp : PsOk p ctx serial k) (hser : serial < 2 ^ 32)
    {l : Line} {sep : Sep} (hl : l.Ok ctx sep.first) (hsep : sep.Ok)
    (hstr : l.isStrs = true → sep.tilde = true → sep.before.length < 4000 ∧ ∀ q ∈ sep.first :: sep.before, q.isPipe = false)
    {m : Nat} (hfree : l.isFree = true → m ≠ 2 ∧ m ≠ 102) (h103 : m = 103 → sep.tilde = true) (hk : k + (if l.isPush then 1 else 0) ≤ 8)
    {rest : List UInt8} {s0 : Stream} (hr : Ready m (l.text ++ (sep.text ++ rest)) s0) :
    ∃ s1, Left m sep rest s1 ∧
      ((l.isRecord = true ∧ (step serial ctx l).1 = ctx ∧ ∃ e, (step serial ctx l).2 = [e] ∧ readRr files p s0 = .ok (.found (toEntry e), s1)) ∨
      (l.isRecord = false ∧ (step serial ctx l).2 = [] ∧ ∃ p', PsOk p' (step serial ctx l).1 serial (k + (if l.isPush then 1 else 0)) ∧
        readRr files p s0 = .ok (.again p', s1))) := by
  obtain ⟨c, t, e, hc, hc2, h47⟩ := line_head hl (sep.text ++ rest)
  obtain ⟨s, hs, hts, hm, hget⟩ := hr.2 c t e hc hc2
  have hleft : Left m sep rest (s.here (last sep.first) (sepRest sep rest)) := ⟨s, hs, hm, Or.inl rfl⟩
  have hslash : ∀ p' s', c = 47 → slash files p (s.here c t) = .ok (some p', s') → readRr files p s0 = .ok (.again p', s') := by
    rintro p' s' rfl h
    have hj : (s.here 47 t).just = 47 := just_here hs 47 t
    rw [readRr, hget]
    simp only [show ¬ ((1 : Int) = -2) by decide, show ¬ ((1 : Int) = -1) by decide, if_false, hj, if_true, h]
  cases l with
  | record n g tt cs b =>
    obtain ⟨s1, e1, e2⟩ := record_run hs hts ctx hp.originOk p hp.origin hp.ttl (by rw [hp.serial]; exact hser) sep hsep n g tt cs b hl hstr
      (by rw [hm]; exact hfree) (by rw [hm]; exact h103) c t rest e
    rw [hm] at e2
    refine ⟨s1, e2, Or.inl ⟨rfl, rfl, _, rfl, ?_⟩⟩
    have hj : ¬ ((s.here c t).just = 47) := by
      rw [just_here hs]
      exact ne_int 47 (by decide) (h47 rfl)
    rw [readRr, hget]
    simp only [show ¬ ((1 : Int) = -2) by decide, show ¬ ((1 : Int) = -1) by decide, if_false, hj, e1, toEntry, hp.serial]
    rcases tt with _ | ⟨_, _⟩ <;> rfl
  | ttl g n =>
    obtain ⟨h1, h2, h3⟩ := hl
    have ht : (Line.ttl g n).text ++ (sep.text ++ rest) = 47 :: 116 :: 116 :: 108 :: (g.text ++ (n ++ (sep.first.text ++ sepRest sep rest))) := by
      rw [sep_text]
      simp only [Line.text, List.append_assoc]
      rfl
    rw [e] at ht
    simp only [List.cons.injEq] at ht
    obtain ⟨rfl, rfl⟩ := ht
    refine ⟨_, hleft, Or.inr ⟨rfl, rfl, { p with ttl := value n }, ⟨hp.origin, hp.stack, rfl, hp.serial, hp.height, hp.depth, hp.originOk, hp.stackOk⟩, ?_⟩⟩
    exact hslash _ _ rfl (slash_ttl hs files p g h2 h1 n h3 sep.first hsep.first (sepRest sep rest))
  | origin g n =>
    obtain ⟨h1, h2, h3, h4⟩ := hl
    have ht : (Line.origin g n).text ++ (sep.text ++ rest) = 47 :: 111 :: 114 :: 105 :: 103 :: 105 :: 110 ::
        (g.text ++ (n.text ++ (sep.first.text ++ sepRest sep rest))) := by
      rw [sep_text]
      simp only [Line.text, List.append_assoc]
      rfl
    rw [e] at ht
    simp only [List.cons.injEq] at ht
    obtain ⟨rfl, rfl⟩ := ht
    refine ⟨_, hleft, Or.inr ⟨rfl, rfl, { p with origin := dotted (n.name ctx.origin) },
      ⟨rfl, hp.stack, hp.ttl, hp.serial, hp.height, hp.depth, name_originOk h3.ok hp.originOk h4, hp.stackOk⟩, ?_⟩⟩
    exact hslash _ _ rfl (slash_origin hs files p ctx.origin hp.originOk hp.origin g h2 h1 n sep.first hsep.first h3 (sepRest sep rest))
  | push g n =>
    obtain ⟨h1, h2, h3, h4⟩ := hl
    have ht : (Line.push g n).text ++ (sep.text ++ rest) = 47 :: 111 :: 112 :: 117 :: 115 :: 104 ::
        (g.text ++ (n.text ++ (sep.first.text ++ sepRest sep rest))) := by
      rw [sep_text]
      simp only [Line.text, List.append_assoc]
      rfl
    rw [e] at ht
    simp only [List.cons.injEq] at ht
    obtain ⟨rfl, rfl⟩ := ht
    have hk' : k + 1 ≤ 8 := hk
    refine ⟨_, hleft, Or.inr ⟨rfl, rfl, { p with origin := dotted (n.name ctx.origin), ostack := p.origin :: p.ostack, height := p.height + 1 },
      ⟨rfl, ?_, hp.ttl, hp.serial, ?_, ?_, name_originOk h3.ok hp.originOk h4, ?_⟩, ?_⟩⟩
    · show p.origin :: p.ostack = (ctx.origin :: ctx.stack).map dotted
      rw [hp.origin, hp.stack]
      rfl
    · show p.height + 1 = k + 1
      rw [hp.height]
    · show ctx.stack.length + 1 ≤ k + 1
      have := hp.depth
      omega
    · intro o ho
      rcases List.mem_cons.mp ho with rfl | ho
      · exact hp.originOk
      · exact hp.stackOk o ho
    · exact hslash _ _ rfl (slash_push hs files p (by rw [hp.height]; omega) ctx.origin hp.originOk hp.origin g h2 h1 n sep.first hsep.first h3
        (sepRest sep rest))
  | pop =>
    obtain ⟨h1, h2⟩ := hl
    have ht : Line.pop.text ++ (sep.text ++ rest) = 47 :: 111 :: 112 :: 111 :: 112 :: (sep.first.text ++ sepRest sep rest) := by
      rw [sep_text]
      rfl
    rw [e] at ht
    simp only [List.cons.injEq] at ht
    obtain ⟨rfl, rfl⟩ := ht
    obtain ⟨o, st, hst⟩ := List.exists_cons_of_ne_nil h1
    have hd := hp.depth
    rw [hst] at hd
    simp only [List.length_cons] at hd
    have hk' : k ≤ 8 := by simpa [Line.isPush] using hk
    have estep : step serial ctx .pop = ({ ctx with origin := o, stack := st }, []) := by simp [step, hst]
    refine ⟨_, hleft, Or.inr ⟨rfl, by rw [estep], { p with origin := dotted o, ostack := st.map dotted }, ?_, ?_⟩⟩
    · rw [estep]
      exact ⟨rfl, rfl, hp.ttl, hp.serial, hp.height, by show st.length ≤ k + 0; omega, hp.stackOk o (by rw [hst]; simp),
        fun x hx => hp.stackOk x (by rw [hst]; simp [hx])⟩
    · exact hslash _ _ rfl (slash_pop hs files p (by rw [hp.height]; omega) (dotted o) (st.map dotted) (by rw [hp.stack, hst]; rfl) sep.first
        hsep.first h2 (sepRest sep rest))

/-- All lines. -/
theorem lines_run (files : List UInt8 → Option (List UInt8)) (serial : Nat) (hser : serial < 2 ^ 32) (tilde : Bool) :
    ∀ (l : List (Line × Sep)) (p : Ps) (ctx : Ctx) (k m fuel left : Nat) (s0 : Stream), LinesOk serial tilde ctx l → PsOk p ctx serial k →
      Style m tilde → (∀ x r, l = x :: r → x.1.isFree = true → m ≠ 102) → k + l.countP (fun x => x.1.isPush) ≤ 8 → l.length < fuel →
      l.countP (fun x => x.1.isRecord) < left → Ready m (l.flatMap fun x => x.1.text ++ x.2.text) s0 →
      parse files fuel left p s0 = .ok (.read ((entries serial ctx l).map toEntry)) := by
  intro l
  induction l with
  | nil =>
    intro p ctx k m fuel left s0 _ _ _ _ _ hfu hle hr
    obtain ⟨fuel, rfl⟩ : ∃ f, fuel = f + 1 := ⟨fuel - 1, by simp at hfu; omega⟩
    obtain ⟨left, rfl⟩ : ∃ f, left = f + 1 := ⟨left - 1, by simp at hle; omega⟩
    obtain ⟨s2, h2⟩ := hr.1 rfl
    rw [parse, readRr, h2]
    rfl
  | cons x r ihr =>
    intro p ctx k m fuel left s0 hok hp hst hfree hk hfu hle hr
    obtain ⟨l, sep⟩ := x
    obtain ⟨fuel, rfl⟩ : ∃ f, fuel = f + 1 := ⟨fuel - 1, by simp at hfu; omega⟩
    obtain ⟨left, rfl⟩ : ∃ f, left = f + 1 := ⟨left - 1, by omega⟩
    obtain ⟨h1, h2, h3, h4, h5, h6⟩ := hok
    subst h3
    simp only [List.countP_cons, List.length_cons] at hk hfu hle
    have hm2 : m ≠ 2 := by
      unfold Style at hst
      split_ifs at hst <;> omega
    have h103 : m = 103 → sep.tilde = true := by
      intro h
      unfold Style at hst
      split_ifs at hst with ht
      · exact ht
      · omega
    have hr' : Ready m (l.text ++ (sep.text ++ r.flatMap fun x => x.1.text ++ x.2.text)) s0 := by
      simpa [List.flatMap_cons] using hr
    have hk1 : k + (if l.isPush then 1 else 0) ≤ 8 := by
      split_ifs at hk ⊢ <;> omega
    obtain ⟨s1, hleft, hres⟩ := line_run files hp hser h1 h2 h5 (fun h => ⟨hm2, hfree _ _ rfl h⟩) h103 hk1 hr'
    have hne : (r.flatMap fun x => x.1.text ++ x.2.text) ≠ [] → r ≠ [] := by
      rintro h rfl
      exact h rfl
    have hready := left_ready hleft h2 (fun h => h4 (hne h)) hst
    rcases hres with ⟨hrec, hctx, e, he, hrr⟩ | ⟨hrec, he, p', hp', hrr⟩
    · have hpush : l.isPush = false := by cases l <;> first | rfl | cases hrec
      rw [hctx] at h6
      have ih := ihr p ctx k (nextMode m sep.tilde) fuel left s1 h6 hp (style_next hst)
        (fun _ _ _ _ => (nextMode_ne _ _).2) (by simpa [hpush] using hk) (by omega) (by rw [hrec] at hle; simpa using hle) hready
      rw [parse, hrr]
      simp only [ih]
      rw [entries, he, hctx]
      rfl
    · have ih := ihr p' (step serial ctx l).1 (k + (if l.isPush then 1 else 0)) (nextMode m sep.tilde) fuel
        (left + 1) s1 h6 hp' (style_next hst) (fun _ _ _ _ => (nextMode_ne _ _).2) (by omega) (by omega)
        (by rw [hrec] at hle; simpa using hle) hready
      rw [parse, hrr]
      simp only [ih]
      rw [entries, he]
      rfl

end Csv2
end Mara
