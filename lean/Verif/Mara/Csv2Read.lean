import Verif.Mara.Csv2Model
import Verif.Spec.ZoneText
import Mathlib.Tactic.SplitIfs
/-!
# Lemmas: reading fields of zone files

How `get1st`, `something` and the others run over text.
-/

namespace Mara
namespace Csv2

open Dw (Res)
open Spec.ZoneText (Piece Gap pieces)

theorem bind_ok {α β : Type} {x : P α} {f : α → P β} {s s' : Stream} {a : α} (h : x s = .ok (some a, s')) :
    (x >>= f) s = f a s' := by
  show (match x s with | .ok (some a, s) => f a s | .ok (none, s) => .ok (none, s) | .err => .err | .ub => .ub) = _
  rw [h]

theorem bind_none {α β : Type} {x : P α} {f : α → P β} {s s' : Stream} (h : x s = .ok (none, s')) :
    (x >>= f) s = .ok (none, s') := by
  show (match x s with | .ok (some a, s) => f a s | .ok (none, s) => .ok (none, s) | .err => .err | .ub => .ub) = _
  rw [h]

theorem bind_get {β : Type} {f : Stream → P β} {s : Stream} : (get >>= f) s = f s s := rfl

theorem bind_pure' {α β : Type} {f : α → P β} {a : α} {s : Stream} : ((pure a : P α) >>= f) s = f a s := rfl

theorem pure_run {α : Type} {a : α} {s : Stream} : (pure a : P α) s = .ok (some a, s) := rfl

theorem bind_modify {β : Type} {f : Unit → P β} {g : Stream → Stream} {s : Stream} : (modify g >>= f) s = f () (g s) := rfl

theorem bind_orDie {α β : Type} {x : Option α} {f : α → P β} {a : α} {s : Stream} (h : x = some a) :
    (orDie x >>= f) s = f a s := by subst h; rfl

theorem bind_orFail {α β : Type} {x : Option α} {f : α → P β} {a : α} {s : Stream} (h : x = some a) :
    (orFail x >>= f) s = f a s := by subst h; rfl

/-- The same stream further on. -/
def Stream.here (s : Stream) (j : UInt8) (r : List UInt8) : Stream := { s with justread := j.toNat, input := r }

/-- A file is being read, and it is the only one. -/
structure Plain (s : Stream) : Prop where
  isOpen : s.isOpen = true
  newline : s.newline = false
  stack : s.stack = []
  seen : s.tildeSeen < 10

theorem here_here (s : Stream) (j k : UInt8) (a b : List UInt8) : (s.here j a).here k b = s.here k b := rfl

theorem Plain.here {s : Stream} (h : Plain s) (j : UInt8) (r : List UInt8) : Plain (s.here j r) :=
  ⟨h.isOpen, h.newline, h.stack, h.seen⟩

theorem just_here {s : Stream} (h : Plain s) (j : UInt8) (r : List UInt8) : (s.here j r).just = (j.toNat : Int) := by
  simp [Stream.just, Stream.here, h.isOpen]

theorem readChar_here {s : Stream} (h : Plain s) (j c : UInt8) (r : List UInt8) (h1 : c ≠ 123) (h2 : c ≠ 126) :
    readChar (s.here j (c :: r)) = ((c.toNat : Int), s.here c r) := by
  simp [readChar, Stream.here, h.isOpen, h.newline, h.stack, popEmpty, h1, h2]

theorem readUnicode_here {s : Stream} (h : Plain s) (j c : UInt8) (r : List UInt8) (h1 : c ≠ 123) (h2 : c ≠ 126)
    (h3 : c.toNat < 128) : readUnicode (s.here j (c :: r)) = .ok (some (c.toNat : Int), s.here c r) := by
  have h4 : ¬ ((c.toNat : Int) < 0) := by omega
  have h5 : ¬ ((c.toNat : Int) > 0x7f) := by omega
  simp [readUnicode, readChar_here h j c r h1 h2, h4, h5]

/-- The end of the file. -/
theorem readUnicode_end {s : Stream} (h : Plain s) (j : UInt8) : readUnicode (s.here j []) = .ok (some (-2), s.here j []) := by
  simp [readUnicode, readChar, Stream.here, h.isOpen, h.newline, h.stack, popEmpty]

/-- Where tildes may be read. -/
def Stream.tilde (s : Stream) : Stream := { s with tildeSeen := s.tildeSeen + 1 }

theorem readUnicode_tilde {s : Stream} (h : Plain s) (ht : s.tildeOk = true) (j : UInt8) (r : List UInt8) :
    readUnicode (s.here j (126 :: r)) = .ok (some 126, s.tilde.here 126 r) := by
  simp [readUnicode, readChar, Stream.here, Stream.tilde, h.isOpen, h.newline, h.stack, popEmpty, ht, h.seen]

/-! ## Comments and gaps -/

theorem readChar_comment {s : Stream} (h : Plain s) (ht : s.tildeOk = true) (j c : UInt8) (r : List UInt8) (h1 : c ≠ 123) :
    (let (d, s) := readChar (s.here j (c :: r));
      ((d, if d = 126 then { s with tildeSeen := s.tildeSeen - 1 } else s) : Int × Stream)) =
      ((c.toNat : Int), s.here c r) := by
  by_cases h2 : c = 126
  · subst h2
    simp [readChar, Stream.here, h.isOpen, h.newline, h.stack, popEmpty, h.seen, ht]
  · have h3 : ¬ ((c.toNat : Int) = 126) := by
      intro h3
      exact h2 (UInt8.toNat_inj.mp (show c.toNat = 126 by omega))
    simp only [readChar_here h j c r h1 h2, h3, if_false]

theorem commentLoop_run {s : Stream} (h : Plain s) (ht : s.tildeOk = true) (e : UInt8) (he : e = 10 ∨ e = 13) :
    ∀ (t : List UInt8) (n : Nat) (j : UInt8) (r : List UInt8), t.length < n → (∀ c ∈ t, c ≠ 10 ∧ c ≠ 13 ∧ c ≠ 123) →
      commentLoop n (s.here j (t ++ e :: r)) = (true, s.here e r)
  | [], n + 1, j, r, _, _ => by
    have h1 : e ≠ 123 := by rcases he with rfl | rfl <;> decide
    have h2 : e ≠ 126 := by rcases he with rfl | rfl <;> decide
    rw [commentLoop]
    simp only [List.nil_append, readChar_here h j e r h1 h2]
    rcases he with rfl | rfl <;> simp
  | c :: t, n + 1, j, r, hn, hc => by
    obtain ⟨hc1, hc2, hc3⟩ := hc c (by simp)
    have ih := commentLoop_run h ht e he t n c r (by simpa using hn) (fun d hd => hc d (by simp [hd]))
    have hr := readChar_comment h ht j c (t ++ e :: r) hc3
    have e1 : ¬ ((c.toNat : Int) = 10 ∨ (c.toNat : Int) = 13 ∨ (c.toNat : Int) = -2) := by
      intro hx
      rcases hx with hx | hx | hx
      · exact hc1 (UInt8.toNat_inj.mp (show c.toNat = 10 by omega))
      · exact hc2 (UInt8.toNat_inj.mp (show c.toNat = 13 by omega))
      · omega
    rw [commentLoop]
    simp only [List.cons_append]
    generalize readChar (s.here j (c :: (t ++ e :: r))) = x at hr
    obtain ⟨d, s'⟩ := x
    simp only [Prod.mk.injEq] at hr
    obtain ⟨rfl, hr⟩ := hr
    simp only [hr, e1, if_false]
    exact ih

theorem comment_run {s : Stream} (h : Plain s) (j e : UInt8) (he : e = 10 ∨ e = 13) (t r : List UInt8)
    (hl : t.length ≤ 4998) (hc : ∀ c ∈ t, c ≠ 10 ∧ c ≠ 13 ∧ c ≠ 123) :
    comment (s.here j (t ++ e :: r)) = .ok (some (), s.here e r) := by
  have hp : Plain { s with tildeOk := true } := ⟨h.isOpen, h.newline, h.stack, h.seen⟩
  have := commentLoop_run hp rfl e he t 4999 j r (by omega) hc
  simp only [comment]
  have e1 : ({ s.here j (t ++ e :: r) with tildeOk := true } : Stream) =
      Stream.here { s with tildeOk := true } j (t ++ e :: r) := rfl
  rw [e1, this]
  rfl

/-- The last byte of a piece. -/
def last : Piece → UInt8
  | .blank c => c
  | .pipe => 124
  | .comment _ e => e

/-- What may follow a gap is not part of one. -/
def Skips (isOk : Int → Bool) : Prop := ∀ c ∈ [(9 : Int), 10, 13, 32, 35, 123, 124, 126], isOk c = false

theorem Skips.ne {isOk : Int → Bool} (h : Skips isOk) {c : UInt8} (hc : isOk c.toNat = true) :
    c ≠ 9 ∧ c ≠ 10 ∧ c ≠ 13 ∧ c ≠ 32 ∧ c ≠ 35 ∧ c ≠ 123 ∧ c ≠ 124 ∧ c ≠ 126 := by
  refine ⟨?_, ?_, ?_, ?_, ?_, ?_, ?_, ?_⟩ <;> rintro rfl
  · exact absurd hc (by rw [show (((9 : UInt8).toNat : Nat) : Int) = 9 from rfl, h 9 (by simp)]; decide)
  · exact absurd hc (by rw [show (((10 : UInt8).toNat : Nat) : Int) = 10 from rfl, h 10 (by simp)]; decide)
  · exact absurd hc (by rw [show (((13 : UInt8).toNat : Nat) : Int) = 13 from rfl, h 13 (by simp)]; decide)
  · exact absurd hc (by rw [show (((32 : UInt8).toNat : Nat) : Int) = 32 from rfl, h 32 (by simp)]; decide)
  · exact absurd hc (by rw [show (((35 : UInt8).toNat : Nat) : Int) = 35 from rfl, h 35 (by simp)]; decide)
  · exact absurd hc (by rw [show (((123 : UInt8).toNat : Nat) : Int) = 123 from rfl, h 123 (by simp)]; decide)
  · exact absurd hc (by rw [show (((124 : UInt8).toNat : Nat) : Int) = 124 from rfl, h 124 (by simp)]; decide)
  · exact absurd hc (by rw [show (((126 : UInt8).toNat : Nat) : Int) = 126 from rfl, h 126 (by simp)]; decide)

theorem toNat_ne {c d : UInt8} (h : c ≠ d) : (c.toNat : Int) ≠ (d.toNat : Int) := by
  intro he
  exact h (UInt8.toNat_inj.mp (by exact_mod_cast he))

theorem ne35 {c : UInt8} (h : c ≠ 35) : ¬ ((c.toNat : Int) = 35) := toNat_ne h

/-- One turn over a piece of a gap. -/
theorem firstLoop_piece {s : Stream} (h : Plain s) {isOk : Int → Bool} (sk : Skips isOk) (opt : Nat) (p : Piece) (hp : p.Ok)
    (n : Nat) (last0 : Int) (pipe : Bool) (hpipe : p.isPipe = true → pipe = false) (j : UInt8) (r : List UInt8) :
    firstLoop isOk opt (n + 1) last0 pipe (s.here j (p.text ++ r)) =
      firstLoop isOk opt n (if p.isComment then 10 else (last p).toNat) (pipe || p.isPipe) (s.here (last p) r) := by
  cases p with
  | blank c =>
    rw [firstLoop]
    have hk : isOk c.toNat = false := by
      rcases hp with rfl | rfl | rfl | rfl
      · exact sk 9 (by simp)
      · exact sk 10 (by simp)
      · exact sk 13 (by simp)
      · exact sk 32 (by simp)
    have hr : readUnicode (s.here j (c :: r)) = .ok (some (c.toNat : Int), s.here c r) := by
      refine readUnicode_here h j c r ?_ ?_ ?_ <;> rcases hp with rfl | rfl | rfl | rfl <;> decide
    simp only [Piece.text, List.cons_append, List.nil_append]
    rw [bind_ok hr, bind_get]
    simp only [hk, Piece.isComment, Piece.isPipe, Bool.or_false, last]
    rcases hp with rfl | rfl | rfl | rfl <;> simp [isDelim]
  | pipe =>
    rw [firstLoop]
    have hr : readUnicode (s.here j (124 :: r)) = .ok (some 124, s.here 124 r) :=
      readUnicode_here h j 124 r (by decide) (by decide) (by decide)
    simp only [Piece.text, List.cons_append, List.nil_append]
    rw [bind_ok hr, bind_get, hpipe rfl]
    simp [sk 124 (by simp), Piece.isComment, Piece.isPipe, last]
  | comment t e =>
    obtain ⟨he, hl, hc⟩ := hp
    rw [firstLoop]
    have hr : readUnicode (s.here j (35 :: (t ++ e :: r))) = .ok (some 35, s.here 35 (t ++ e :: r)) :=
      readUnicode_here h j 35 _ (by decide) (by decide) (by decide)
    simp only [Piece.text, List.cons_append, List.append_assoc, List.nil_append]
    rw [bind_ok hr, bind_get]
    simp only [show ((35 : Int) = -164) = False by simp, show ((35 : Int) = -2) = False by simp, if_true, if_false]
    rw [bind_ok (comment_run h 35 e he t r hl hc)]
    simp [Piece.isComment, Piece.isPipe, last]

/-- Running over the pieces of a gap. -/
theorem firstLoop_pieces {s : Stream} (h : Plain s) {isOk : Int → Bool} (sk : Skips isOk) (opt : Nat) :
    ∀ (l : List Piece) (n : Nat) (last0 : Int) (pipe : Bool) (j : UInt8) (r : List UInt8),
      (∀ p ∈ l, p.Ok) → l.countP Piece.isPipe + pipe.toNat ≤ 1 →
      ∃ last1 pipe1 j1, firstLoop isOk opt (n + l.length) last0 pipe (s.here j (pieces l ++ r)) =
        firstLoop isOk opt n last1 pipe1 (s.here j1 r) ∧
        (∀ p, l.getLast? = some p → last1 = if p.isComment then 10 else ((last p).toNat : Int)) ∧
        (l = [] → last1 = last0) ∧ pipe1.toNat = l.countP Piece.isPipe + pipe.toNat ∧
        j1 = (l.getLast?.map last).getD j
  | [], n, last0, pipe, j, r, _, _ => ⟨last0, pipe, j, by simp [pieces], by simp, by simp, by simp, by simp⟩
  | p :: l, n, last0, pipe, j, r, hok, hpipe => by
    have h1 : p.isPipe = true → pipe = false := by
      intro hp
      rw [List.countP_cons, hp] at hpipe
      cases pipe
      · rfl
      · simp at hpipe
    have hcount : (pipe || p.isPipe).toNat = pipe.toNat + p.isPipe.toNat := by
      cases hp : p.isPipe
      · simp
      · rw [h1 hp]; rfl
    have hcp : (p :: l).countP Piece.isPipe = l.countP Piece.isPipe + p.isPipe.toNat := by
      rw [List.countP_cons]
      cases p.isPipe <;> rfl
    obtain ⟨last1, pipe1, j1, e1, e2, e3, e4, e5⟩ := firstLoop_pieces h sk opt l n
      (if p.isComment then 10 else ((last p).toNat : Int)) (pipe || p.isPipe) (last p) r
      (fun q hq => hok q (by simp [hq])) (by omega)
    refine ⟨last1, pipe1, j1, ?_, ?_, by simp, by omega, ?_⟩
    · have hp' : pieces (p :: l) ++ r = p.text ++ (pieces l ++ r) := by simp [pieces]
      rw [hp', ← e1, List.length_cons, ← Nat.add_assoc]
      exact firstLoop_piece h sk opt p (hok p (by simp)) (n + l.length) last0 pipe h1 j _
    · intro q hq
      cases l with
      | nil => simp at hq; subst hq; exact e3 rfl
      | cons a l => exact e2 q (by simpa using hq)
    · rw [e5]
      cases l with
      | nil => simp
      | cons a l => simp [List.getLast?_cons]

theorem firstLoop_found {s : Stream} (h : Plain s) {isOk : Int → Bool} (sk : Skips isOk) (c : UInt8) (hc : isOk c.toNat = true)
    (hl : c.toNat < 128) (n : Nat) (last0 : Int) (pipe : Bool) (j : UInt8) (r : List UInt8) :
    firstLoop isOk 0 (n + 1) last0 pipe (s.here j (c :: r)) = .ok (some 1, s.here c r) := by
  obtain ⟨_, _, _, _, n5, n6, _, n8⟩ := sk.ne hc
  rw [firstLoop, bind_ok (readUnicode_here h j c r n6 n8 hl), bind_get, if_neg (by omega), if_neg (by omega),
    if_neg (ne35 n5), if_pos ⟨by decide, hc⟩]
  rfl

theorem last_delim {p : Piece} (hp : p.Ok) : last p = 9 ∨ last p = 10 ∨ last p = 13 ∨ last p = 32 ∨ last p = 124 := by
  cases p with
  | blank c => rcases hp with h | h | h | h <;> simp [last, h]
  | pipe => simp [last]
  | comment t e => rcases hp.1 with h | h <;> simp [last, h]

/-- The first byte after a gap. -/
theorem get1st_gap {s : Stream} (h : Plain s) {isOk : Int → Bool} (sk : Skips isOk) (g : Gap) (hg : g.Ok) (c : UInt8)
    (hc : isOk c.toNat = true) (hl : c.toNat < 128) (r : List UInt8) :
    get1st isOk 0 (s.here (last g.first) (pieces g.rest ++ c :: r)) = .ok (some 1, s.here c r) := by
  have hd := last_delim hg.first
  have hk : isOk (last g.first).toNat = false := by
    rcases hd with h | h | h | h | h <;> rw [h]
    · exact sk 9 (by simp)
    · exact sk 10 (by simp)
    · exact sk 13 (by simp)
    · exact sk 32 (by simp)
    · exact sk 124 (by simp)
  have hdel : isDelim (last g.first).toNat = true := by rcases hd with h | h | h | h | h <;> rw [h] <;> decide
  have hbig : ¬ (((last g.first).toNat : Int) > 127) := by rcases hd with h | h | h | h | h <;> rw [h] <;> decide
  have hpipe : (decide (((last g.first).toNat : Int) = 124)) = g.first.isPipe := by
    cases hf : g.first with
    | blank c =>
      have := hg.first
      rw [hf] at this
      rcases this with rfl | rfl | rfl | rfl <;> simp [last, Piece.isPipe]
    | pipe => simp [last, Piece.isPipe]
    | comment t e =>
      have := hg.first
      rw [hf] at this
      rcases this.1 with rfl | rfl <;> simp [last, Piece.isPipe]
  obtain ⟨last1, pipe1, j1, e1, _⟩ := firstLoop_pieces h sk 0 g.rest (10000 - g.rest.length) ((last g.first).toNat : Int)
    g.first.isPipe (last g.first) (c :: r) hg.rest (by
      have := hg.pipes
      rw [List.countP_cons] at this
      cases hq : g.first.isPipe <;> simp [hq] at this ⊢ <;> omega)
  have hsh := hg.short
  rw [show 10000 - g.rest.length + g.rest.length = 10000 by omega] at e1
  rw [get1st, bind_get, just_here h, if_neg hbig, hk, hdel, hpipe, if_neg (by simp), if_neg (by simp), if_neg (by simp),
    if_neg (by simp), if_neg (by simp)]
  simp only []
  rw [e1, show 10000 - g.rest.length = (9999 - g.rest.length) + 1 by omega]
  exact firstLoop_found h sk c hc hl _ _ _ _ _

/-! ## Words and numbers -/

theorem appendUtf8_ascii {o : List UInt8} (c : UInt8) (hl : c.toNat < 128) (ho : o.length < 256) :
    appendUtf8 256 o c.toNat = some (o ++ [c]) := by
  have h1 : ¬ ((c.toNat : Int) < 0) := by omega
  have h2 : (c.toNat : Int) < 0x80 := by omega
  have h3 : ¬ (o.length + 1 > 256) := by omega
  simp only [appendUtf8, utf8Bytes, h1, h2, if_true, if_false, Int.toNat_natCast, UInt8.ofNat_toNat, List.length_singleton, h3]

theorem process1st_run {s : Stream} (h : Plain s) {isOk : Int → Bool} (pre : List UInt8) (hpre : pre.length < 256) (c : UInt8)
    (hc : isOk c.toNat = true) (hl : c.toNat < 128) (r : List UInt8) :
    process1st isOk pre (s.here c r) = .ok (some (pre ++ [c]), s.here c r) := by
  rw [process1st, bind_get, just_here h]
  simp only []
  rw [if_neg (by omega), if_neg (by omega), bind_pure', if_neg (by omega), if_neg (by simp [hc]), appendUtf8_ascii c hl hpre]
  rfl

/-- The piece that ends a word. -/
theorem someLoop_piece {s : Stream} (h : Plain s) {isOk : Int → Bool} (sk : Skips isOk) (p : Piece) (hp : p.Ok) (n : Nat)
    (o : List UInt8) (j : UInt8) (r : List UInt8) :
    someLoop isOk (n + 1) o (s.here j (p.text ++ r)) = .ok (some o, s.here (last p) r) := by
  cases p with
  | blank c =>
    have hk : isOk c.toNat = false := by
      rcases hp with rfl | rfl | rfl | rfl
      · exact sk 9 (by simp)
      · exact sk 10 (by simp)
      · exact sk 13 (by simp)
      · exact sk 32 (by simp)
    have hr : readUnicode (s.here j (c :: r)) = .ok (some (c.toNat : Int), s.here c r) := by
      refine readUnicode_here h j c r ?_ ?_ ?_ <;> rcases hp with rfl | rfl | rfl | rfl <;> decide
    simp only [Piece.text, List.cons_append, List.nil_append]
    rw [someLoop, bind_ok hr]
    simp only [hk, last]
    rcases hp with rfl | rfl | rfl | rfl <;> simp [isDelim, pure_run]
  | pipe =>
    have hr : readUnicode (s.here j (124 :: r)) = .ok (some 124, s.here 124 r) :=
      readUnicode_here h j 124 r (by decide) (by decide) (by decide)
    simp only [Piece.text, List.cons_append, List.nil_append]
    rw [someLoop, bind_ok hr]
    simp [sk 124 (by simp), last, isDelim, pure_run]
  | comment t e =>
    obtain ⟨he, hl, hc⟩ := hp
    have hr : readUnicode (s.here j (35 :: (t ++ e :: r))) = .ok (some 35, s.here 35 (t ++ e :: r)) :=
      readUnicode_here h j 35 _ (by decide) (by decide) (by decide)
    simp only [Piece.text, List.cons_append, List.append_assoc, List.nil_append]
    rw [someLoop, bind_ok hr]
    simp only [show ((35 : Int) = -164) = False by simp, if_true, if_false]
    rw [bind_ok (comment_run h 35 e he t r hl hc)]
    rfl

theorem someLoop_run {s : Stream} (h : Plain s) {isOk : Int → Bool} (sk : Skips isOk) (p : Piece) (hp : p.Ok) :
    ∀ (t : List UInt8) (n : Nat) (o : List UInt8) (j : UInt8) (r : List UInt8), t.length < n → o.length + t.length ≤ 256 →
      (∀ c ∈ t, isOk c.toNat = true ∧ c.toNat < 128) →
      someLoop isOk n o (s.here j (t ++ (p.text ++ r))) = .ok (some (o ++ t), s.here (last p) r)
  | [], n + 1, o, j, r, _, _, _ => by simpa using someLoop_piece h sk p hp n o j r
  | c :: t, n + 1, o, j, r, hn, ho, hc => by
    obtain ⟨hc1, hc2⟩ := hc c (by simp)
    obtain ⟨_, _, _, _, n5, n6, _, n8⟩ := sk.ne hc1
    have ih := someLoop_run h sk p hp t n (o ++ [c]) c r (by simpa using hn) (by simp at ho ⊢; omega)
      (fun d hd => hc d (by simp [hd]))
    rw [someLoop, List.cons_append, bind_ok (readUnicode_here h j c _ n6 n8 hc2), if_neg (by omega), if_neg (ne35 n5),
      if_neg (by simp [hc1]), if_pos hc1, bind_orDie (appendUtf8_ascii c hc2 (by simp at ho; omega)), ih]
    simp

theorem something_run {s : Stream} (h : Plain s) {isOk : Int → Bool} (sk : Skips isOk) (p : Piece) (hp : p.Ok) (c : UInt8)
    (t : List UInt8) (r : List UInt8) (hl : (c :: t).length ≤ 256) (hc : ∀ d ∈ c :: t, isOk d.toNat = true ∧ d.toNat < 128) :
    something isOk (s.here c (t ++ (p.text ++ r))) = .ok (some (c :: t), s.here (last p) r) := by
  obtain ⟨hc1, hc2⟩ := hc c (by simp)
  rw [something, bind_ok (process1st_run h [] (by simp) c hc1 hc2 _),
    someLoop_run h sk p hp t 257 _ c r (by simp at hl; omega) (by simp at hl ⊢; omega) (fun d hd => hc d (by simp [hd]))]
  rfl

end Csv2
end Mara
