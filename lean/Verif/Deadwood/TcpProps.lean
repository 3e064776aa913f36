import Verif.Deadwood.TcpModel
import Verif.Spec.Packed
/-!
# C44: TCP messages are framed

A message on TCP is its length in two bytes followed by its bytes (RFC 1035 4.2.2).
-/

namespace Dw
namespace Tcp
open Spec

/-- A message as it goes over TCP. -/
def framed (m : List UInt8) : List UInt8 := be16 m.length ++ m

theorem malloc_length (n : Nat) (junk : List UInt8) : (malloc n junk).length = n := by
  simp [malloc]

theorem blit_ok {b l : List UInt8} {o : Nat} (h : o + l.length ≤ b.length) :
    ∃ b', blit b o l = .ok b' ∧ b'.length = b.length ∧ b'.take (o + l.length) = b.take o ++ l := by
  refine ⟨b.take o ++ l ++ b.drop (o + l.length), if_pos h, ?_, ?_⟩
  · simp; omega
  · have : (b.take o ++ l).length = o + l.length := by simp; omega
    rw [← this, List.take_left' rfl]

/-- `g` bytes of `w` wanted ones have been read from `src`. -/
structure Reading (src : List UInt8) (w g : Nat) (c : Conn) : Prop where
  state : c.state = 0
  wanted : c.wanted = w
  got : c.got = g
  lt : g < w
  le : w ≤ src.length
  buf : ∃ b, c.buf = some b ∧ b.length = w + 1 ∧ b.take g = src.take g

/-- Number of turns at which something is there to read. -/
def gives : List (Ev × Nat) → Nat
  | [] => 0
  | (.give (_ + 1), _) :: es => gives es + 1
  | _ :: es => gives es

/-- 1 if there is something to read. -/
def giveOf : Ev → Nat
  | .give (_ + 1) => 1
  | _ => 0

theorem gives_cons (e : Ev) (t : Nat) (es : List (Ev × Nat)) :
    gives ((e, t) :: es) = giveOf e + gives es := by
  cases e with
  | again => simp [gives, giveOf]
  | eof => simp [gives, giveOf]
  | give n => cases n <;> simp [gives, giveOf, Nat.add_comm]

/-- One read. -/
theorem getWanted_reading {src : List UInt8} {w g : Nat} {c : Conn} (h : Reading src w g c)
    (ev : Ev) (now limit : Nat) :
    ∃ g' c', getWanted (recv ev (w - g) (src.drop g)).1 now limit c = .ok c' ∧
      (recv ev (w - g) (src.drop g)).2 = src.drop g' ∧ g + giveOf ev ≤ g' ∧ g' ≤ w ∧
      c'.state = 0 ∧ c'.wanted = w ∧ c'.got = g' ∧
      ∃ b, c'.buf = some b ∧ b.length = w + 1 ∧ b.take g' = src.take g' := by
  obtain ⟨hs, hw, hg, hlt, hle, b, hb, hbl, hbt⟩ := h
  have hc : c.got < c.wanted ∧ c.state = 0 := ⟨by omega, hs⟩
  have key : ∀ k, 0 ≤ k → k ≤ w - g → ∃ c', getWanted (some ((src.drop g).take k)) now limit c = .ok c' ∧
      c'.state = 0 ∧ c'.wanted = w ∧ c'.got = g + k ∧
      ∃ b, c'.buf = some b ∧ b.length = w + 1 ∧ b.take (g + k) = src.take (g + k) := by
    intro k _ hk
    have hl : ((src.drop g).take k).length = k := by simp; omega
    obtain ⟨b', e, el, et⟩ := blit_ok (b := b) (l := (src.drop g).take k) (o := c.got)
      (by rw [hl]; omega)
    refine ⟨{ c with buf := some b', got := c.got + ((src.drop g).take k).length, die := now + limit },
      ?_, ?_, ?_, ?_, b', ?_, by omega, ?_⟩
    · simp only [getWanted, if_pos hc, hb]
      rw [if_neg (by rw [hl]; omega), e, Res.ok_bind]
    · exact hs
    · exact hw
    · show c.got + _ = _
      rw [hl, hg]
    · rfl
    · rw [hl, hg] at et
      rw [et, hbt, List.take_add]
  cases ev with
  | again =>
    refine ⟨g, c, ?_, rfl, by simp [giveOf], by omega, hs, hw, hg, b, hb, hbl, hbt⟩
    simp [recv, getWanted, hc]
  | eof =>
    obtain ⟨c', e, h1, h2, h3, h4⟩ := key 0 (by omega) (by omega)
    refine ⟨g, c', ?_, rfl, by simp [giveOf], by omega, h1, h2, h3, h4⟩
    simpa [recv] using e
  | give n =>
    by_cases h0 : min n (min (w - g) (src.drop g).length) = 0
    · have hn : n = 0 := by simp at h0; omega
      refine ⟨g, c, ?_, ?_, by simp [giveOf, hn], by omega, hs, hw, hg, b, hb, hbl, hbt⟩
      · simp only [recv, if_pos h0, getWanted, if_pos hc]
      · simp only [recv]; rw [if_pos h0]
    · obtain ⟨c', e, h1, h2, h3, h4⟩ := key (min n (w - g)) (by omega) (by omega)
      refine ⟨g + min n (w - g), c', ?_, ?_, ?_, by omega, h1, h2, h3, h4⟩
      · simp only [recv, if_neg h0]; exact e
      · simp only [recv, if_neg h0, List.drop_drop]
      · cases n with
        | zero => simp at h0
        | succ n => simp [giveOf]; omega

/-- One turn: read, and only what is next when all is there is left open. -/
theorem turn_reading {src : List UInt8} {w g : Nat} {c : Conn} (h : Reading src w g c)
    (signed : Bool) (ev : Ev) (now limit : Nat) (junk : List UInt8) :
    (∃ g' c', turn signed limit junk ev now c (src.drop g) = .ok (.wait c', src.drop g') ∧
      g + giveOf ev ≤ g' ∧ Reading src w g' c') ∨
    (∃ c' b, c'.state = 0 ∧ c'.wanted = w ∧ c'.got = w ∧ c'.buf = some b ∧ b.length = w + 1 ∧
      b.take w = src.take w ∧
      turn signed limit junk ev now c (src.drop g) =
        (processData signed now limit junk c').bind (fun n => .ok (n, src.drop w))) := by
  obtain ⟨g', c', e, er, hg1, hg2, h1, h2, h3, b, hb, hbl, hbt⟩ := getWanted_reading h ev now limit
  have hc : c.got < c.wanted ∧ c.state = 0 := ⟨by rw [h.got, h.wanted]; exact h.lt, h.state⟩
  have ht : turn signed limit junk ev now c (src.drop g) =
      (processData signed now limit junk c').bind (fun n => .ok (n, src.drop g')) := by
    have hif : (if c.got < c.wanted ∧ c.state = 0 then recv ev (c.wanted - c.got) (src.drop g)
        else (none, src.drop g)) = recv ev (w - g) (src.drop g) := by
      rw [if_pos hc, h.wanted, h.got]
    simp only [turn, hif, e, er, Res.ok_bind]
    rfl
  by_cases hlt : g' < w
  · left
    refine ⟨g', c', ?_, hg1, ⟨h1, h2, h3, hlt, h.le, b, hb, hbl, hbt⟩⟩
    rw [ht, processData]
    simp only [hb, h2, h3]
    rw [if_pos (Or.inl (by omega))]
    rfl
  · right
    have : g' = w := by omega
    subst this
    exact ⟨c', b, h1, h2, h3, hb, hbl, hbt, ht⟩

theorem lenOf_ok {signed : Bool} {n : Nat} (hn : n < 65536)
    (hsig : signed = true → n < 32768 ∧ n % 256 < 128) :
    lenOf signed (UInt8.ofNat (n / 256)) (UInt8.ofNat n) = .ok (n : Int) := by
  have e0 : (UInt8.ofNat (n / 256)).toNat = n / 256 := by simp; omega
  have e1 : (UInt8.ofNat n).toNat = n % 256 := by simp
  simp only [lenOf, e0, e1]
  have hval : ((n / 256 : Nat) : Int) * 256 + ((n % 256 : Nat) : Int) = n := by omega
  cases signed with
  | false => rw [if_neg (by simp), hval]
  | true =>
    have := hsig rfl
    rw [if_pos rfl, if_neg (by omega), if_neg (by omega), hval]

/-- The first two bytes. -/
theorem header_bytes {b : List UInt8} {x y : UInt8} {t : List UInt8}
    (h : b.take 2 = ([x, y] ++ t).take 2) : b[0]? = some x ∧ b[1]? = some y := by
  cases b with
  | nil => simp at h
  | cons p b =>
    cases b with
    | nil => simp at h
    | cons q b => simp at h; simp [h.1, h.2]

/-- Reading the message itself. -/
theorem run_message (signed : Bool) (limit : Nat) (junk m rest : List UInt8) (hm : 12 ≤ m.length) :
    ∀ (evs : List (Ev × Nat)) (g : Nat) (c : Conn), Reading (m ++ rest) m.length g c →
      (∃ c', run signed limit junk evs c ((m ++ rest).drop g) = .ok (.query c' m, rest)) ∨
      (∃ c' s, run signed limit junk evs c ((m ++ rest).drop g) = .ok (.wait c', s) ∧
        gives evs + g < m.length)
  | [], g, c, h => Or.inr ⟨c, _, rfl, by simp [gives]; exact h.lt⟩
  | (ev, now) :: evs, g, c, h => by
    rcases turn_reading h signed ev now limit junk with ⟨g', c', e, hg, hr⟩ | ⟨c', b, h1, h2, h3, hb, hbl, hbt, e⟩
    · rcases run_message signed limit junk m rest hm evs g' c' hr with ⟨c2, h2⟩ | ⟨c2, s, h2, h3⟩
      · left
        refine ⟨c2, ?_⟩
        simp only [run, e, Res.ok_bind]
        exact h2
      · right
        refine ⟨c2, s, ?_, ?_⟩
        · simp only [run, e, Res.ok_bind]
          exact h2
        · rw [gives_cons]; omega
    · left
      refine ⟨c', ?_⟩
      have hp : processData signed now limit junk c' = .ok (.query c' m) := by
        simp only [processData, hb, h1, h2, h3]
        rw [if_neg (by simp), if_neg (by omega), if_pos hm, if_pos (by omega), hbt, List.take_left' rfl]
      simp only [run, e, hp]
      simp [Res.bind]

/-- Reading the length and then the message. -/
theorem run_framed (signed : Bool) (limit : Nat) (junk m rest : List UInt8) (hm : 12 ≤ m.length)
    (hm2 : m.length < 65536) (hsig : signed = true → m.length < 32768 ∧ m.length % 256 < 128) :
    ∀ (evs : List (Ev × Nat)) (g : Nat) (c : Conn), Reading (framed m ++ rest) 2 g c →
      (∃ c', run signed limit junk evs c ((framed m ++ rest).drop g) = .ok (.query c' m, rest)) ∨
      (∃ c' s, run signed limit junk evs c ((framed m ++ rest).drop g) = .ok (.wait c', s) ∧
        gives evs + g < m.length + 2)
  | [], g, c, h => Or.inr ⟨c, _, rfl, by have := h.lt; simp [gives]; omega⟩
  | (ev, now) :: evs, g, c, h => by
    rcases turn_reading h signed ev now limit junk with ⟨g', c', e, hg, hr⟩ | ⟨c', b, h1, h2, h3, hb, hbl, hbt, e⟩
    · rcases run_framed signed limit junk m rest hm hm2 hsig evs g' c' hr with ⟨c2, h2⟩ | ⟨c2, s, h2, h3⟩
      · left
        refine ⟨c2, ?_⟩
        simp only [run, e, Res.ok_bind]
        exact h2
      · right
        refine ⟨c2, s, ?_, ?_⟩
        · simp only [run, e, Res.ok_bind]
          exact h2
        · rw [gives_cons]; omega
    · have hsrc : framed m ++ rest =
          [UInt8.ofNat (m.length / 256), UInt8.ofNat m.length] ++ (m ++ rest) := by
        simp [framed, be16]
      rw [hsrc] at hbt
      obtain ⟨hb0, hb1⟩ := header_bytes hbt
      have hp : processData signed now limit junk c' = .ok (.wait { c' with
          got := 0, wanted := m.length, buf := some (malloc (m.length + 1) junk), die := now + limit }) := by
        simp only [processData, hb, h1, h2, h3, hb0, hb1]
        rw [if_neg (by simp), if_pos trivial, lenOf_ok hm2 hsig, Res.ok_bind, if_neg (by omega)]
        simp
      have hdrop : (framed m ++ rest).drop 2 = (m ++ rest).drop 0 := by
        rw [hsrc]; rfl
      have hread : Reading (m ++ rest) m.length 0 { c' with
          got := 0, wanted := m.length, buf := some (malloc (m.length + 1) junk), die := now + limit } :=
        ⟨h1, rfl, rfl, by omega, by simp, _, rfl, malloc_length _ _, by simp⟩
      have hlt := h.lt
      have hgv : giveOf ev ≤ 1 := by
        cases ev with
        | give n => cases n <;> simp [giveOf]
        | _ => simp [giveOf]
      rcases run_message signed limit junk m rest hm evs 0 _ hread with ⟨c2, h2⟩ | ⟨c2, s, h2, h3⟩
      · left
        refine ⟨c2, ?_⟩
        simp only [run, e, hp, hdrop]
        simpa [Res.bind] using h2
      · right
        refine ⟨c2, s, ?_, ?_⟩
        · simp only [run, e, hp, hdrop]
          simpa [Res.bind] using h2
        · rw [gives_cons]; omega

/-- **C44.**  However the stream is cut into pieces, and whenever nothing arrives, the query
that is worked on is the message the client sent, and nothing of what follows it is read.
Nothing is written outside the buffer (that would be `ub`).  Once there was something to read
at as many turns as the message has bytes (with its length), the query has been read.
For a `char` that is signed this needs a length below 32768 whose low byte is below 128. -/
theorem read_framed (signed : Bool) (limit now : Nat) (junk junk' m rest : List UInt8)
    (hm : 12 ≤ m.length) (hm2 : m.length < 65536)
    (hsig : signed = true → m.length < 32768 ∧ m.length % 256 < 128) (evs : List (Ev × Nat)) :
    (∃ c, run signed limit junk evs (accept now limit junk') (framed m ++ rest) = .ok (.query c m, rest)) ∨
    (∃ c s, run signed limit junk evs (accept now limit junk') (framed m ++ rest) = .ok (.wait c, s) ∧
      gives evs < m.length + 2) := by
  have := run_framed signed limit junk m rest hm hm2 hsig evs 0 (accept now limit junk')
    ⟨rfl, rfl, rfl, by omega, by simp [framed, be16], _, rfl, malloc_length _ _, by simp⟩
  simpa using this

/-- The query of an outcome. -/
def queryOf : Res (Next × List UInt8) → Option (List UInt8)
  | .ok (.query _ m, _) => some m
  | _ => none

example : queryOf (run true 1024 [] [(.give 1, 0), (.again, 1), (.give 9, 2), (.give 5, 3), (.give 99, 4)]
    (accept 0 1024 []) (framed [1, 2, 3, 4, 5, 6, 7, 8, 9, 10, 11, 12, 13] ++ [7, 7])) =
    some [1, 2, 3, 4, 5, 6, 7, 8, 9, 10, 11, 12, 13] := by decide +kernel

/-- Whether an outcome is that the connection was closed. -/
def isClosed : Res (Next × List UInt8) → Bool
  | .ok (.closed, _) => true
  | _ => false

/-- Reading a length that leads to the connection being closed. -/
theorem run_refused (signed : Bool) (limit : Nat) (junk : List UInt8) (b0 b1 : UInt8) (t : List UInt8)
    {w : Int} (hl : lenOf signed b0 b1 = .ok w) (hw : w < 12) :
    ∀ (evs : List (Ev × Nat)) (g : Nat) (c : Conn), Reading ([b0, b1] ++ t) 2 g c →
      (run signed limit junk evs c (([b0, b1] ++ t).drop g) = .ok (.closed, t)) ∨
      (∃ c' s, run signed limit junk evs c (([b0, b1] ++ t).drop g) = .ok (.wait c', s) ∧
        gives evs + g < 2)
  | [], g, c, h => Or.inr ⟨c, _, rfl, by have := h.lt; simp [gives]; omega⟩
  | (ev, now) :: evs, g, c, h => by
    rcases turn_reading h signed ev now limit junk with ⟨g', c', e, hg, hr⟩ | ⟨c', b, h1, h2, h3, hb, hbl, hbt, e⟩
    · rcases run_refused signed limit junk b0 b1 t hl hw evs g' c' hr with h2 | ⟨c2, s, h2, h3⟩
      · left
        simp only [run, e, Res.ok_bind]
        exact h2
      · right
        refine ⟨c2, s, ?_, ?_⟩
        · simp only [run, e, Res.ok_bind]
          exact h2
        · rw [gives_cons]; omega
    · left
      obtain ⟨hb0, hb1⟩ := header_bytes hbt
      have hp : processData signed now limit junk c' = .ok .closed := by
        simp only [processData, hb, h1, h2, h3, hb0, hb1]
        rw [if_neg (by simp), if_pos trivial, hl, Res.ok_bind, if_pos hw]
      simp only [run, e, hp]
      simp [Res.bind]

/-- A message shorter than a header is refused: the connection is closed. -/
theorem short_refused (signed : Bool) (limit now : Nat) (junk junk' m rest : List UInt8)
    (hm : m.length < 12) (evs : List (Ev × Nat)) (hg : 2 ≤ gives evs) :
    run signed limit junk evs (accept now limit junk') (framed m ++ rest) = .ok (.closed, m ++ rest) := by
  have hl : lenOf signed (UInt8.ofNat (m.length / 256)) (UInt8.ofNat m.length) = .ok (m.length : Int) :=
    lenOf_ok (by omega) (fun _ => ⟨by omega, by omega⟩)
  rcases run_refused signed limit junk _ _ (m ++ rest) hl (by omega) evs 0 (accept now limit junk')
    ⟨rfl, rfl, rfl, by omega, by simp, _, rfl, malloc_length _ _, by simp⟩ with h | ⟨_, _, _, h⟩
  · simpa [framed, be16] using h
  · omega

example : isClosed (run true 1024 [] [(.give 1, 0), (.give 1, 2)] (accept 0 1024 [])
    (framed [1, 2, 3])) = true := by decide +kernel

/-- The claim fails where `char` is signed (as on x86): an ordinary query whose length has a
low byte of 128 or more is refused without an answer, however it arrives. -/
theorem signed_length_refused (limit now : Nat) (junk junk' m rest : List UInt8)
    (hm : m.length < 32768) (hlow : 128 ≤ m.length % 256) (evs : List (Ev × Nat)) (hg : 2 ≤ gives evs) :
    run true limit junk evs (accept now limit junk') (framed m ++ rest) = .ok (.closed, m ++ rest) := by
  have e0 : (UInt8.ofNat (m.length / 256)).toNat = m.length / 256 := by simp; omega
  have e1 : (UInt8.ofNat m.length).toNat = m.length % 256 := by simp
  have hl : lenOf true (UInt8.ofNat (m.length / 256)) (UInt8.ofNat m.length) =
      .ok (((m.length % 256 : Nat) : Int) - 256) := by
    simp only [lenOf, e0, e1, if_true]
    rw [if_neg (by omega), if_pos hlow]
  rcases run_refused true limit junk _ _ (m ++ rest) hl (by omega) evs 0 (accept now limit junk')
    ⟨rfl, rfl, rfl, by omega, by simp, _, rfl, malloc_length _ _, by simp⟩ with h | ⟨_, _, _, h⟩
  · simpa [framed, be16] using h
  · omega

example : isClosed (run true 1024 [] [(.give 2, 0), (.give 1, 2)] (accept 0 1024 [])
    (framed (List.replicate 130 7))) = true := by decide +kernel

/-! ## Time-outs while reading -/

/-- The main loop comes round at these times, never later than `limit` after the last time. -/
def Steady (limit : Nat) : Nat → List Nat → Prop
  | _, [] => True
  | last, t :: ts => t ≤ last + limit ∧ Steady limit t ts

/-- The last of some times. -/
def lastTime : Nat → List Nat → Nat
  | last, [] => last
  | _, t :: ts => lastTime t ts

/-- A client that has closed its side keeps its place for ever, as long as the main loop comes
round before the time is up: each turn renews the time.  (There are eight places by default.) -/
theorem eof_keeps_place (signed : Bool) (limit : Nat) (junk : List UInt8) :
    ∀ (times : List Nat) (last : Nat) (c : Conn) (s : List UInt8) (b : List UInt8), c.state = 0 →
      c.got < c.wanted → c.buf = some b → c.wanted ≤ b.length → c.die = last + limit →
      Steady limit last times →
      ∃ c', run signed limit junk (times.map (Ev.eof, ·)) c s = .ok (.wait c', s) ∧
        c'.got = c.got ∧ c'.wanted = c.wanted ∧
        ∀ t, t ≤ lastTime last times + limit → expired t c' = false
  | [], last, c, s, b, hs, hg, hb, hbl, hd, hch => by
    refine ⟨c, rfl, rfl, rfl, fun t ht => ?_⟩
    simp [lastTime] at ht
    simp [expired]
    omega
  | t :: ts, last, c, s, b, hs, hg, hb, hbl, hd, hch => by
    have hc : c.got < c.wanted ∧ c.state = 0 := ⟨hg, hs⟩
    obtain ⟨b', e, el, _⟩ := blit_ok (b := b) (l := []) (o := c.got) (by simp; omega)
    have hturn : turn signed limit junk .eof t c s =
        .ok (.wait { c with buf := some b', got := c.got + 0, die := t + limit }, s) := by
      simp only [turn, if_pos hc, recv, getWanted, hb, List.length_nil]
      rw [if_neg (by omega), e]
      simp only [Res.ok_bind, processData]
      rw [if_pos (Or.inl (by omega))]
      rfl
    obtain ⟨c', e', h1, h2, h3⟩ := eof_keeps_place signed limit junk ts t
      { c with buf := some b', got := c.got + 0, die := t + limit } s b' hs (by simpa using hg) rfl
      (by simp; omega) rfl hch.2
    refine ⟨c', ?_, by simpa using h1, h2, h3⟩
    simp only [List.map_cons, run, hturn, Res.ok_bind]
    exact e'

/-- A client that stays connected and sends nothing loses its place when the time is up. -/
theorem silent_expires_partial (signed : Bool) (limit : Nat) (junk : List UInt8) (c : Conn) (s b : List UInt8)
    (hs : c.state = 0) (hg : c.got < c.wanted) (hb : c.buf = some b) (hd : 0 < c.die) :
    ∀ times : List Nat, run signed limit junk (times.map (Ev.again, ·)) c s = .ok (.wait c, s) ∧
      ∀ t, c.die < t → expired t c = true
  | [] => ⟨rfl, fun t ht => by simp [expired]; omega⟩
  | t :: ts => by
    have ih := silent_expires_partial signed limit junk c s b hs hg hb hd ts
    refine ⟨?_, ih.2⟩
    have hc : c.got < c.wanted ∧ c.state = 0 := ⟨hg, hs⟩
    have hturn : turn signed limit junk .again t c s = .ok (.wait c, s) := by
      simp only [turn, if_pos hc, recv, getWanted, Res.ok_bind, processData, hb]
      rw [if_pos (Or.inl (by omega))]
      rfl
    simp only [List.map_cons, run, hturn, Res.ok_bind]
    exact ih.1

example : ∃ c : Conn, c.state = 0 ∧ c.got < c.wanted ∧ c.buf = some [0, 0, 0] ∧ 0 < c.die ∧
    run true 1024 [] [(.eof, 900), (.eof, 1800), (.eof, 2700)] c [] =
      .ok (.wait { c with die := 3724 }, []) ∧ expired 2800 c = true :=
  ⟨accept 0 1024 [], rfl, by decide, by decide, by decide, by decide, by decide⟩

/-! ## Replies to the client -/

/-- Sending, from any place in the reply. -/
theorem sendRun_from (limit : Nat) (p : List UInt8) :
    ∀ (as : List (Option Nat × Nat)) (c : Conn) (g : Nat), c.state = 2 → c.wanted = p.length + 2 →
      c.got = g → g ≤ p.length + 2 → c.buf = some (framed p ++ [0]) →
      ∃ o c', sendRun limit as c = .ok (o, c') ∧
        ((c' = none ∧ o = (framed p).drop g) ∨
          (∃ d, c' = some d ∧ g ≤ d.got ∧ d.got ≤ p.length + 2 ∧
            o = ((framed p).drop g).take (d.got - g)))
  | [], c, g, hs, hw, hg, hl, hb =>
    ⟨[], some c, rfl, Or.inr ⟨c, rfl, by omega, by omega, by simp [hg]⟩⟩
  | (a, now) :: as, c, g, hs, hw, hg, hl, hb => by
    have hfl : (framed p).length = p.length + 2 := by simp [framed, be16]
    by_cases hlt : c.got < c.wanted
    · cases a with
      | none =>
        obtain ⟨o, c', e, h⟩ := sendRun_from limit p as c g hs hw hg hl hb
        refine ⟨o, c', ?_, h⟩
        simp [sendRun, sendWanted, hs, hlt, e]
      | some n =>
        have hbl : c.wanted ≤ (framed p ++ [0]).length := by simp [hfl]; omega
        obtain ⟨o, c', e, h⟩ := sendRun_from limit p as
          { c with got := c.got + min n (c.wanted - c.got), die := now + limit }
          (g + min n (c.wanted - c.got)) hs hw (by simp [hg]) (by omega) hb
        have hchunk : ((framed p ++ [0]).drop c.got).take (min n (c.wanted - c.got)) =
            ((framed p).drop g).take (min n (c.wanted - c.got)) := by
          rw [hg, List.drop_append_of_le_length (by omega), List.take_append_of_le_length]
          simp [hfl]; omega
        refine ⟨((framed p ++ [0]).drop c.got).take (min n (c.wanted - c.got)) ++ o, c', ?_, ?_⟩
        · have hstep : sendWanted (some n) now limit c =
              .ok (((framed p ++ [0]).drop c.got).take (min n (c.wanted - c.got)),
                some { c with got := c.got + min n (c.wanted - c.got), die := now + limit }) := by
            simp only [sendWanted]
            rw [if_neg (by simp [hs]), if_pos hlt]
            simp only [hb, if_pos hbl]
          simp only [sendRun, hstep, Res.ok_bind, e]
        · rw [hchunk]
          rcases h with ⟨h1, h2⟩ | ⟨d, h1, h2, h3, h4⟩
          · left
            refine ⟨h1, ?_⟩
            rw [h2, ← List.drop_drop, List.take_append_drop]
          · right
            refine ⟨d, h1, by omega, h3, ?_⟩
            rw [h4, ← List.drop_drop]
            have : d.got - g = min n (c.wanted - c.got) + (d.got - (g + min n (c.wanted - c.got))) := by omega
            rw [this, List.take_add]
    · refine ⟨[], none, ?_, Or.inl ⟨rfl, ?_⟩⟩
      · simp [sendRun, sendWanted, hs, hlt]
      · rw [List.drop_of_length_le (by omega)]

/-- **C44**, replies: however the operating system takes the bytes, what the client has got
is the beginning of the framed reply, and the connection is only closed when it has got all
of it. -/
theorem send_framed (limit now : Nat) (p : List UInt8) (c : Conn) (as : List (Option Nat × Nat)) :
    ∃ o c', sendRun limit as (returnReply now limit p c) = .ok (o, c') ∧
      o <+: framed p ∧ (c' = none → o = framed p) := by
  obtain ⟨o, c', e, h⟩ := sendRun_from limit p as (returnReply now limit p c) 0 rfl rfl rfl (by omega)
    (by simp [returnReply, framed, be16])
  refine ⟨o, c', e, ?_, ?_⟩
  · rcases h with ⟨_, h⟩ | ⟨d, _, _, _, h⟩
    · rw [h]; simp
    · rw [h]; simpa using List.take_prefix _ _
  · rintro rfl
    rcases h with ⟨_, h⟩ | ⟨d, h, _⟩
    · simpa using h
    · simp at h

/-- The bytes sent and whether the connection was closed. -/
def sentOf : Res (List UInt8 × Option Conn) → List UInt8 × Bool
  | .ok (o, c) => (o, c.isNone)
  | _ => ([], false)

example : sentOf (sendRun 1024 [(some 1, 0), (none, 0), (some 2, 0), (some 99, 0), (none, 0)]
    (returnReply 0 1024 [9, 8, 7] (accept 0 1024 []))) = ([0, 3, 9, 8, 7], true) := by decide +kernel

end Tcp
end Dw
