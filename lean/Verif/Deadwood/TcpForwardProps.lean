import Verif.Deadwood.TcpProps
/-!
# C44: replies passed on from an upstream TCP connection
-/

namespace Dw
namespace Tcp
open Spec

/-- `g` bytes of the message have come in and `k` of the framed message have gone out. -/
structure Passing (m : List UInt8) (g k : Nat) (c : Conn) : Prop where
  state : c.state = 6
  wanted : c.wanted = m.length
  got : c.got = g
  sent : c.sent = k
  gle : g ≤ m.length
  kle : k ≤ g + 2
  buf : ∃ b, c.buf = some b ∧ b.length = m.length + 3 ∧ b.take (g + 2) = (framed m).take (g + 2)

theorem framed_length (m : List UInt8) : (framed m).length = m.length + 2 := by
  simp [framed, be16]

theorem start_passing (m : List UInt8) (hm : m.length < 65536) (now limit : Nat) (junk : List UInt8)
    (c : Conn) (hs : c.sent = 0) :
    Passing m 0 0 (startForward (UInt8.ofNat (m.length / 256)) (UInt8.ofNat m.length) now limit junk c) := by
  have e0 : (UInt8.ofNat (m.length / 256)).toNat = m.length / 256 := by simp; omega
  have e1 : (UInt8.ofNat m.length).toNat = m.length % 256 := by simp
  have hw : m.length / 256 * 256 + m.length % 256 = m.length := by omega
  refine ⟨rfl, ?_, rfl, hs, by omega, by omega, _, rfl, ?_, ?_⟩
  · simp only [startForward, e0, e1, hw]
  · simp only [e0, e1, hw, List.length_cons, malloc_length]
  · simp only [e0, e1, hw, framed, be16]
    simp

/-- One turn: either nothing changes, or the rest was dropped, or `l` came in and `j` bytes
went out (and if that was the end the connection is closed). -/
theorem forward_step {m rest : List UInt8} {g k : Nat} {c : Conn} (h : Passing m g k c)
    (n : Nat) (acc : Option Nat) (now limit : Nat) :
    (forward (recv (.give n) (c.wanted - c.got) ((m ++ rest).drop g)).1 acc now limit c = .ok ([], none) ∧
      (m.length ≤ g ∨ m.length + 2 ≤ k)) ∨
    ∃ l j c' g', forward (recv (.give n) (c.wanted - c.got) ((m ++ rest).drop g)).1 acc now limit c =
        .ok (((framed m).drop k).take j, if j = l ∧ 0 < l ∧ g' = m.length then none else some c') ∧
      (recv (.give n) (c.wanted - c.got) ((m ++ rest).drop g)).2 = (m ++ rest).drop g' ∧
      g' = g + l ∧ j ≤ g' + 2 - k ∧ Passing m g' (k + j) c' ∧ (0 < j → 0 < l) ∧
      (∀ a, acc = some a → 0 < l → g' + 2 - k ≤ a → j = g' + 2 - k) := by
  obtain ⟨hs, hw, hg, hk, hgl, hkl, b, hb, hbl, hbt⟩ := h
  have hfl := framed_length m
  by_cases hend : m.length ≤ g ∨ m.length + 2 ≤ k
  · left
    refine ⟨?_, hend⟩
    simp only [forward]
    rw [if_neg (by simp [hs])]
    simp only [hb]
    rw [if_pos (by omega)]
  · right
    have hopen : ¬ (c.wanted ≤ c.got ∨ c.wanted + 2 ≤ c.sent) := by omega
    have hgw : c.wanted - c.got = m.length - g := by omega
    by_cases h0 : min n (min (m.length - g) ((m ++ rest).drop g).length) = 0
    · refine ⟨0, 0, c, g, ?_, ?_, by omega, by omega, ⟨hs, hw, hg, by omega, hgl, by omega, b, hb, hbl, hbt⟩,
        by omega, by omega⟩
      · rw [hgw]
        simp only [recv, if_pos h0, forward]
        rw [if_neg (by simp [hs])]
        simp only [hb]
        rw [if_neg hopen]
        simp
      · rw [hgw]
        simp only [recv, if_pos h0]
    · rw [hgw]
      have hllen : ((m ++ rest).drop g).length = m.length + rest.length - g := by simp
      obtain ⟨L, hL⟩ : ∃ L, L = min n (m.length - g) := ⟨_, rfl⟩
      have hLpos : 0 < L := by rw [hL]; omega
      have hLle : L ≤ m.length - g := by rw [hL]; omega
      obtain ⟨l, hl⟩ : ∃ l, l = ((m ++ rest).drop g).take L := ⟨_, rfl⟩
      have hl' : l = (m.drop g).take L := by
        rw [hl, List.drop_append_of_le_length hgl, List.take_append_of_le_length (by simp; omega)]
      have hlL : l.length = L := by rw [hl]; simp; omega
      obtain ⟨b', eb, ebl, ebt⟩ := blit_ok (b := b) (l := l) (o := 2 + c.got) (by omega)
      have hb't : b'.take (g + L + 2) = (framed m).take (g + L + 2) := by
        have e1 : 2 + c.got + l.length = g + L + 2 := by omega
        have e2 : 2 + c.got = g + 2 := by omega
        rw [e1, e2] at ebt
        rw [ebt, hbt, show g + L + 2 = (g + 2) + L from by omega, List.take_add (i := g + 2) (j := L), hl']
        have hd : (framed m).drop (g + 2) = m.drop g := by simp [framed, be16]
        rw [hd]
      have hrecv : recv (.give n) (m.length - g) ((m ++ rest).drop g) = (some l, (m ++ rest).drop (g + L)) := by
        simp only [recv, if_neg h0, ← hL, hl, List.drop_drop]
      rw [hrecv]
      have hcons : ∃ x t, l = x :: t := by
        cases l with
        | nil => simp at hlL; omega
        | cons x t => exact ⟨x, t, rfl⟩
      obtain ⟨x, t, hxt⟩ := hcons
      -- the connection once the bytes are in
      have hbase : ∀ (die : Nat) (j : Nat), j ≤ g + L + 2 - k →
          Passing m (g + L) (k + j) { c with buf := some b', got := c.got + l.length, die := die, sent := c.sent + j } :=
        fun die j hj => ⟨hs, hw, by simp [hg, hlL], by simp [hk], by omega, by omega, b', rfl, by omega, hb't⟩
      have hfw : ∀ acc, forward (some l) acc now limit c =
          (let die := if l.length ≠ c.wanted - c.got then now + limit else c.die
           let c1 := { c with buf := some b', got := c.got + l.length, die := die }
           match acc with
            | none => .ok ([], some c1)
            | some 0 => .ok ([], some c1)
            | some (n + 1) =>
              if b'.length < c1.got + 2 then .ub
              else
                let k := min (n + 1) (c1.got + 2 - c1.sent)
                let o := (b'.drop c1.sent).take k
                if k ≠ l.length then
                  .ok (o, some { c1 with die := now + limit, sent := c1.sent + k })
                else if c1.wanted = c1.got then .ok (o, none)
                else .ok (o, some { c1 with sent := c1.sent + k })) := by
        intro acc
        simp only [forward]
        rw [if_neg (by simp [hs])]
        simp only [hb]
        rw [if_neg hopen, hxt]
        simp only
        rw [← hxt, if_neg (by omega), eb]
        rfl
      rw [hfw]
      have hnone : ∃ c', Passing m (g + L) (k + 0) c' ∧
          (Res.ok (([] : List UInt8), some { c with buf := some b', got := c.got + l.length, die := if l.length ≠ c.wanted - c.got then now + limit else c.die }) : Res (List UInt8 × Option Conn)) =
          .ok (((framed m).drop k).take 0, if 0 = L ∧ 0 < L ∧ g + L = m.length then none else some c') := by
        refine ⟨{ c with buf := some b', got := c.got + l.length, die := if l.length ≠ c.wanted - c.got then now + limit else c.die }, hbase _ 0 (by omega), ?_⟩
        rw [if_neg (show ¬ (0 = L ∧ 0 < L ∧ g + L = m.length) by omega)]
        simp
      match acc with
      | none =>
        obtain ⟨c', hp, he⟩ := hnone
        exact ⟨L, 0, c', g + L, he, rfl, rfl, by omega, hp, by omega, by simp⟩
      | some 0 =>
        obtain ⟨c', hp, he⟩ := hnone
        refine ⟨L, 0, c', g + L, he, rfl, rfl, by omega, hp, by omega, ?_⟩
        intro a ha _ hle
        have : a = 0 := by simpa using ha.symm
        omega
      | some (a + 1) =>
        have hj : min (a + 1) (c.got + l.length + 2 - c.sent) = min (a + 1) (g + L + 2 - k) := by
          rw [hg, hlL, hk]
        have hout : (b'.drop c.sent).take (min (a + 1) (g + L + 2 - k)) =
            ((framed m).drop k).take (min (a + 1) (g + L + 2 - k)) := by
          rw [hk]
          have e1 : (b'.drop k).take (min (a + 1) (g + L + 2 - k)) =
              ((b'.take (g + L + 2)).drop k).take (min (a + 1) (g + L + 2 - k)) := by
            rw [List.drop_take, List.take_take]
            congr 1
            omega
          have e2 : ((framed m).drop k).take (min (a + 1) (g + L + 2 - k)) =
              (((framed m).take (g + L + 2)).drop k).take (min (a + 1) (g + L + 2 - k)) := by
            rw [List.drop_take, List.take_take]
            congr 1
            omega
          rw [e1, e2, hb't]
        obtain ⟨die, hdie⟩ : ∃ d, d = if min (a + 1) (g + L + 2 - k) ≠ l.length then now + limit else
          (if l.length ≠ c.wanted - c.got then now + limit else c.die) := ⟨_, rfl⟩
        refine ⟨L, min (a + 1) (g + L + 2 - k),
          { c with buf := some b', got := c.got + l.length, die := die, sent := c.sent + min (a + 1) (g + L + 2 - k) },
          g + L, ?_, rfl, rfl, by omega, hbase die _ (by omega), by omega, ?_⟩
        · simp only
          rw [if_neg (show ¬ (b'.length < c.got + l.length + 2) by omega)]
          rw [hj, hout]
          by_cases hjl : min (a + 1) (g + L + 2 - k) = l.length
          · rw [if_neg (show ¬ (min (a + 1) (g + L + 2 - k) ≠ l.length) by omega)]
            by_cases hwg : c.wanted = c.got + l.length
            · rw [if_pos hwg, if_pos ⟨by omega, by omega, by omega⟩]
            · have hno : ¬ (min (a + 1) (g + L + 2 - k) = L ∧ 0 < L ∧ g + L = m.length) := by omega
              rw [if_neg hwg, if_neg hno, hdie, if_neg (show ¬ (min (a + 1) (g + L + 2 - k) ≠ l.length) by omega)]
          · have hno : ¬ (min (a + 1) (g + L + 2 - k) = L ∧ 0 < L ∧ g + L = m.length) := by omega
            rw [if_pos hjl, if_neg hno, hdie, if_pos hjl]
        · intro a' ha' _ hle
          have : a' = a + 1 := by simpa using ha'.symm
          omega

/-- **C44**, replies passed on: for every way the upstream reply comes in and every way the
client takes it, what the client has got is the beginning of the framed reply. -/
theorem forward_prefix (limit : Nat) (m rest : List UInt8) :
    ∀ (es : List (Nat × Option Nat × Nat)) (g k : Nat) (c : Conn), Passing m g k c →
      ∃ o c', forwardRun limit es c ((m ++ rest).drop g) = .ok (o, c') ∧ o <+: (framed m).drop k
  | [], g, k, c, h => ⟨[], some c, rfl, List.nil_prefix⟩
  | (n, acc, now) :: es, g, k, c, h => by
    rcases forward_step (rest := rest) h n acc now limit with ⟨e, _⟩ | ⟨l, j, c', g', e, er, hg', hj, hp, _, _⟩
    · refine ⟨[], none, ?_, List.nil_prefix⟩
      simp only [forwardRun, e, Res.ok_bind]
    · by_cases hfin : j = l ∧ 0 < l ∧ g' = m.length
      · rw [if_pos hfin] at e
        refine ⟨_, none, ?_, List.take_prefix j _⟩
        simp only [forwardRun, e, Res.ok_bind]
      · rw [if_neg hfin] at e
        obtain ⟨o, c2, e2, hpre⟩ := forward_prefix limit m rest es g' (k + j) c' hp
        refine ⟨((framed m).drop k).take j ++ o, c2, ?_, ?_⟩
        · simp only [forwardRun, e, er, Res.ok_bind, e2]
        · rw [← List.drop_drop] at hpre
          obtain ⟨t, ht⟩ := hpre
          exact ⟨t, by rw [List.append_assoc, ht, List.take_append_drop]⟩

/-- **C44**, replies passed on, if the client's connection takes whatever it is given: for
every way the reply comes in, the client has got all of it when the connection is closed. -/
theorem forward_complete_partial (limit : Nat) (m rest : List UInt8) (hm : 0 < m.length) :
    ∀ (es : List (Nat × Option Nat × Nat)) (g k : Nat) (c : Conn), Passing m g k c →
      (∀ e ∈ es, ∃ a, e.2.1 = some a ∧ m.length + 2 ≤ a) → (g = 0 ∧ k = 0 ∨ k = g + 2) →
      ∃ o c', forwardRun limit es c ((m ++ rest).drop g) = .ok (o, c') ∧
        (c' = none → o = (framed m).drop k)
  | [], g, k, c, h, _, _ => ⟨[], some c, rfl, by simp⟩
  | (n, acc, now) :: es, g, k, c, h, hacc, hk => by
    have hfl := framed_length m
    obtain ⟨a, ha, hal⟩ := hacc (n, acc, now) (by simp)
    simp only at ha
    subst ha
    rcases forward_step (rest := rest) h n (some a) now limit with ⟨e, hend⟩ | ⟨l, j, c', g', e, er, hg', hj, hp, hjl, hall⟩
    · refine ⟨[], none, ?_, fun _ => ?_⟩
      · simp only [forwardRun, e, Res.ok_bind]
      · rw [List.drop_of_length_le]
        have := h.gle
        omega
    · have hgl := hp.gle
      have hkl := hp.kle
      have hstate : g' = 0 ∧ k + j = 0 ∨ k + j = g' + 2 := by
        by_cases hl0 : 0 < l
        · have := hall a rfl hl0 (by omega)
          omega
        · have : j = 0 := by omega
          omega
      by_cases hfin : j = l ∧ 0 < l ∧ g' = m.length
      · rw [if_pos hfin] at e
        refine ⟨((framed m).drop k).take j, none, ?_, fun _ => ?_⟩
        · simp only [forwardRun, e, Res.ok_bind]
        · rw [List.take_of_length_le]
          simp [hfl]
          omega
      · rw [if_neg hfin] at e
        obtain ⟨o, c2, e2, hdone⟩ := forward_complete_partial limit m rest hm es g' (k + j) c' hp
          (fun x hx => hacc x (by simp [hx])) hstate
        refine ⟨((framed m).drop k).take j ++ o, c2, ?_, fun hc => ?_⟩
        · simp only [forwardRun, e, er, Res.ok_bind, e2]
        · rw [hdone hc, ← List.drop_drop, List.take_append_drop]

/-- Start of forwarding a message of four bytes. -/
def four : Conn := startForward 0 4 0 1024 [] (accept 0 1024 [])

example : Passing [1, 2, 3, 4] 0 0 four :=
  start_passing [1, 2, 3, 4] (by simp) 0 1024 [] (accept 0 1024 []) rfl

example : sentOf (forwardRun 1024 [(3, some 100, 0), (1, some 100, 0), (7, some 100, 0)] four
    [1, 2, 3, 4]) = ([0, 4, 1, 2, 3, 4], true) := by decide +kernel

/-- Without that the end can be lost: the whole reply has come in, the client's connection
takes three bytes, and the next turn closes it. -/
theorem forward_loses_end :
    sentOf (forwardRun 1024 [(9, some 3, 0), (0, some 100, 0)] four [1, 2, 3, 4]) = ([0, 4, 1], true) := by
  decide +kernel

end Tcp
end Dw
