import Verif.Mara.ReplyShown
import Verif.Mara.CompClear
/-!
# Lemmas: from the records of a reply to the bytes that are sent
-/

namespace Mara
namespace Reply

open Spec
open Dw (Res)

/-- What is sent for the message `m`: the whole message if it fits or the client takes long replies,
else the message without as few of its optional records as possible, else the reply that says that
it is cut short.  After 20 records, the server gives up taking them away. -/
inductive Sent (m : Msg) (long : Bool) : Option (List UInt8) → Prop
  | whole {c} : m.Carried c → c.length ≤ m.bytes.length → (c.length ≤ 512 ∧ Small m c ∨ long = true) → Sent m long (some c)
  | less {c} (k : Nat) : 1 ≤ k → k ≤ m.optional → k ≤ 20 → (m.without k).Carried c → c.length ≤ 512 →
      (∀ j, j < k → ¬∃ c, Small (m.without j) c) → Sent m long (some c)
  | cut : m.optional < 20 → (∀ j, j ≤ m.optional → ¬∃ c, Small (m.without j) c) → Sent m long (some (truncated m.head))
  | much : 20 ≤ m.optional → (∀ j, j ≤ 20 → ¬∃ c, Small (m.without j) c) → Sent m long (packed (m.without 20))

theorem small_carried {m : Msg} (hm : m.Sound) (hb : m.bytes.length < 1024) {c : List UInt8} (h : Comp.compress m.bytes 1024 5000 = .ok c) :
    m.Carried c ∧ c.length ≤ m.bytes.length := by
  rcases Comp.compress_clear hm (um := 1024) (om := 5000) hb with h' | ⟨c', p', h1, h2, h3, h3', h4⟩
  · rw [h'] at h; cases h
  · rw [h1] at h
    cases h
    exact ⟨⟨p', h2, h3, h3'⟩, h4.1⟩

theorem fit_sent {m : Msg} (hm : m.Sound) (ht : NotTruncated m.head) (hb : m.bytes.length < 1024) (long : Bool) :
    ∃ r, fit m.bytes long = .ok r ∧ Sent m long r := by
  -- what follows when the whole message does not do
  have loop : ∀ last, (¬∃ c, Small m c) → ∃ r, fitLoop 20 m.bytes last = .ok r ∧ Sent m long r := by
    intro last h0
    have h0' : ∀ (P : Nat → Prop), (∀ j, 1 ≤ j → P j → ¬∃ c, Small (m.without j) c) → ∀ j, P j → ¬∃ c, Small (m.without j) c := by
      intro P hP j hj
      match j with
      | 0 => rw [without_zero]; exact h0
      | j + 1 => exact hP (j + 1) (by omega) hj
    rcases fitLoop_spec 20 last hm ht hb with ⟨k, c, k1, k2, k3, k4, k5, k6⟩ | ⟨k1, k2, k3⟩ | ⟨k1, k2, k3⟩
    · refine ⟨_, k6, .less k k1 k3 k2 ?_ k4.2 (h0' (· < k) k5)⟩
      exact (small_carried (without_sound hm k) (by have := bytes_without_le m k; omega) k4.1).1
    · exact ⟨_, k3, .cut k1 (h0' (· ≤ m.optional) k2)⟩
    · refine ⟨_, k3, ?_⟩
      rw [if_neg (by omega)]
      exact .much k1 (h0' (· ≤ 20) k2)
  unfold fit
  rcases Comp.compress_sound hm (um := 1024) (om := 5000) hb with h | ⟨c, p', h1, -, -, -⟩
  · rw [h]
    exact loop none (by rintro ⟨c, hc, -⟩; rw [h] at hc; cases hc)
  · rw [h1]
    simp only
    obtain ⟨s1, s2⟩ := small_carried hm hb h1
    by_cases hl : c.length > 512
    · rw [if_pos hl]
      by_cases hlong : long = true ∧ c.length < 4096
      · rw [if_pos hlong]
        exact ⟨_, rfl, .whole s1 s2 (.inr hlong.1)⟩
      · rw [if_neg hlong]
        refine loop _ ?_
        rintro ⟨c', hc, hl'⟩
        rw [h1] at hc
        cases hc
        omega
    · rw [if_neg hl]
      exact ⟨_, rfl, .whole s1 s2 (.inl ⟨by omega, h1, by omega⟩)⟩

/-- A name has few labels for its length. -/
theorem labels_short {n : List (List UInt8)} (h : NameOk n) : nameCount n ≤ 128 := by
  have h1 := Lookup.Fits.labels h.1
  have := h.2
  unfold nameCount
  omega

/-- With nothing but a question, a message fits. -/
theorem question_small {m : Msg} (hm : m.Sound) (ha : m.all = []) : ∃ c, Small m c := by
  have hl : m.bytes.length ≤ 271 := by
    have := hm.head
    have := hm.qname.2
    unfold Msg.bytes Msg.header Msg.question
    rw [ha]
    simp [be16]
    omega
  have hlab : m.labels ≤ 150 := by
    unfold Msg.labels
    rw [ha]
    have := labels_short hm.qname
    simp
    omega
  obtain ⟨c, p', h1, -, -, h4⟩ := Comp.compress_carries hm (um := 1024) (om := 5000) (by omega) (by omega) (by omega) hlab
  exact ⟨c, h1, by omega⟩

/-- Short messages with few labels fit. -/
theorem short_small {m : Msg} (hm : m.Sound) (hl : m.bytes.length ≤ 512) (hlab : m.labels ≤ 150) : ∃ c, Small m c := by
  obtain ⟨c, p', h1, -, -, h4⟩ := Comp.compress_carries hm (um := 1024) (om := 5000) (by omega) (by omega) (by omega) hlab
  exact ⟨c, h1, by omega⟩

theorem flagByte (aa rd : Bool) :
    (if true = true then (128 : UInt8) else 0) ||| (UInt8.ofNat 0 &&& 15) <<< 3 ||| (if aa = true then 4 else 0) |||
      (if false = true then 2 else 0) ||| (if rd = true then 1 else 0) = 128 + (if aa then 4 else 0) + (if rd then 1 else 0) := by
  cases aa <;> cases rd <;> decide

theorem codeByte : (if false = true then (128 : UInt8) else 0) ||| (UInt8.ofNat 0 &&& 7) <<< 4 ||| (UInt8.ofNat 0 &&& 15) = 0 := by decide

theorem codeByte2 : (if false = true then (128 : UInt8) else 0) ||| (UInt8.ofNat 0 &&& 7) <<< 4 ||| (UInt8.ofNat 2 &&& 15) = 2 := by decide

theorem servfail_eq (id : Nat) (rd : Bool) : servfail id rd = serverFailure id rd := by
  unfold servfail makeHdr serverFailure
  rw [flagByte false rd, codeByte2]
  have e : (128 : UInt8) + (if false = true then 4 else 0) + (if rd = true then 1 else 0) = 128 + (if rd then 1 else 0) := by
    cases rd <;> decide
  rw [e]
  have z : put16 0 = [0, 0] := by decide
  show put16 id ++ _ ++ put16 0 ++ put16 0 ++ put16 0 ++ put16 0 = _
  rw [z, put16_be16]
  simp

theorem answerHead_eq (id an ns ar : Nat) (aa rd : Bool) :
    makeHdr { id := id, qr := true, aa := aa, rd := rd, qd := 1, an := an, ns := ns, ar := ar } =
      answerHead id aa rd ++ be16 1 ++ be16 an ++ be16 ns ++ be16 ar := by
  unfold makeHdr answerHead
  rw [flagByte aa rd, codeByte]
  rfl

theorem answerHead_ok (id : Nat) (aa rd : Bool) : (answerHead id aa rd).length = 4 ∧ NotTruncated (answerHead id aa rd) := by
  cases aa <;> cases rd <;> exact ⟨rfl, rfl⟩

theorem makeHdr_length (h : Hdr) : (makeHdr h).length = 12 := by
  unfold makeHdr put16; rfl

/-- The message of a reply. -/
def msg (rec : Nat → Rec) (id : Nat) (aa rd : Bool) (qname : List (List UInt8)) (t : Nat) (an ns ar : List Nat) : Msg where
  head := answerHead id aa rd
  qname := qname
  qtype := t
  qclass := 1
  an := an.map rec
  ns := ns.map rec
  ar := ar.map rec

theorem enc_map (rec : Nat → Rec) (l : List Nat) : enc rec l = ((l.map rec).map Rec.toRR).flatMap RR.enc := by
  unfold enc; rw [List.map_map]; rfl

theorem msg_bytes (rec : Nat → Rec) (id : Nat) (aa rd : Bool) (qname : List (List UInt8)) (t : Nat) (an ns ar : List Nat) :
    (msg rec id aa rd qname t an ns ar).bytes =
      makeHdr { id := id, qr := true, aa := aa, rd := rd, qd := 1, an := an.length, ns := ns.length, ar := ar.length } ++
        (encName qname ++ be16 t ++ be16 1) ++ enc rec an ++ enc rec ns ++ enc rec ar := by
  rw [answerHead_eq, enc_map, enc_map, enc_map]
  unfold Msg.bytes Msg.header Msg.question Msg.all msg
  simp

theorem enc_length (rec : Nat → Rec) (l : List Nat) : l.length ≤ (enc rec l).length := by
  induction l with
  | nil => simp
  | cons i l ih =>
    have : enc rec (i :: l) = (rec i).toRR.enc ++ enc rec l := by unfold enc; simp
    rw [this, List.length_append, List.length_cons]
    have : 1 ≤ ((rec i).toRR.enc).length := by unfold RR.enc; simp [be16]; omega
    omega

end Reply
end Mara
