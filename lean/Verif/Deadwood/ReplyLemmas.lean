import Verif.Deadwood.ReplyModel
import Verif.Deadwood.StrProps
import Verif.Spec.Answer
/-!
# Lemmas for replies
-/

namespace Dw
namespace Reply
open DwStr Spec

theorem word_eq (n : Fin 65536) : word n = be16 n.val := rfl

theorem word_pop (n : Fin 65536) :
    (UInt8.ofNat (n.val / 256)).toNat * 256 + (UInt8.ofNat n.val).toNat = n.val := by
  have := n.isLt
  simp
  omega

/-- One push that fits. -/
theorem push {s : DwStr} (v : Nat) (h : Usable s) (hm : s.max = 515) (hl : s.contents.length + 2 < 515) :
    ∃ s', s.pushU16 v = .ok s' ∧ Usable s' ∧ s'.max = 515 ∧ s'.contents = s.contents ++ be16 v := by
  obtain ⟨s', e, hu, hmx, hc⟩ := (pushU16_exact v h).2 (by omega)
  exact ⟨s', e, hu, by omega, hc⟩

theorem makeHeader_ok (id flags an ns ar : Nat) (junk : List UInt8) :
    ∃ s, makeHeader id flags an ns ar junk = .ok s ∧ Usable s ∧ s.max = 515 ∧
      s.contents = be16 id ++ be16 flags ++ be16 1 ++ be16 an ++ be16 ns ++ be16 ar := by
  obtain ⟨s0, e0, u0, c0, m0⟩ := create_usable 515 junk (by omega) (by omega)
  obtain ⟨s1, e1, u1, m1, c1⟩ := push id u0 m0 (by simp [c0])
  obtain ⟨s2, e2, u2, m2, c2⟩ := push flags u1 m1 (by simp [c0, c1, be16])
  obtain ⟨s3, e3, u3, m3, c3⟩ := push 1 u2 m2 (by simp [c0, c1, c2, be16])
  obtain ⟨s4, e4, u4, m4, c4⟩ := push an u3 m3 (by simp [c0, c1, c2, c3, be16])
  obtain ⟨s5, e5, u5, m5, c5⟩ := push ns u4 m4 (by simp [c0, c1, c2, c3, c4, be16])
  obtain ⟨s6, e6, u6, m6, c6⟩ := push ar u5 m5 (by simp [c0, c1, c2, c3, c4, c5, be16])
  refine ⟨s6, ?_, u6, m6, ?_⟩
  · simp only [makeHeader, e0, e1, e2, e3, e4, e5, e6, Res.ok_bind]
  · simp [c0, c1, c2, c3, c4, c5, c6]

theorem withQuestion_ok {q : DwStr} (hq : Usable q) (id flags an ns ar : Nat) (junk : List UInt8) :
    (515 ≤ q.contents.length + 14 → withQuestion q id flags an ns ar junk = .err) ∧
    (q.contents.length + 14 < 515 →
      ∃ s, withQuestion q id flags an ns ar junk = .ok s ∧ Usable s ∧ s.max = 515 ∧
        s.contents = be16 id ++ be16 flags ++ be16 1 ++ be16 an ++ be16 ns ++ be16 ar ++
          q.contents ++ be16 1) := by
  obtain ⟨s, e, hu, hm, hc⟩ := makeHeader_ok id flags an ns ar junk
  have hl : s.contents.length = 12 := by simp [hc, be16]
  have hneg : ¬ ((an : Int) < 0 ∨ (ns : Int) < 0 ∨ (ar : Int) < 0) := by omega
  have ha := append_exact hq hu
  constructor
  · intro h
    simp only [withQuestion, if_neg hneg, Int.toNat_natCast, e, Res.ok_bind]
    by_cases h2 : q.contents.length + 12 < 515
    · obtain ⟨t, et, ut, mt, ct⟩ := ha.2 (by omega)
      have h3 := (pushU16_exact 1 ut).1 (by rw [mt, ct, hm]; simp; omega)
      rw [et, Res.ok_bind, h3]
    · rw [ha.1 (by omega)]; rfl
  · intro h
    obtain ⟨t, et, ut, mt, ct⟩ := ha.2 (by omega)
    obtain ⟨w, ew, uw, mw, cw⟩ := push 1 ut (by omega) (by rw [ct]; simp; omega)
    refine ⟨w, ?_, uw, mw, ?_⟩
    · simp only [withQuestion, if_neg hneg, Int.toNat_natCast, e, Res.ok_bind, et, ew]
    · rw [cw, ct, hc]

/-- The header bytes. -/
theorem replyHeader_enc (id : Fin 65536) (tc : Bool) (rcode : Fin 16) (an ns ar : Fin 65536)
    (flags : Nat) (hf : [flags1 true 0 false tc true, flags2 true false false false rcode] = be16 flags) :
    (replyHeader id tc rcode an ns ar).enc =
      be16 id.val ++ be16 flags ++ be16 1 ++ be16 an.val ++ be16 ns.val ++ be16 ar.val := by
  simp only [Header.enc, replyHeader, word_eq, hf]
  rfl

theorem flags_8180 : [flags1 true 0 false false true, flags2 true false false false 0] = be16 0x8180 := by
  decide +kernel
theorem flags_8182 : [flags1 true 0 false false true, flags2 true false false false 2] = be16 0x8182 := by
  decide +kernel
theorem flags_8183 : [flags1 true 0 false false true, flags2 true false false false 3] = be16 0x8183 := by
  decide +kernel
theorem flags_8380 : [flags1 true 0 false true true, flags2 true false false false 0] = be16 0x8380 := by
  decide +kernel
theorem flags_8383 : [flags1 true 0 false true true, flags2 true false false false 3] = be16 0x8383 := by
  decide +kernel

theorem pop_word {s : DwStr} (h : Usable s) {pre : List UInt8} {n : Fin 65536}
    (hc : s.contents = pre ++ be16 n.val) :
    ∃ s', pop s popU16 = .ok ((n.val : Int), s') ∧ Usable s' ∧ s'.contents = pre := by
  obtain ⟨s', e, hu, _, hc'⟩ := (popU16_exact h).2 pre _ _ hc
  refine ⟨s', ?_, hu, hc'⟩
  simp only [pop, e, word_pop]

theorem pop_byte {s : DwStr} (h : Usable s) {pre : List UInt8} {k : UInt8}
    (hc : s.contents = pre ++ [k]) :
    ∃ s', pop s popU8 = .ok ((k.toNat : Int), s') ∧ Usable s' ∧ s'.contents = pre := by
  obtain ⟨s', e, hu, _, hc'⟩ := (popU8_exact h).2 pre _ hc
  exact ⟨s', by simp only [pop, e], hu, hc'⟩

/-- SERVFAIL for a client. -/
theorem fail_packet {q : DwStr} (hq : Usable q) (hl : q.contents.length + 14 < 515) {id : Nat}
    (hid : id < 65536) (junk : List UInt8) :
    ∃ s, withQuestion q id 0x8182 0 0 0 junk = .ok s ∧
      s.contents = servfail ⟨id, hid⟩ q.contents := by
  obtain ⟨s, e, _, _, hc⟩ := (withQuestion_ok hq id 0x8182 0 0 0 junk).2 hl
  refine ⟨s, e, ?_⟩
  rw [hc, servfail, reply, replyHeader_enc _ _ _ _ _ _ _ flags_8182]
  simp

end Reply
end Dw
