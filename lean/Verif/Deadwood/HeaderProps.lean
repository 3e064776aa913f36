import Verif.Deadwood.HeaderModel
import Verif.Spec.Header
/-!
# C36: which client packets are accepted
-/

namespace Dw
namespace Hdr
open Acl Spec

theorem f1 : ∀ x : Fin 256, ∃ qr : Bool, ∃ op : Fin 16, ∃ aa tc rd : Bool,
    flags1 qr op aa tc rd = UInt8.ofNat x.val := by
  intro x
  refine ⟨x.val.testBit 7, ⟨x.val / 8 % 16, by omega⟩, x.val.testBit 2, x.val.testBit 1, x.val.testBit 0, ?_⟩
  revert x; decide +kernel

theorem f2 : ∀ x : Fin 256, ∃ ra z ad cd : Bool, ∃ rc : Fin 16, flags2 ra z ad cd rc = UInt8.ofNat x.val := by
  intro x
  refine ⟨x.val.testBit 7, x.val.testBit 6, x.val.testBit 5, x.val.testBit 4, ⟨x.val % 16, by omega⟩, ?_⟩
  revert x; decide +kernel

/-- Every packet of 12 or more bytes starts with exactly one header. -/
theorem header_of_bytes (p : List UInt8) (h : 12 ≤ p.length) : ∃ hd : Header, ∃ rest, p = hd.enc ++ rest := by
  have w : ∀ x y : UInt8, ∃ n : Fin 65536, word n = [x, y] := by
    intro x y
    have hx := x.toNat_lt
    have hy := y.toNat_lt
    refine ⟨⟨x.toNat * 256 + y.toNat, by omega⟩, ?_⟩
    simp only [word, List.cons.injEq, and_true]
    constructor <;> apply UInt8.toNat_inj.1 <;> simp only [UInt8.toNat_ofNat'] <;> omega
  match p, h with
  | b0 :: b1 :: b2 :: b3 :: b4 :: b5 :: b6 :: b7 :: b8 :: b9 :: b10 :: b11 :: rest, _ =>
    obtain ⟨qr, op, aa, tc, rd, e1⟩ := f1 ⟨b2.toNat, b2.toNat_lt⟩
    obtain ⟨ra, z, ad, cd, rc, e2⟩ := f2 ⟨b3.toNat, b3.toNat_lt⟩
    obtain ⟨n0, w0⟩ := w b0 b1
    obtain ⟨n1, w1⟩ := w b4 b5
    obtain ⟨n2, w2⟩ := w b6 b7
    obtain ⟨n3, w3⟩ := w b8 b9
    obtain ⟨n4, w4⟩ := w b10 b11
    refine ⟨⟨n0, qr, op, aa, tc, rd, ra, z, ad, cd, rc, n1, n2, n3, n4⟩, rest, ?_⟩
    simp only [Header.enc, e1, e2, w0, w1, w2, w3, w4, UInt8.ofNat_toNat]
    rfl

theorem flags1_test : ∀ (qr : Bool) (op : Fin 16) (aa tc rd : Bool),
    (flags1 qr op aa tc rd &&& 0xf9 ≠ 1) ↔ ¬ (qr = false ∧ op = 0 ∧ rd = true) := by decide +kernel

theorem flags2_test : ∀ (ra z ad cd : Bool) (rc : Fin 16),
    (flags2 ra z ad cd rc &&& 0x4f ≠ 0) ↔ ¬ (z = false ∧ rc = 0) := by decide +kernel

theorem qid_bytes {b0 b1 b2 b3 b4 b5 b6 b7 b8 b9 b10 b11 : UInt8} {rest : List UInt8} {len check : Nat}
    (hl : 12 ≤ len) :
    getDnsQid (b0 :: b1 :: b2 :: b3 :: b4 :: b5 :: b6 :: b7 :: b8 :: b9 :: b10 :: b11 :: rest) len check =
    if check = 1 ∧ b2 &&& 0x80 ≠ 0 then .ok (-1)
    else if check = 2 ∧ (b2 &&& 0xf9 ≠ 1 ∨ b3 &&& 0x4f ≠ 0 ∨ b4 ≠ 0 ∨ b5 ≠ 1 ∨ b6 ≠ 0 ∨ b7 ≠ 0 ∨
        b8 ≠ 0 ∨ b9 ≠ 0 ∨ b10 ≠ 0) then .ok (-1)
    else if check = 2 ∧ b11 = 1 then .ok (-2)
    else if check = 2 ∧ b11 ≠ 0 then .ok (-1)
    else if b5 = 0 ∧ b4 = 0 ∧ b6 = 0 ∧ b7 = 0 ∧ b8 = 0 ∧ b9 = 0 ∧ b10 = 0 ∧ b11 = 0 then .ok (-1)
    else .ok (b0.toNat * 256 + b1.toNat : Nat) := by
  rw [getDnsQid, if_neg (by omega)]
  rfl

theorem hi_zero (n : Fin 65536) (k : Nat) (hk : k < 256) :
    (UInt8.ofNat (n.val / 256) = 0 ∧ UInt8.ofNat n.val = UInt8.ofNat k) ↔ n.val = k := by
  rw [← UInt8.toNat_inj, ← UInt8.toNat_inj]
  have := n.isLt
  simp only [UInt8.toNat_ofNat']
  simp
  omega

/-- **C36.** For every packet header (every packet of at least 12 bytes has one, see
`header_of_bytes`), the acceptance test for client packets gives the packet ID exactly
for a standard query with recursion desired, one question and no other record, zero Z
and RCODE; it says "not implemented" (-2) exactly when there is one additional record
instead; otherwise the packet is dropped (-1).  AA, TC, RA, AD and CD are ignored. -/
theorem getDnsQid_client (h : Header) (rest : List UInt8) (len : Nat) (hl : 12 ≤ len) :
    getDnsQid (h.enc ++ rest) len 2 = .ok (
      if h.qr = false ∧ h.opcode = 0 ∧ h.rd = true ∧ h.z = false ∧ h.rcode = 0 ∧ h.qdcount.val = 1 ∧
          h.ancount.val = 0 ∧ h.nscount.val = 0 ∧ h.arcount.val ≤ 1
      then (if h.arcount.val = 0 then (h.id.val : Int) else -2) else -1) := by
  simp only [Header.enc, word, List.cons_append, List.nil_append]
  rw [qid_bytes hl, if_neg (fun hh => absurd hh.1 (by decide))]
  have q := hi_zero h.qdcount 1 (by omega)
  have an := hi_zero h.ancount 0 (by omega)
  have ns := hi_zero h.nscount 0 (by omega)
  have ar0 := hi_zero h.arcount 0 (by omega)
  have ar1 := hi_zero h.arcount 1 (by omega)
  have t1 := flags1_test h.qr h.opcode h.aa h.tc h.rd
  have t2 := flags2_test h.ra h.z h.ad h.cd h.rcode
  simp only [UInt8.reduceOfNat] at q an ns ar0 ar1
  by_cases g : h.qr = false ∧ h.opcode = 0 ∧ h.rd = true ∧ h.z = false ∧ h.rcode = 0 ∧ h.qdcount.val = 1 ∧
          h.ancount.val = 0 ∧ h.nscount.val = 0 ∧ h.arcount.val ≤ 1
  · obtain ⟨g1, g2, g3, g4, g5, g6, g7, g8, g9⟩ := g
    have c1 := (not_congr t1).2 (by simp [g1, g2, g3])
    have c2 := (not_congr t2).2 (by simp [g4, g5])
    have c3 := q.2 g6
    have c4 := an.2 g7
    have c5 := ns.2 g8
    rw [Decidable.not_not] at c1 c2
    by_cases ha : h.arcount.val = 0
    · have c6 := ar0.2 ha
      rw [if_neg (by simp [c1, c2, c3, c4, c5, c6]), if_neg (by simp [c6]), if_neg (by simp [c6]),
        if_neg (by simp [c3]), if_pos ⟨g1, g2, g3, g4, g5, g6, g7, g8, g9⟩, if_pos ha]
      have := h.id.isLt
      simp only [UInt8.toNat_ofNat', Res.ok.injEq]
      omega
    · have c6 := ar1.2 (by omega)
      rw [if_neg (by simp [c1, c2, c3, c4, c5, c6]), if_pos (by simp [c6]),
        if_pos ⟨g1, g2, g3, g4, g5, g6, g7, g8, g9⟩, if_neg ha]
  · rw [if_neg g]
    by_cases k : (flags1 h.qr h.opcode h.aa h.tc h.rd &&& 0xf9 ≠ 1 ∨ flags2 h.ra h.z h.ad h.cd h.rcode &&& 0x4f ≠ 0 ∨
        UInt8.ofNat (h.qdcount.val / 256) ≠ 0 ∨ UInt8.ofNat h.qdcount.val ≠ 1 ∨
        UInt8.ofNat (h.ancount.val / 256) ≠ 0 ∨ UInt8.ofNat h.ancount.val ≠ 0 ∨
        UInt8.ofNat (h.nscount.val / 256) ≠ 0 ∨ UInt8.ofNat h.nscount.val ≠ 0 ∨ UInt8.ofNat (h.arcount.val / 256) ≠ 0)
    · rw [if_pos ⟨rfl, k⟩]
    · rw [if_neg (fun hh => k hh.2)]
      simp only [not_or, Decidable.not_not] at k
      obtain ⟨k1, k2, k3, k4, k5, k6, k7, k8, k9⟩ := k
      have e1 := Decidable.not_not.1 (mt t1.2 (by simp [k1]))
      have e2 := Decidable.not_not.1 (mt t2.2 (by simp [k2]))
      have hbad : ¬ h.arcount.val ≤ 1 := fun hh =>
        g ⟨e1.1, e1.2.1, e1.2.2, e2.1, e2.2, q.1 ⟨k3, k4⟩, an.1 ⟨k5, k6⟩, ns.1 ⟨k7, k8⟩, hh⟩
      have n1 : UInt8.ofNat h.arcount.val ≠ 1 := fun hh => hbad (by rw [ar1.1 ⟨k9, hh⟩]; omega)
      have n0 : UInt8.ofNat h.arcount.val ≠ 0 := fun hh => hbad (by rw [ar0.1 ⟨k9, hh⟩]; omega)
      rw [if_neg (by simp [n1]), if_pos ⟨rfl, n0⟩]

/-- C36, packets without a full header are dropped, whatever the buffer holds. -/
theorem getDnsQid_short (a : List UInt8) {len : Nat} (h : len < 12) (check : Nat) : getDnsQid a len check = .ok (-1) := by
  simp [getDnsQid, h]

/-- An ordinary query: ID 258, RD set, one question. -/
example : getDnsQid ([1, 2, 1, 0, 0, 1, 0, 0, 0, 0, 0, 0] ++ [1, 97, 0, 0, 1, 0, 1]) 19 2 = .ok 258 := by decide +kernel
/-- The same with an OPT record announced. -/
example : getDnsQid ([1, 2, 1, 0, 0, 1, 0, 0, 0, 0, 0, 1] ++ [1, 97, 0, 0, 1, 0, 1]) 19 2 = .ok (-2) := by decide +kernel

/-- Writing the ID changes the first two bytes only, and it is read back. -/
theorem setDnsQid_readback (a : List UInt8) (len qid : Nat) (h : 12 ≤ len) (ha : len ≤ a.length) (hq : qid < 65536) :
    ∃ b, setDnsQid a len qid = .ok (qid, b) ∧ b.drop 2 = a.drop 2 ∧ b.length = a.length ∧
      ∀ hd : Header, ∀ rest, b = hd.enc ++ rest → hd.id.val = qid := by
  match a, ha with
  | [], ha => simp at ha; omega
  | [x], ha => simp at ha; omega
  | x :: y :: r, ha =>
    refine ⟨UInt8.ofNat (qid / 256) :: UInt8.ofNat qid :: r, ?_, rfl, rfl, ?_⟩
    · unfold setDnsQid
      rw [if_neg (by omega)]
      simp [wr]
    · intro hd rest he
      simp only [Header.enc, word, List.cons_append, List.nil_append, List.cons.injEq] at he
      obtain ⟨h1, h2, -⟩ := he
      have h1 := congrArg UInt8.toNat h1
      have h2 := congrArg UInt8.toNat h2
      have := hd.id.isLt
      simp only [UInt8.toNat_ofNat'] at h1 h2
      omega

example : setDnsQid [9, 9, 1, 0, 0, 1, 0, 0, 0, 0, 0, 0] 12 258 = .ok (258, [1, 2, 1, 0, 0, 1, 0, 0, 0, 0, 0, 0]) := by
  decide +kernel

end Hdr
end Dw
