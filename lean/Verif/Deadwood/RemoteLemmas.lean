import Verif.Deadwood.RemoteModel
import Verif.Deadwood.SynthReplyProps
import Verif.Deadwood.DnsStr3Props
/-!
# Lemmas: replies from upstream
-/

namespace Dw
namespace Remote
open Acl (rd wr)
open Spec SR

theorem dstr_usable {l : List UInt8} (h : l.length < 134217727) : Usable (dstr l) := DwStr.ofBytes_usable h
theorem dstr_contents (l : List UInt8) : (dstr l).contents = l := DwStr.ofBytes_contents l

/-- A question that Deadwood reads: a legal name without control characters, of a type
that is not private to Deadwood. -/
structure Legal (ls : List (List UInt8)) (t0 t1 : UInt8) : Prop where
  ok : LabelsOk ls
  noCtl : NoCtl ls
  len : (encName ls).length ≤ 256
  type : ¬ (t0 = 0xff ∧ 0x70 ≤ t1.toNat ∧ t1.toNat ≤ 0x7f)

/-- The packet starts with this header and this question. -/
def Asks (packet : List UInt8) (h : Header) (ls : List (List UInt8)) (t0 t1 : UInt8) : Prop :=
  ∃ rest, packet = h.enc ++ (encName ls ++ ([t0, t1] ++ rest))

def lowerLabels (ls : List (List UInt8)) : List (List UInt8) := ls.map (List.map lower)

theorem lowerLabels_ok {ls : List (List UInt8)} (h : LabelsOk ls) : LabelsOk (lowerLabels ls) := by
  intro l hl
  simp only [lowerLabels, List.mem_map] at hl
  obtain ⟨m, hm, rfl⟩ := hl
  rw [List.length_map]
  exact h m hm

theorem encLabels_lower_length (ls : List (List UInt8)) : (encLabels (lowerLabels ls)).length = (encLabels ls).length := by
  induction ls with
  | nil => rfl
  | cons l ls ih =>
    rw [lowerLabels] at ih
    rw [lowerLabels, List.map_cons, encLabels_cons, encLabels_cons, List.length_append, List.length_append, ih]
    simp

theorem question_of (packet : List UInt8) (len : Nat) {ls : List (List UInt8)} {t0 t1 : UInt8} (hl : Legal ls t0 t1)
    (hg : Dw.getDnameType packet 12 len = .ok (encName ls ++ [t0, t1])) :
    question packet len = .ok (encName (lowerLabels ls) ++ [t0, t1]) := by
  have hlen : (encName ls ++ [t0, t1]).length < 134217727 := by
    have := hl.len
    simp only [List.length_append, List.length_cons, List.length_nil]; omega
  obtain ⟨s, h1, -, -, h4⟩ := DwStr.lowerCase_exact (dstr_usable hlen) hl.ok (dstr_contents _)
  unfold question
  rw [hg]
  simp only
  rw [h1]
  simp only
  rw [h4]
  rfl

/-- The question of any packet: refused, or a legal one. -/
theorem question_cases (packet : List UInt8) (len : Nat) (h12 : 12 ≤ len) (hlen : len ≤ packet.length) (hmax : len < 134217728) :
    (question packet len = .err ∧ ¬ ∃ h ls t0 t1, Legal ls t0 t1 ∧ Asks (packet.take len) h ls t0 t1) ∨
    (∃ h ls t0 t1, Legal ls t0 t1 ∧ Asks (packet.take len) h ls t0 t1 ∧
      question packet len = .ok (encName (lowerLabels ls) ++ [t0, t1])) := by
  rcases getDnameType_exact packet 12 len hlen hmax with ⟨ls, t0, t1, rest, g1, g2, g3, g4⟩ | ⟨g1, g2⟩
  · right
    obtain ⟨-, hok, hc, h256, hin⟩ := g1
    have hl : Legal ls t0 t1 := ⟨hok, hc, h256, g3⟩
    obtain ⟨h, p, hp⟩ := Hdr.header_of_bytes packet (by omega)
    refine ⟨h, ls, t0, t1, hl, ?_, question_of packet len hl g4⟩
    refine ⟨rest.take (len - 12 - (encName ls).length - 2), ?_⟩
    have hd : p = encName ls ++ ([t0, t1] ++ rest) := by
      have : packet.drop 12 = p := by
        rw [hp, List.drop_append, List.drop_of_length_le (by rw [enc_length]; omega), enc_length]; rfl
      rw [← this, g2]; rfl
    rw [hp, hd, List.take_append, enc_length, List.take_of_length_le (by rw [enc_length]; omega),
      List.take_append, List.take_of_length_le (by omega), List.take_append, List.take_of_length_le (l := [t0, t1]) (by simp; omega)]
    rfl
  · left
    refine ⟨by rw [question, g1], ?_⟩
    rintro ⟨h, ls, t0, t1, hl, rest, he⟩
    apply g2
    have hp : packet = h.enc ++ (encName ls ++ ([t0, t1] ++ rest)) ++ packet.drop len := by
      rw [← he, List.take_append_drop]
    have hle : 12 + (encName ls).length + 2 ≤ len := by
      have := congrArg List.length he
      rw [List.length_take] at this
      simp only [List.length_append, enc_length, List.length_cons, List.length_nil] at this
      omega
    have hd : packet.drop 12 = encName ls ++ t0 :: t1 :: (rest ++ packet.drop len) := by
      conv_lhs => rw [hp]
      rw [List.append_assoc, List.drop_append, List.drop_of_length_le (by rw [enc_length]; omega), enc_length]
      simp
    exact ⟨ls, t0, t1, _, ⟨⟨_, hd⟩, hl.ok, hl.noCtl, hl.len, hle⟩, hd, hl.type⟩

theorem lower_question_inj {a b : List (List UInt8)} (ha : LabelsOk a) (hb : LabelsOk b) {t0 t1 u0 u1 : UInt8} :
    encName (lowerLabels a) ++ [t0, t1] = encName (lowerLabels b) ++ [u0, u1] ↔ lowerLabels a = lowerLabels b ∧ t0 = u0 ∧ t1 = u1 := by
  constructor
  · intro h
    have e := encName_inj (lowerLabels_ok ha) (lowerLabels_ok hb) h
    rw [e] at h
    have := List.append_cancel_left h
    simp only [List.cons.injEq, and_true] at this
    exact ⟨e, this⟩
  · rintro ⟨e, rfl, rfl⟩
    rw [e]

/-- The ID of a reply. -/
theorem qid_reply (h : Header) (rest : List UInt8) (len : Nat) (hl : 12 ≤ len) :
    Hdr.getDnsQid (h.enc ++ rest) len 0 = .ok (
      if h.qdcount.val = 0 ∧ h.ancount.val = 0 ∧ h.nscount.val = 0 ∧ h.arcount.val = 0 then -1 else (h.id.val : Int)) := by
  have e : h.enc ++ rest =
      UInt8.ofNat (h.id.val / 256) :: UInt8.ofNat h.id.val :: flags1 h.qr h.opcode h.aa h.tc h.rd ::
      flags2 h.ra h.z h.ad h.cd h.rcode :: UInt8.ofNat (h.qdcount.val / 256) :: UInt8.ofNat h.qdcount.val ::
      UInt8.ofNat (h.ancount.val / 256) :: UInt8.ofNat h.ancount.val :: UInt8.ofNat (h.nscount.val / 256) ::
      UInt8.ofNat h.nscount.val :: UInt8.ofNat (h.arcount.val / 256) :: UInt8.ofNat h.arcount.val :: rest := rfl
  rw [e, Hdr.qid_bytes hl]
  have h0 : UInt8.ofNat 0 = 0 := rfl
  have q := Hdr.hi_zero h.qdcount 0 (by omega)
  have an := Hdr.hi_zero h.ancount 0 (by omega)
  have ns := Hdr.hi_zero h.nscount 0 (by omega)
  have ar := Hdr.hi_zero h.arcount 0 (by omega)
  rw [h0] at q an ns ar
  rw [if_neg (by simp), if_neg (by simp), if_neg (by simp), if_neg (by simp)]
  have := h.id.isLt
  by_cases hz : h.qdcount.val = 0 ∧ h.ancount.val = 0 ∧ h.nscount.val = 0 ∧ h.arcount.val = 0
  · rw [if_pos hz]
    obtain ⟨z1, z2, z3, z4⟩ := hz
    rw [if_pos ⟨(q.2 z1).2, (q.2 z1).1, (an.2 z2).1, (an.2 z2).2, (ns.2 z3).1, (ns.2 z3).2, (ar.2 z4).1, (ar.2 z4).2⟩]
  · rw [if_neg hz, if_neg (by
      rintro ⟨z2, z1, z3, z4, z5, z6, z7, z8⟩
      exact hz ⟨q.1 ⟨z1, z2⟩, an.1 ⟨z3, z4⟩, ns.1 ⟨z5, z6⟩, ar.1 ⟨z7, z8⟩⟩)]
    simp only [UInt8.toNat_ofNat', Res.ok.injEq]
    omega

end Remote
end Dw
