import Verif.Mara.LookupExact
import Verif.Spec.Header
/-!
# Lemmas: the start of `proc_query`
-/

namespace Mara
namespace Lookup

open Dw (Res)
open Spec

variable {ρ : Type}

/-- A query: header, name, type, class and whatever follows. -/
def queryBytes (hd : Header) (q : Name) (t c : Nat) (rest : List UInt8) : List UInt8 :=
  hd.enc ++ (encName q ++ (u16 t ++ (u16 c ++ rest)))

/-- An ordinary query: one question, no operation code. -/
structure Ordinary (hd : Header) : Prop where
  qr : hd.qr = false
  opcode : hd.opcode = 0
  qdcount : hd.qdcount = 1

theorem flag_bits : ∀ (aa tc rd : Bool), (flags1 false 0 aa tc rd &&& 0x80 = 0) ∧ (flags1 false 0 aa tc rd &&& 0x78 = 0) ∧
    ((flags1 false 0 aa tc rd &&& 1 ≠ 0) ↔ rd = true) := by decide +kernel

theorem rd_get {s : Js} {i : Nat} {x : UInt8} (h : s.contents[i]? = some x) : Js.rd s.buf i = .ok x := by
  unfold Js.contents at h
  rw [List.getElem?_take] at h
  split at h
  · unfold Js.rd; rw [h]
  · cases h

theorem enc_length (hd : Header) : hd.enc.length = 12 := rfl

/-- What becomes of a query with an ordinary header. -/
theorem front {raw : Js} (hs : Js.Ok raw) (cfg : Cfg) (h : Hash ρ) {hd : Header} (ho : Ordinary hd) {q : Name}
    (hq : LabelsOk q) (hl : (encName q).length ≤ 255) {t c : Nat} (ht : t < 65536) {rest : List UInt8}
    (hc : raw.contents = queryBytes hd q t c rest) :
    procQuery cfg h raw =
      if (encName q).length > 253 then .ok (quiet cfg (.error 2 true))
      else if UInt8.ofNat (c / 256) ≠ 0 ∧ UInt8.ofNat c ≠ 1 then .ok (quiet cfg (.error 4 true))
      else if t = 28 ∧ cfg.rejectAaaa then .ok .rejected
      else if t = 12 ∧ cfg.rejectPtr then .ok .rejected
      else if t = 253 ∨ t = 254 ∨ t = 250 then .ok (quiet cfg (.error 4 true))
      else if t = 251 ∨ t = 252 then .ok (quiet cfg (.error (-111) true))
      else .ok (servFail cfg (search cfg h hd.id.val hd.rd (key q t))) := by
  have hb := hs.block
  have hfit := hs.fits
  have hcount : raw.count = 12 + (encName q).length + 4 + rest.length := by
    have h1 : raw.contents.length = raw.count := by
      unfold Js.contents; rw [List.length_take]; omega
    rw [← h1, hc]
    simp [queryBytes, enc_length, u16]
    omega
  have hpos := encName_pos q
  have g : ∀ i, i < 12 → raw.contents[i]? = hd.enc[i]? := by
    intro i hi
    rw [hc]
    unfold queryBytes
    rw [List.getElem?_append_left (by rw [enc_length]; exact hi)]
  have g0 := rd_get (show raw.contents[0]? = some (UInt8.ofNat (hd.id.val / 256)) from g 0 (by omega))
  have g1 := rd_get (show raw.contents[1]? = some (UInt8.ofNat hd.id.val) from g 1 (by omega))
  have g2 := rd_get (show raw.contents[2]? = some (flags1 hd.qr hd.opcode hd.aa hd.tc hd.rd) from g 2 (by omega))
  have g4 := rd_get (show raw.contents[4]? = some (UInt8.ofNat (hd.qdcount.val / 256)) from g 4 (by omega))
  have g5 := rd_get (show raw.contents[5]? = some (UInt8.ofNat hd.qdcount.val) from g 5 (by omega))
  have hfl := flag_bits hd.aa hd.tc hd.rd
  have hdl : dlabelLength raw 12 = .ok (encName q).length := by
    rw [dlabelLength_list hs 12 (by omega), hc]
    have := dlabel_name hq hd.enc (u16 t ++ (u16 c ++ rest)) 12 256 0 (by rw [enc_length])
      (by have := Fits.labels hq; omega) (by omega)
    unfold queryBytes
    rw [this]
    simp
  have hsub : L.substr raw.contents 12 ((encName q).length + 2) 256 =
      if (encName q).length > 253 then none else some (key q t) := by
    unfold L.substr
    have h1 : raw.contents.length = raw.count := by
      unfold Js.contents; rw [List.length_take]; omega
    rw [h1]
    by_cases h3 : (encName q).length > 253
    · rw [if_neg (by omega), if_pos h3]
    · rw [if_pos (by omega), if_neg h3, hc]
      unfold queryBytes
      rw [List.drop_left' (enc_length hd), ← List.append_assoc, List.take_left' (by simp [u16])]
      rfl
  have gc0 : Js.rd raw.buf ((encName q).length + 14) = .ok (UInt8.ofNat (c / 256)) := by
    apply rd_get
    rw [hc]
    have : queryBytes hd q t c rest = (hd.enc ++ (encName q ++ u16 t)) ++ (u16 c ++ rest) := by simp [queryBytes]
    rw [this, List.getElem?_append_right (by simp [enc_length, u16]; omega)]
    have e : (encName q).length + 14 - (hd.enc ++ (encName q ++ u16 t)).length = 0 := by simp [enc_length, u16]; omega
    rw [e]
    rfl
  have gc1 : Js.rd raw.buf ((encName q).length + 15) = .ok (UInt8.ofNat c) := by
    apply rd_get
    rw [hc]
    have : queryBytes hd q t c rest = (hd.enc ++ (encName q ++ u16 t)) ++ (u16 c ++ rest) := by simp [queryBytes]
    rw [this, List.getElem?_append_right (by simp [enc_length, u16]; omega)]
    have e : (encName q).length + 15 - (hd.enc ++ (encName q ++ u16 t)).length = 1 := by simp [enc_length, u16]; omega
    rw [e]
    rfl
  unfold procQuery
  rw [if_neg (by simp [Js.sane]; omega), if_neg (by omega), g0, g1, g2, g4, g5, hdl]
  simp only [Dw.Res.ok_bind]
  rw [hsub]
  rw [ho.qr, ho.opcode, ho.qdcount]
  rw [if_neg (by rw [hfl.1]; simp), if_neg (by decide), if_neg (by omega), if_neg (by omega), if_neg (by omega)]
  by_cases h3 : (encName q).length > 253
  · rw [if_pos h3, if_pos h3]
  · rw [if_neg h3, if_neg h3]
    simp only
    rw [if_neg (by rw [hfl.2.1]; simp), gc0, gc1]
    simp only [Dw.Res.ok_bind]
    rw [getRtype_key q t ht]
    simp only
    have hid : (UInt8.ofNat (hd.id.val / 256)).toNat * 256 + (UInt8.ofNat hd.id.val).toNat = hd.id.val := by
      have := hd.id.isLt
      simp only [UInt8.toNat_ofNat']
      omega
    have hrd : decide (flags1 false 0 hd.aa hd.tc hd.rd &&& 1 ≠ 0) = hd.rd := by
      cases hr : hd.rd
      · rw [hr] at hfl; simpa using hfl.2.2
      · rw [hr] at hfl; simpa using hfl.2.2
    rw [hid, hrd]

end Lookup
end Mara
