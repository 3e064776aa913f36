import Verif.Deadwood.DissectName
import Mathlib.Data.List.Forall2
import Verif.Deadwood.DecompPacketProps
import Verif.Deadwood.CompressPacketProps
/-!
# The records of a reply where the code looks for them: lemmas
-/

namespace Dw
namespace Dissect

open DwStr Spec

/-- The record `r` begins at `c.1`, and its type is at `c.2`. -/
structure Here (s : DwStr) (c : Nat × Nat) (r : Rec) : Prop where
  plain : r.Plain
  mid : c.2 = c.1 + (encName r.name).length
  bytes : BytesAt s.mem c.1 r.toRR.enc

/-- Every record is where it should be. -/
abbrev Sec (s : DwStr) (cells : List (Nat × Nat)) (rs : List Rec) : Prop := List.Forall₂ (Here s) cells rs

theorem nameOk_length {n : List (List UInt8)} (h : Spec.NameOk n) : n.length < 200 := by
  have := encName_labels_le h.1
  have := h.2
  omega

theorem Here.nameAt {s : DwStr} {c : Nat × Nat} {r : Rec} (h : Here s c r) : PlainAt s.mem c.1 r.name := by
  apply PlainAt.of_encName h.plain.name.1
  have := h.bytes
  unfold RR.enc at this
  simp only [List.append_assoc] at this
  exact bytesAt_left this

theorem Here.rest {s : DwStr} {c : Nat × Nat} {r : Rec} (h : Here s c r) :
    BytesAt s.mem c.2 (be16 r.type ++ (r.cls ++ (be32 r.ttl ++ (be16 r.rdata.length ++ r.rdata)))) := by
  have := h.bytes
  unfold RR.enc at this
  simp only [List.append_assoc] at this
  rw [h.mid]
  exact bytesAt_right this

theorem Here.type {s : DwStr} (hs : Usable s) {c : Nat × Nat} {r : Rec} (h : Here s c r) :
    fetchI s c.2 = .ok r.type := by
  have := fetchU16_at hs (bytesAt_left h.rest) h.plain.ok.type
  unfold fetchI
  rw [this]

theorem Here.cls {s : DwStr} {c : Nat × Nat} {r : Rec} (h : Here s c r) : BytesAt s.mem (c.2 + 2) r.cls :=
  bytesAt_left (by simpa [be16_length] using bytesAt_right h.rest)

theorem be32_length (n : Nat) : (be32 n).length = 4 := by simp [be32, be16]

theorem Here.len {s : DwStr} {c : Nat × Nat} {r : Rec} (h : Here s c r) :
    BytesAt s.mem (c.2 + 8) (be16 r.rdata.length) := by
  have h2 := bytesAt_right (bytesAt_right (bytesAt_right h.rest))
  rw [be16_length, h.plain.ok.cls, be32_length] at h2
  exact bytesAt_left h2

theorem Here.data {s : DwStr} {c : Nat × Nat} {r : Rec} (h : Here s c r) :
    BytesAt s.mem (c.2 + 10) r.rdata := by
  have h2 := bytesAt_right (bytesAt_right (bytesAt_right (bytesAt_right h.rest)))
  rw [be16_length, h.plain.ok.cls, be32_length, be16_length] at h2
  exact h2

/-- The form of the data of records that are one name. -/
theorem oneName_form {r : Rec} (h : r.Plain) (ht : r.type = 2 ∨ r.type = 5) :
    r.names = [r.target] ∧ r.rdata = encName r.target ∧ Spec.NameOk r.target := by
  have := h.ok.form
  have hl : rdLayout r.type = some (0, 1, 0) := by rcases ht with e | e <;> rw [e] <;> rfl
  rw [hl] at this
  simp only [Option.getD_some, Prod.mk.injEq] at this
  obtain ⟨h1, h2, h3⟩ := this
  obtain ⟨t, ht⟩ := List.length_eq_one_iff.1 h2
  have e1 : r.lead = [] := List.length_eq_zero_iff.1 h1
  have e3 : r.tail = [] := List.length_eq_zero_iff.1 h3
  have e : r.target = t := by simp [Rec.target, ht]
  refine ⟨by rw [ht, e], by simp [Rec.rdata, e1, e3, ht, e], ?_⟩
  rw [e]
  exact h.names t (by simp [ht])

theorem Here.targetAt {s : DwStr} {c : Nat × Nat} {r : Rec} (h : Here s c r) (ht : r.type = 2 ∨ r.type = 5) :
    PlainAt s.mem (c.2 + 10) r.target := by
  obtain ⟨-, h2, h3⟩ := oneName_form h.plain ht
  apply PlainAt.of_encName h3.1
  have := h.data
  rw [h2] at this
  exact this

theorem enc_len {r : Rec} (h : r.Ok) : r.toRR.enc.length = r.toRR.size :=
  RR.enc_length ⟨h.type, h.cls, h.ttl, by simp [Rec.toRR, be16_length]⟩

theorem sec_of {s : DwStr} : ∀ {rs : List Rec} {pre post : List UInt8}, (∀ r ∈ rs, r.Plain) →
    s.contents = pre ++ (rs.map Rec.toRR).flatMap RR.enc ++ post →
    Sec s (offsets pre.length (rs.map Rec.toRR)) rs
  | [], _, _, _, _ => .nil
  | r :: rs, pre, post, hok, hc => by
    simp only [List.map_cons, offsets]
    refine .cons ⟨hok r (by simp), rfl, ?_⟩ ?_
    · refine bytesAt_mid (post := (rs.map Rec.toRR).flatMap RR.enc ++ post) ?_
      rw [hc]; simp
    · have := sec_of (s := s) (rs := rs) (pre := pre ++ r.toRR.enc) (post := post) (fun x hx => hok x (by simp [hx]))
        (by rw [hc]; simp)
      rw [List.length_append, enc_len (hok r (by simp)).ok] at this
      exact this

/-- The string `inp` is the reply with the records `p`, as `dwc_decompress` makes it. -/
structure Reply (inp : DwStr) (p : Answers) : Prop where
  usable : Usable inp
  contents : inp.contents = p.packed.enc
  recs : ∀ r ∈ p.all, r.Plain
  size : sizes (p.all.map Rec.toRR) < 65536
  kind : p.kind = 0 ∨ p.kind = 1 ∨ p.kind = 2
  some : p.all ≠ []

theorem Reply.packed {inp : DwStr} {p : Answers} (h : Reply inp p) : p.packed.Ok where
  recs := by
    intro r hr
    rw [packed_all] at hr
    obtain ⟨x, hx, rfl⟩ := List.mem_map.1 hr
    have := (h.recs x hx).ok
    exact ⟨this.type, this.cls, this.ttl, by simp [Rec.toRR, be16_length]⟩
  size := by rw [packed_all]; exact h.size
  kind := h.kind

/-- A view of the reply `p`, whose records are where the code looks for them. -/
structure Views (inp : DwStr) (p : Answers) (look : DnsStr) : Prop where
  packet : Usable look.packet
  same : look.packet.contents = inp.contents
  an : Sec inp look.an p.an
  ns : Sec inp look.ns p.ns
  ar : Sec inp look.ar p.ar
  an' : Sec look.packet look.an p.an
  ns' : Sec look.packet look.ns p.ns
  ar' : Sec look.packet look.ar p.ar
  cells : look.an = offsets 0 (p.an.map Rec.toRR) ∧ look.ns = offsets (sizes (p.an.map Rec.toRR)) (p.ns.map Rec.toRR) ∧
    look.ar = offsets (sizes (p.an.map Rec.toRR) + sizes (p.ns.map Rec.toRR)) (p.ar.map Rec.toRR)

theorem sec_length {s : DwStr} {cells : List (Nat × Nat)} {rs : List Rec} (h : Sec s cells rs) :
    cells.length = rs.length := h.length_eq

theorem marks_exact {inp : DwStr} (hi : Usable inp) : ∀ {cells : List (Nat × Nat)} {rs : List Rec}, Sec inp cells rs →
    marks inp cells = .ok (rs.map fun r => rrNumber r.type)
  | _, _, .nil => rfl
  | _, _, .cons h hs => by
    simp only [marks]
    rw [h.type hi, marks_exact hi hs]
    rfl

theorem secs_of {inp : DwStr} {p : Answers} (h : Reply inp p) {s : DwStr} (hc : s.contents = inp.contents) :
    Sec s (offsets 0 (p.an.map Rec.toRR)) p.an ∧
    Sec s (offsets (sizes (p.an.map Rec.toRR)) (p.ns.map Rec.toRR)) p.ns ∧
    Sec s (offsets (sizes (p.an.map Rec.toRR) + sizes (p.ns.map Rec.toRR)) (p.ar.map Rec.toRR)) p.ar := by
  have hok : ∀ l : List Rec, (∀ r ∈ l, r.Plain) → ∀ x ∈ l.map Rec.toRR, x.Ok := by
    intro l hl x hx
    obtain ⟨r, hr, rfl⟩ := List.mem_map.1 hx
    have := (hl r hr).ok
    exact ⟨this.type, this.cls, this.ttl, by simp [Rec.toRR, be16_length]⟩
  have h1 : ∀ r ∈ p.an, r.Plain := fun r hr => h.recs r (by simp [Answers.all, hr])
  have h2 : ∀ r ∈ p.ns, r.Plain := fun r hr => h.recs r (by simp [Answers.all, hr])
  have h3 : ∀ r ∈ p.ar, r.Plain := fun r hr => h.recs r (by simp [Answers.all, hr])
  have e := h.contents
  rw [← hc] at e
  simp only [Packed.enc, packed_all] at e
  simp only [Answers.all, List.map_append, List.flatMap_append] at e
  refine ⟨?_, ?_, ?_⟩
  · refine sec_of (pre := []) (post := ?_) h1 ?_
    rotate_left
    · rw [e]; simp only [List.nil_append, List.append_assoc]; rfl
  · rw [← encs_length (hok _ h1)]
    refine sec_of (pre := (p.an.map Rec.toRR).flatMap RR.enc) (post := ?_) h2 ?_
    rotate_left
    · rw [e]; simp only [List.append_assoc]; rfl
  · rw [← encs_length (hok _ h1), ← encs_length (hok _ h2), ← List.length_append]
    refine sec_of (pre := (p.an.map Rec.toRR).flatMap RR.enc ++ (p.ns.map Rec.toRR).flatMap RR.enc) (post := ?_) h3 ?_
    rotate_left
    · rw [e]; simp only [List.append_assoc]; rfl

theorem details_exact {inp : DwStr} {p : Answers} (h : Reply inp p) (junk : List UInt8) :
    ∃ look, Views inp p look ∧ details inp junk = .ok ⟨look, p.an.map (fun r => rrNumber r.type),
      p.ns.map (fun r => rrNumber r.type), p.ar.map (fun r => rrNumber r.type)⟩ := by
  obtain ⟨d, e, hu, hc, h1, h2, h3, -⟩ := makeDnsStr_eq h.usable h.packed
    (by rw [packed_all]; simpa using h.some) h.contents junk
  have hcc : d.packet.contents = inp.contents := by rw [hc, h.contents]
  obtain ⟨a1, a2, a3⟩ := secs_of h (s := inp) rfl
  obtain ⟨b1, b2, b3⟩ := secs_of h (s := d.packet) hcc
  simp only [Answers.packed] at h1 h2 h3
  rw [← h1] at a1 b1
  rw [← h2] at a2 b2
  rw [← h3] at a3 b3
  refine ⟨d, ⟨hu, hcc, a1, a2, a3, b1, b2, b3, h1, h2, h3⟩, ?_⟩
  unfold details
  rw [e]
  simp only [Res.ok_bind]
  rw [marks_exact h.usable a1, marks_exact h.usable a2, marks_exact h.usable a3]
  rfl

/-! ### Cutting out records and names -/

theorem bytes_of_at {s : DwStr} (_ : Usable s) {i : Nat} {l : List UInt8} (h : BytesAt s.mem i l) :
    (s.contents.drop i).take l.length = l := bytesAt_take h

theorem at_bound {s : DwStr} (_ : Usable s) {i : Nat} {l : List UInt8} (h : BytesAt s.mem i l) (h0 : 0 < l.length) :
    i + l.length ≤ s.contents.length := bytesAt_le h h0

/-- Internet class. -/
def inClass (r : Rec) : Prop := r.cls = [0, 1]

instance (r : Rec) : Decidable (inClass r) := inferInstanceAs (Decidable (_ = _))

theorem rr_pos {r : Rec} (h : r.Ok) : 0 < r.toRR.enc.length := by rw [enc_len h]; simp [RR.size]; omega

theorem cls_value {r : Rec} (h : r.Ok) : ∃ v, v < 65536 ∧ r.cls = be16 v ∧ (v = 1 ↔ inClass r) := by
  have hc := h.cls
  match hr : r.cls, hc with
  | [x, y], _ =>
    refine ⟨x.toNat * 256 + y.toNat, ?_, ?_, ?_⟩
    · have := x.toNat_lt; have := y.toNat_lt; omega
    · have := x.toNat_lt; have := y.toNat_lt
      simp only [be16]
      congr 1
      · apply UInt8.toNat_inj.1; rw [ofNat8_toNat]; omega
      · congr 1; apply UInt8.toNat_inj.1; rw [ofNat8_toNat]; omega
    · unfold inClass
      rw [hr]
      constructor
      · intro h
        have hx : x.toNat = 0 := by have := y.toNat_lt; omega
        have hy : y.toNat = 1 := by omega
        rw [show x = 0 from UInt8.toNat_inj.1 hx, show y = 1 from UInt8.toNat_inj.1 hy]
      · intro h
        simp only [List.cons.injEq, and_true] at h
        rw [h.1, h.2]; rfl

/-- `dwx_get_1_dns_rr` gives the record, if it is of the Internet class. -/
theorem oneRr_exact {s : DwStr} (hs : Usable s) {c : Nat × Nat} {r : Rec} (h : Here s c r) (junk : List UInt8) :
    (inClass r → ∃ t, oneRr s c.1 junk = .ok t ∧ Usable t ∧ t.contents = r.toRR.enc) ∧
    (¬ inClass r → oneRr s c.1 junk = .err) := by
  have hb := at_bound hs h.bytes (rr_pos h.plain.ok)
  rw [enc_len h.plain.ok] at hb
  have hcl := hs.clen
  have hlim := hs.lim
  have hlt := hs.lt
  obtain ⟨v, hv, hv1, hv2⟩ := cls_value h.plain.ok
  have hcls := h.cls
  rw [hv1] at hcls
  have hf := fetchU16_at hs hcls hv
  have hfl := fetchU16_at hs h.len h.plain.ok.size
  have he := getDnEnd_plain hs h.nameAt (nameOk_length h.plain.name)
  rw [← h.mid] at he
  have hsz : r.toRR.size = c.2 + 10 + r.rdata.length - c.1 := by
    simp only [RR.size, Rec.toRR, h.mid]; omega
  have hmid := h.mid
  unfold oneRr
  rw [if_neg (by omega), he]
  simp only [Res.ok_bind]
  rw [if_neg (by omega)]
  unfold fetchI
  rw [hf]
  simp only [Res.ok_bind]
  constructor
  · intro hin
    rw [if_neg (by simp only [ne_eq, not_not]; have := hv2.2 hin; omega), hfl]
    simp only [Res.ok_bind]
    obtain ⟨t, e1, e2, -, e4⟩ := substr_in hs c.1 r.toRR.size 1 junk (by omega) (by
      have := h.plain.ok.size; have := h.plain.name.2; omega)
    refine ⟨t, ?_, e2, ?_⟩
    · rw [← hsz]; exact e1
    · rw [e4, ← enc_len h.plain.ok, bytes_of_at hs h.bytes]
  · intro hin
    rw [if_pos]
    intro hh
    exact hin (hv2.1 (by omega))

/-- `dwx_get_dns_string` gives the name. -/
theorem oneName_exact {s : DwStr} (hs : Usable s) {o : Nat} {ls : List (List UInt8)} (hok : Spec.NameOk ls)
    (h : BytesAt s.mem o (encName ls)) (junk : List UInt8) :
    ∃ t, oneName s o junk = .ok t ∧ Usable t ∧ t.contents = encName ls := by
  have hp := PlainAt.of_encName hok.1 h
  have hpos : 0 < (encName ls).length := by simp [encName]
  have hb := at_bound hs h hpos
  have hcl := hs.clen
  have he := getDnEnd_plain hs hp (nameOk_length hok)
  have := hok.2
  unfold oneName
  rw [if_neg (by omega), he]
  simp only [Res.ok_bind]
  rw [if_neg (by omega)]
  obtain ⟨t, e1, e2, -, e4⟩ := substr_in hs o (encName ls).length 1 junk (by omega) (by omega)
  refine ⟨t, ?_, e2, by rw [e4, bytes_of_at hs h]⟩
  rw [show o + (encName ls).length - o = (encName ls).length by omega]
  exact e1

end Dissect
end Dw
