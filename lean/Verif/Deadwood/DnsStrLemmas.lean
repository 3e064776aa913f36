import Verif.Deadwood.DnsStrModel
import Verif.Deadwood.StrProps
import Verif.Deadwood.Str2Props
import Verif.Spec.Packed
import Mathlib.Data.List.Induction
/-! Helper lemmas about cached answers. -/

namespace Dw
open Spec

theorem be16_length (n : Nat) : (be16 n).length = 2 := rfl

theorem ofNat8_toNat (n : Nat) : (UInt8.ofNat n).toNat = n % 256 := by simp

namespace DwStr

/-- Reading a 16-bit number at a known place. -/
theorem fetch_be16 {s : DwStr} (h : Usable s) {pre post : List UInt8} {v : Nat} (hv : v < 65536)
    (hc : s.contents = pre ++ be16 v ++ post) {i : Int} (hi : i = pre.length) :
    s.fetchU16 i = .ok v := by
  subst hi
  have hlen : pre.length + 1 < s.contents.length := by rw [hc]; simp [be16]
  rw [(fetchU16_in h pre.length hlen).1]
  have e1 : s.contents[pre.length] = UInt8.ofNat (v / 256) := by
    simp [hc, be16]
  have e2 : s.contents[pre.length + 1] = UInt8.ofNat v := by
    simp only [hc, be16, List.append_assoc]
    rw [List.getElem_append_right (by omega)]; simp
  rw [e1, e2, ofNat8_toNat, ofNat8_toNat]
  congr 1; omega

/-- Overwriting a 16-bit number at a known place. -/
theorem put_be16 {s : DwStr} (h : Usable s) {pre post old : List UInt8} {v : Nat}
    (ho : old.length = 2) (hc : s.contents = pre ++ old ++ post)
    (hlen : s.contents.length ≤ 16777215) {i : Int} (hi : i = pre.length) :
    ∃ s', s.putU16 v i = .ok s' ∧ Usable s' ∧ s'.max = s.max ∧
      s'.contents = pre ++ be16 v ++ post := by
  subst hi
  have hl : pre.length + 1 < s.contents.length := by rw [hc]; simp [ho]; omega
  obtain ⟨s', h1, h2, h3, h4⟩ := putU16_in h v pre.length hl hlen
  refine ⟨s', h1, h2, h3, ?_⟩
  obtain ⟨x, y, rfl⟩ : ∃ x y, old = [x, y] := by
    match old, ho with
    | [x, y], _ => exact ⟨x, y, rfl⟩
  rw [h4, hc]
  simp [be16]

theorem orElse_ok (s : DwStr) {t : DwStr} {r : Res DwStr} (h : r = .ok t) : s.orElse r = .ok t := by
  rw [h]; rfl

/-- Reading a table backwards. -/
theorem placeOffsets_eq {s : DwStr} (h : Usable s) {pre : List UInt8} :
    ∀ (cells : List (Nat × Nat)) {post : List UInt8} (acc : List (Nat × Nat)) {off : Int},
    (∀ c ∈ cells, c.1 < 65536 ∧ c.2 < 65536) →
    s.contents = pre ++ cells.flatMap Packed.cell ++ post →
    off = (pre.length + cells.length * 4 : Nat) →
    s.placeOffsets cells.length off acc = .ok ((pre.length : Int), cells ++ acc) := by
  intro cells
  induction cells using List.reverseRecOn with
  | nil =>
    intro post acc off _ hc ho
    subst ho
    simp [placeOffsets]
  | append_singleton cs c ih =>
    intro post acc off hb hc ho
    obtain ⟨hc1, hc2⟩ := hb c (by simp)
    have hlen : (cs.flatMap Packed.cell).length = cs.length * 4 := by
      clear ih hb hc ho
      induction cs with
      | nil => rfl
      | cons a l ih => simp [Packed.cell, be16] at ih ⊢; omega
    simp only [List.flatMap_append, List.flatMap_cons, List.flatMap_nil, List.append_nil,
      Packed.cell] at hc
    have f2 : s.fetchU16 (off - 2) = .ok c.2 :=
      fetch_be16 h hc2 (pre := pre ++ cs.flatMap Packed.cell ++ be16 c.1) (post := post)
        (by rw [hc]; simp) (by simp [hlen, be16, ho]; omega)
    have f1 : s.fetchU16 (off - 2 - 2) = .ok c.1 :=
      fetch_be16 h hc1 (pre := pre ++ cs.flatMap Packed.cell) (post := be16 c.2 ++ post)
        (by rw [hc]; simp) (by simp [hlen, ho]; omega)
    rw [show (cs ++ [c]).length = cs.length + 1 by simp, placeOffsets]
    have h0 : ¬ off - 2 < 0 := by simp at ho; omega
    have h1 : ¬ off - 2 - 2 < 0 := by simp at ho; omega
    simp only [if_neg h0, if_neg h1, fetchCell, f1, f2, Res.ok_bind]
    rw [ih ((c.1, c.2) :: acc) (post := Packed.cell c ++ post) (fun x hx => hb x (by simp [hx]))
      (by rw [hc]; simp [Packed.cell]) (by simp at ho ⊢; omega)]
    simp

end DwStr

/-! ## Layout -/

theorem _root_.Spec.RR.enc_length {r : RR} (h : r.Ok) : r.enc.length = r.size := by
  have := h.cls; have := h.rdlen
  simp [RR.enc, RR.size, be16, be32]; omega

theorem encs_length {rs : List RR} (h : ∀ r ∈ rs, r.Ok) : (rs.flatMap RR.enc).length = sizes rs := by
  induction rs with
  | nil => rfl
  | cons r rs ih =>
    rw [List.flatMap_cons, List.length_append, RR.enc_length (h r (by simp)),
      ih (fun x hx => h x (by simp [hx]))]
    simp [sizes]

theorem sizes_append (a b : List RR) : sizes (a ++ b) = sizes a + sizes b := by simp [sizes]

theorem sizes_cons (r : RR) (b : List RR) : sizes (r :: b) = r.size + sizes b := by simp [sizes]

theorem offsets_length (rs : List RR) : ∀ pos, (offsets pos rs).length = rs.length := by
  induction rs with
  | nil => intro _; rfl
  | cons r rs ih => intro pos; simp [offsets, ih]

theorem offsets_append (a b : List RR) : ∀ pos,
    offsets pos (a ++ b) = offsets pos a ++ offsets (pos + sizes a) b := by
  induction a with
  | nil => intro pos; simp [offsets, sizes]
  | cons r a ih =>
    intro pos
    simp only [List.cons_append, offsets, ih, sizes_cons]
    rw [Nat.add_assoc]

theorem offsets_bound (rs : List RR) : ∀ pos, ∀ c ∈ offsets pos rs,
    c.1 < pos + sizes rs ∧ c.2 < pos + sizes rs := by
  induction rs with
  | nil => intro pos c hc; simp [offsets] at hc
  | cons r rs ih =>
    intro pos c hc
    have hs : r.name.length + 10 ≤ r.size := by simp [RR.size]
    rw [offsets, List.mem_cons] at hc
    rw [sizes_cons]
    rcases hc with rfl | hc
    · simp only; omega
    · have := ih _ c hc; omega

theorem count_le (rs : List RR) : rs.length * 10 ≤ sizes rs := by
  induction rs with
  | nil => simp
  | cons r rs ih =>
    have hs : r.name.length + 10 ≤ r.size := by simp [RR.size]
    rw [sizes_cons, List.length_cons]; omega

theorem cells_length (cs : List (Nat × Nat)) : (cs.flatMap Packed.cell).length = cs.length * 4 := by
  induction cs with
  | nil => rfl
  | cons a l ih => simp [Packed.cell, be16] at ih ⊢; omega

theorem _root_.Spec.Packed.Ok.enc_length {p : Packed} (h : p.Ok) :
    p.enc.length = sizes p.all + p.all.length * 4 + 7 := by
  rw [Packed.enc]
  simp only [List.length_append, encs_length h.recs, cells_length, offsets_length, be16_length]
  rfl

theorem _root_.Spec.Packed.Ok.short {p : Packed} (h : p.Ok) : p.enc.length ≤ 16777215 := by
  have h1 := h.size
  have h2 := count_le p.all
  rw [h.enc_length]; omega

namespace DwStr

/-- The cached form is read back exactly. -/
theorem makeDnsStr_eq {s : DwStr} (h : Usable s) {p : Packed} (hp : p.Ok) (hne : p.all ≠ [])
    (hc : s.contents = p.enc) (junk : List UInt8) :
    ∃ d, s.makeDnsStr junk = .ok d ∧ Usable d.packet ∧ d.packet.contents = p.enc ∧
      d.an = offsets 0 p.an ∧ d.ns = offsets (sizes p.an) p.ns ∧
      d.ar = offsets (sizes p.an + sizes p.ns) p.ar ∧ d.type = p.kind := by
  have hall : p.all = p.an ++ p.ns ++ p.ar := rfl
  have hlen := hp.enc_length
  have hsz := hp.size
  have hcnt := count_le p.all
  have hcl := h.clen
  rw [hc, hlen] at hcl
  have hoff : offsets 0 p.all = offsets 0 p.an ++ offsets (sizes p.an) p.ns ++
      offsets (sizes p.an + sizes p.ns) p.ar := by
    rw [hall, offsets_append, offsets_append]; simp [sizes_append]
  have hbd : ∀ c ∈ offsets 0 p.all, c.1 < 65536 ∧ c.2 < 65536 := by
    intro c hc
    have := offsets_bound p.all 0 c hc; omega
  have hlenAll : p.all.length = p.an.length + p.ns.length + p.ar.length := by
    rw [hall]; simp; omega
  obtain ⟨c, hcp, hcu, hcm, hcc⟩ := copy_exact h junk
  have l1 := encs_length hp.recs
  have l2 := cells_length (offsets 0 p.an)
  have l3 := cells_length (offsets (sizes p.an) p.ns)
  have l4 := cells_length (offsets (sizes p.an + sizes p.ns) p.ar)
  rw [offsets_length] at l2 l3 l4
  have henc : p.enc = p.all.flatMap RR.enc ++ (offsets 0 p.an).flatMap Packed.cell ++
      (offsets (sizes p.an) p.ns).flatMap Packed.cell ++
      (offsets (sizes p.an + sizes p.ns) p.ar).flatMap Packed.cell ++
      be16 p.an.length ++ be16 p.ns.length ++ be16 p.ar.length ++ [p.kind] := by
    rw [Packed.enc, hoff]; simp
  have hk : s.peek ((s.len : Int) - 1).toNat = .ok p.kind := by
    have e : ((s.len : Int) - 1).toNat = s.len - 1 := by omega
    rw [e, peek_contents (by rw [hc, hlen]; omega)]
    congr 1
    have : s.len - 1 = (p.all.flatMap RR.enc ++ (offsets 0 p.all).flatMap Packed.cell ++
      be16 p.an.length ++ be16 p.ns.length ++ be16 p.ar.length).length := by
      simp only [List.length_append, l1, cells_length, offsets_length, be16_length]; omega
    simp only [hc, Packed.enc, this]
    rw [List.getElem_append_right (by omega)]; simp
  have fa : s.fetchU16 ((s.len : Int) - 1 - 2) = .ok p.ar.length :=
    fetch_be16 h (by omega)
      (pre := p.all.flatMap RR.enc ++ (offsets 0 p.all).flatMap Packed.cell ++
        be16 p.an.length ++ be16 p.ns.length) (post := [p.kind])
      (by rw [hc, Packed.enc]) (by
        simp only [List.length_append, l1, cells_length, offsets_length, be16_length]; omega)
  have fn : s.fetchU16 ((s.len : Int) - 1 - 4) = .ok p.ns.length :=
    fetch_be16 h (by omega)
      (pre := p.all.flatMap RR.enc ++ (offsets 0 p.all).flatMap Packed.cell ++
        be16 p.an.length) (post := be16 p.ar.length ++ [p.kind])
      (by rw [hc, Packed.enc]; simp) (by
        simp only [List.length_append, l1, cells_length, offsets_length, be16_length]; omega)
  have fm : s.fetchU16 ((s.len : Int) - 1 - 6) = .ok p.an.length :=
    fetch_be16 h (by omega)
      (pre := p.all.flatMap RR.enc ++ (offsets 0 p.all).flatMap Packed.cell)
      (post := be16 p.ns.length ++ be16 p.ar.length ++ [p.kind])
      (by rw [hc, Packed.enc]; simp) (by
        simp only [List.length_append, l1, cells_length, offsets_length]; omega)
  have q1 := placeOffsets_eq h (pre := p.all.flatMap RR.enc ++ (offsets 0 p.an).flatMap Packed.cell ++
      (offsets (sizes p.an) p.ns).flatMap Packed.cell) (offsets (sizes p.an + sizes p.ns) p.ar)
      (post := be16 p.an.length ++ be16 p.ns.length ++ be16 p.ar.length ++ [p.kind]) []
      (off := (s.len : Int) - 1 - 6) (fun c hc => hbd c (by rw [hoff]; simp [hc]))
      (by rw [hc, henc]; simp) (by
        simp only [List.length_append, l1, l2, l3, offsets_length]; omega)
  have q2 := placeOffsets_eq h (pre := p.all.flatMap RR.enc ++ (offsets 0 p.an).flatMap Packed.cell)
      (offsets (sizes p.an) p.ns)
      (post := (offsets (sizes p.an + sizes p.ns) p.ar).flatMap Packed.cell ++ be16 p.an.length ++
        be16 p.ns.length ++ be16 p.ar.length ++ [p.kind]) []
      (off := ((p.all.flatMap RR.enc ++ (offsets 0 p.an).flatMap Packed.cell ++
      (offsets (sizes p.an) p.ns).flatMap Packed.cell).length : Nat))
      (fun c hc => hbd c (by rw [hoff]; simp [hc]))
      (by rw [hc, henc]; simp) (by
        simp only [List.length_append, l1, l2, l3, offsets_length])
  have q3 := placeOffsets_eq h (pre := p.all.flatMap RR.enc)
      (offsets 0 p.an)
      (post := (offsets (sizes p.an) p.ns).flatMap Packed.cell ++
        (offsets (sizes p.an + sizes p.ns) p.ar).flatMap Packed.cell ++ be16 p.an.length ++
        be16 p.ns.length ++ be16 p.ar.length ++ [p.kind]) []
      (off := ((p.all.flatMap RR.enc ++ (offsets 0 p.an).flatMap Packed.cell).length : Nat))
      (fun c hc => hbd c (by rw [hoff]; simp [hc]))
      (by rw [hc, henc]; simp) (by
        simp only [List.length_append, l1, l2, offsets_length])
  rw [offsets_length] at q1 q2 q3
  refine ⟨⟨c, offsets 0 p.an, offsets (sizes p.an) p.ns, offsets (sizes p.an + sizes p.ns) p.ar,
    p.kind⟩, ?_, hcu, hcc.trans hc, rfl, rfl, rfl, rfl⟩
  have hkk : ¬ (p.kind ≠ 0 ∧ p.kind ≠ 1 ∧ p.kind ≠ 2) := by
    rcases hp.kind with h | h | h <;> simp [h]
  have hge : ¬ ((s.len : Int) - 1 < 7) := by
    have := List.length_pos_iff.2 hne
    omega
  simp only [makeDnsStr, h.sane, Bool.not_true, Bool.false_eq_true, if_false, if_neg hge, hk,
    Res.ok_bind, if_neg hkk, fa, fn, fm, hcp, q1, q2, q3, List.append_nil]

/-- A reply without any record is not accepted as a cached answer. -/
theorem makeDnsStr_short {s : DwStr} (hl : s.len < 8) (junk : List UInt8) :
    s.makeDnsStr junk = .err := by
  have : (s.len : Int) - 1 < 7 := by omega
  simp [makeDnsStr, this]

end DwStr
end Dw
