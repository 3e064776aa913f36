import Verif.Mara.CompPacket
/-!
# Compression: records and whole messages
-/

namespace Mara
namespace Comp

open Spec
open Dw (Res)
open Lookup (encName_cons_length encName_pos encName_lower ofNat_len len_facts)

theorem uint16_step {N : Nat} {s : St} {u pre rest : List UInt8} {a b : UInt8} (hu : u = pre ++ (a :: b :: rest))
    (hoff : s.off = pre.length) (hle : s.out.length ≤ s.off) :
    (uint16 u s = .err ∧ Bad u N) ∨
    uint16 u s = .ok (⟨s.off + 2, s.out ++ [a, b], s.points⟩, a.toNat * 256 + b.toNat) := by
  have h0 : u[s.off]? = some a := by rw [hu, hoff]; simp
  have h1 : u[s.off + 1]? = some b := by rw [hu, hoff]; simp
  have hul : u.length = pre.length + (rest.length + 2) := by rw [hu]; simp
  unfold uint16
  rw [h0, h1]
  simp only
  rcases append_eq s.out [a, b] with ⟨h2, h3⟩ | h2
  · left
    rw [h2]
    simp only [List.length_cons, List.length_nil] at h3
    exact ⟨rfl, .inl (by omega)⟩
  · right
    rw [h2]
    rfl

theorem ttl_step {N : Nat} {s : St} {u pre rest : List UInt8} {a b c d : UInt8} (hu : u = pre ++ (a :: b :: c :: d :: rest))
    (hoff : s.off = pre.length) (hle : s.out.length ≤ s.off) (hne : ¬ (a = 255 ∧ b = 255 ∧ c = 255 ∧ d = 255))
    (hr : 1 ≤ rest.length) :
    (ttl u s = .err ∧ Bad u N) ∨ ttl u s = .ok ⟨s.off + 4, s.out ++ [a, b, c, d], s.points⟩ := by
  have h0 : u[s.off]? = some a := by rw [hu, hoff]; simp
  have h1 : u[s.off + 1]? = some b := by rw [hu, hoff]; simp
  have h2 : u[s.off + 2]? = some c := by rw [hu, hoff]; simp
  have h3 : u[s.off + 3]? = some d := by rw [hu, hoff]; simp
  have hul : u.length = pre.length + (rest.length + 4) := by rw [hu]; simp
  unfold ttl
  rw [h0, h1, h2, h3]
  simp only
  rw [if_neg hne]
  rcases append_eq s.out [a, b, c, d] with ⟨h2, h3⟩ | h2
  · left
    rw [h2]
    simp only [List.length_cons, List.length_nil] at h3
    exact ⟨rfl, .inl (by omega)⟩
  · right
    rw [h2]
    simp only [Res.ok_bind]
    rw [if_neg (by omega)]

theorem be16_val {n : Nat} (h : n < 65536) : (UInt8.ofNat (n / 256)).toNat * 256 + (UInt8.ofNat n).toNat = n := by
  rw [UInt8.toNat_ofNat', UInt8.toNat_ofNat']; omega

theorem be32_ne {t : Nat} (h : t < 4294967296) (hne : t ≠ 4294967295) :
    ¬ (UInt8.ofNat (t / 65536 / 256) = 255 ∧ UInt8.ofNat (t / 65536) = 255 ∧ UInt8.ofNat (t % 65536 / 256) = 255 ∧
      UInt8.ofNat (t % 65536) = 255) := by
  rintro ⟨h1, h2, h3, h4⟩
  have h1 := congrArg UInt8.toNat h1
  have h2 := congrArg UInt8.toNat h2
  have h3 := congrArg UInt8.toNat h3
  have h4 := congrArg UInt8.toNat h4
  rw [UInt8.toNat_ofNat'] at h1 h2 h3 h4
  have e : (255 : UInt8).toNat = 255 := rfl
  omega

/-- Labels of a record. -/
def recCount (r : Rec) : Nat := nameCount r.name + (r.names.map nameCount).sum

theorem record_step {N um k : Nat} {s : St} {u pre rest : List UInt8} {r : Rec} (hr : r.Sound)
    (hi : Inv none N s (recCount r + k)) (hbase : Base none s.out) (hu : u = pre ++ (r.toRR.enc ++ rest)) (hoff : s.off = pre.length)
    (hum : u.length < um) :
    (record u um s = .err ∧ Bad u N) ∨
    ∃ s' r', record u um s = .ok s' ∧ s'.off = s.off + r.toRR.enc.length ∧ Inv none N s' k ∧
      RecVia (Firm (memOf s'.out)) (memOf s'.out) s.out.length r' s'.out.length ∧ SameRec r r' ∧ Sub (memOf s.out) (memOf s'.out) := by
  have hok := hr.ok
  obtain ⟨c1, c2, hcls⟩ : ∃ c1 c2, r.cls = [c1, c2] := List.length_eq_two.1 hok.cls
  have henc : r.toRR.enc = encName r.name ++ (UInt8.ofNat (r.type / 256) :: UInt8.ofNat r.type :: (c1 :: c2 ::
      (UInt8.ofNat (r.ttl / 65536 / 256) :: UInt8.ofNat (r.ttl / 65536) :: UInt8.ofNat (r.ttl % 65536 / 256) ::
        UInt8.ofNat (r.ttl % 65536) :: (UInt8.ofNat (r.rdata.length / 256) :: UInt8.ofNat r.rdata.length :: r.rdata)))) := by
    unfold RR.enc Rec.toRR
    rw [hcls]
    simp [be16, be32]
  have hel : r.toRR.enc.length = (encName r.name).length + (10 + r.rdata.length) := by rw [henc]; simp; omega
  rw [henc] at hu
  simp only [List.append_assoc, List.cons_append] at hu
  have hA : u = (pre ++ encName r.name) ++ (UInt8.ofNat (r.type / 256) :: UInt8.ofNat r.type :: (c1 :: c2 :: (UInt8.ofNat (r.ttl / 65536 / 256) :: UInt8.ofNat (r.ttl / 65536) :: UInt8.ofNat (r.ttl % 65536 / 256) ::
        UInt8.ofNat (r.ttl % 65536) :: (UInt8.ofNat (r.rdata.length / 256) :: UInt8.ofNat r.rdata.length :: (r.rdata ++ rest))))) := by
    rw [hu]; simp
  have hB : u = (pre ++ encName r.name ++ [UInt8.ofNat (r.type / 256), UInt8.ofNat r.type]) ++ (c1 :: c2 :: (UInt8.ofNat (r.ttl / 65536 / 256) :: UInt8.ofNat (r.ttl / 65536) :: UInt8.ofNat (r.ttl % 65536 / 256) ::
        UInt8.ofNat (r.ttl % 65536) :: (UInt8.ofNat (r.rdata.length / 256) :: UInt8.ofNat r.rdata.length :: (r.rdata ++ rest)))) := by
    rw [hu]; simp
  have hC : u = (pre ++ encName r.name ++ [UInt8.ofNat (r.type / 256), UInt8.ofNat r.type, c1, c2]) ++ (UInt8.ofNat (r.ttl / 65536 / 256) :: UInt8.ofNat (r.ttl / 65536) :: UInt8.ofNat (r.ttl % 65536 / 256) ::
        UInt8.ofNat (r.ttl % 65536) :: (UInt8.ofNat (r.rdata.length / 256) :: UInt8.ofNat r.rdata.length :: (r.rdata ++ rest))) := by
    rw [hu]; simp
  unfold recCount at hi
  rw [Nat.add_assoc] at hi
  unfold record
  rcases dlabel_step hi (.inr hbase) hr.name hu hoff hum with ⟨h1, h2⟩ | ⟨x, s1, nm, h1, h2, h3, h4, h5⟩
  · left; rw [h1]; exact ⟨rfl, h2⟩
  rw [h1]
  simp only [Res.ok_bind]
  obtain ⟨hr1, hr2⟩ := h4.read hi.hole hi.pts hr.name.1
  rw [← h3] at hr1 hr2
  obtain ⟨off1, out1, pts1⟩ := s1
  simp only at h2 h3 hr1 hr2
  have hle1 := h5.le
  simp only at hle1
  -- type
  rcases uint16_step (N := N) (s := ⟨off1, out1, pts1⟩) hA
    (by simp only; rw [h2, hoff]; simp) hle1 with ⟨g1, g2⟩ | g1
  · left; rw [g1]; exact ⟨rfl, g2⟩
  rw [g1, be16_val hok.type]
  simp only [Res.ok_bind]
  -- class
  rcases uint16_step (N := N) (s := ⟨off1 + 2, out1 ++ [UInt8.ofNat (r.type / 256), UInt8.ofNat r.type], pts1⟩)
    hB (by simp only; rw [h2, hoff]; simp [Nat.add_assoc]) (by simp; omega) with ⟨g1, g2⟩ | g1
  · left; rw [g1]; exact ⟨rfl, g2⟩
  rw [g1]
  simp only [Res.ok_bind, List.append_assoc, List.cons_append, List.nil_append, Nat.add_assoc]
  -- time to live
  rcases ttl_step (N := N) (s := ⟨off1 + 4, out1 ++ [UInt8.ofNat (r.type / 256), UInt8.ofNat r.type, c1, c2], pts1⟩)
    hC (by simp only; rw [h2, hoff]; simp [Nat.add_assoc]) (by simp; omega) (be32_ne hok.ttl hr.ttl) (by simp)
    with ⟨g1, g2⟩ | g1
  · left; rw [g1]; exact ⟨rfl, g2⟩
  rw [g1]
  simp only [Res.ok_bind, List.append_assoc, List.cons_append, List.nil_append, Nat.add_assoc]
  -- length of the data
  generalize hfx : [UInt8.ofNat (r.type / 256), UInt8.ofNat r.type, c1, c2, UInt8.ofNat (r.ttl / 65536 / 256),
    UInt8.ofNat (r.ttl / 65536), UInt8.ofNat (r.ttl % 65536 / 256), UInt8.ofNat (r.ttl % 65536)] = fx
  have hfx8 : fx.length = 8 := by rw [← hfx]; rfl
  have hfxe : be16 r.type ++ r.cls ++ be32 r.ttl = fx := by rw [← hfx, hcls]; simp [be16, be32]
  have hu2 : u = pre ++ encName r.name ++ fx ++ (UInt8.ofNat (r.rdata.length / 256) :: UInt8.ofNat r.rdata.length :: (r.rdata ++ rest)) := by
    rw [hu, ← hfx]; simp
  rcases uint16_step (N := N) (s := ⟨off1 + 8, out1 ++ fx, pts1⟩) hu2
    (by simp only [List.length_append]; rw [h2, hoff, hfx8]) (by simp only [List.length_append]; omega) with ⟨g1, g2⟩ | g1
  · left; simp only [Nat.reduceAdd]; rw [g1]; exact ⟨rfl, g2⟩
  simp only [Nat.reduceAdd]
  rw [g1, be16_val hok.size]
  simp only [Res.ok_bind]
  -- the data
  have hfl : (out1 ++ fx).length = out1.length + 8 := by rw [List.length_append, hfx8]
  have hlo1 := h5.lo
  simp only at hlo1
  have hi2 := h5.app (8 + 2) (fx ++ be16 r.rdata.length) (by simp [be16, hfx8])
  have hi3 : Inv (some (out1 ++ fx).length) N ⟨off1 + 8 + 2, out1 ++ fx ++ [UInt8.ofNat (r.rdata.length / 256), UInt8.ofNat r.rdata.length], pts1⟩
      ((r.names.map nameCount).sum + k) := by
    refine ⟨by have := hi2.le; simpa [be16, Nat.add_assoc] using this, by have := hi2.lo; simpa [be16] using this, ?_, hi2.cap, hi2.sum, ?_⟩
    · intro p hp
      have h := h5.pts p hp
      obtain ⟨ls, hn⟩ := h.name
      obtain ⟨z, hz, hz'⟩ := h.first
      suffices hv : Sub (view none out1) (view (some (out1 ++ fx).length) (out1 ++ fx ++ [UInt8.ofNat (r.rdata.length / 256), UInt8.ofNat r.rdata.length])) from
        ⟨h.lo, by have := h.hi; simp only [List.length_append] at this ⊢; omega, hv.placed h.place, ⟨ls, hv.firm hn⟩, z, hv _ _ hz, hz'⟩
      intro i b hb
      have hb' : out1[i]? = some b := hb
      obtain ⟨hlt, _⟩ := List.getElem?_eq_some_iff.1 hb'
      simp only [view]
      rw [if_neg (by omega), List.append_assoc, List.getElem?_append_left hlt]
      exact hb'
    · intro a ha
      injection ha with ha
      subst ha
      simp only [List.length_append, List.length_cons, List.length_nil]
      omega
  have hbase3 : Base (some (out1 ++ fx).length) (out1 ++ fx ++ [UInt8.ofNat (r.rdata.length / 256), UInt8.ofNat r.rdata.length]) := by
    obtain ⟨e, hs, he⟩ := hbase.append x
    rw [← h3] at hs he
    refine ⟨e, Sub.stop ?_ hs, by simp only [List.length_append]; omega⟩
    intro i b hb
    have hb' : out1[i]? = some b := hb
    obtain ⟨hlt, _⟩ := List.getElem?_eq_some_iff.1 hb'
    simp only [view]
    rw [if_neg (by rw [List.length_append]; omega), List.append_assoc, List.getElem?_append_left hlt]
    exact hb'
  have hbz : BytesAt (memOf (out1 ++ fx ++ [UInt8.ofNat (r.rdata.length / 256), UInt8.ofNat r.rdata.length])) (out1 ++ fx).length
      (be16 r.rdata.length) := by
    have := bytesAt_view (h := none) (c := out1 ++ fx) (by intro a ha; cases ha) (be16 r.rdata.length) []
    simpa [be16, view] using this
  rcases rddata_step (u := u) (pre := pre ++ encName r.name ++ fx ++ be16 r.rdata.length) (rest := rest) hr hi3 hbase3 (by omega) hbz (by rw [hu2]; simp [be16])
    (by simp only [List.length_append]; rw [h2, hoff, hfx8]; rfl) hum with ⟨g3, g4⟩ | ⟨s', y, names', e, g3, hd⟩
  · left; exact ⟨g3, g4⟩
  right
  have hdo := hd.off
  have hdl := hd.len
  have hdle := hd.le
  have hdf := hd.fin
  simp only at hdo
  simp only [List.length_append, List.length_cons, List.length_nil] at hdl hdf
  -- everything up to the length stays
  have hsub1 : Sub (memOf (out1 ++ fx)) (memOf s'.out) := by
    refine Sub.trans ?_ hd.sub
    intro i b hb
    have hb' : (out1 ++ fx)[i]? = some b := hb
    obtain ⟨hlt, _⟩ := List.getElem?_eq_some_iff.1 hb'
    simp only [view]
    rw [if_neg (by omega), List.append_assoc, List.getElem?_append_left hlt]
    exact hb'
  have hsub0 : Sub (memOf out1) (memOf s'.out) := (memOf_append out1 fx).trans hsub1
  refine ⟨s', ⟨nm, r.type, r.cls, r.ttl, r.lead, names', r.tail⟩, g3, ?_, hd.inv, ⟨out1.length, e, ?_⟩, ?_, ?_⟩
  · rw [hdo, h2, hel]; omega
  · have hsz := hok.size
    have hel2 : s'.out.length - (out1.length + 10) = y.length := by omega
    have hl1 : (out1 ++ fx ++ [UInt8.ofNat (r.rdata.length / 256), UInt8.ofNat r.rdata.length]).length = out1.length + 10 := by
      simp [hfx8]
    have hlead := hd.lead
    have hnames := hd.names
    simp only at hlead hnames
    rw [hl1] at hlead hnames
    refine ⟨hsub0.firm hr1, hsub0.ends hr2, ?_, by omega, by omega, hd.sub.bytes hlead, hd.sub.firms hnames,
      hd.sub.bytes hd.tail, ?_⟩
    · rw [hel2, hfxe]
      intro j hj
      by_cases hj8 : j < fx.length
      · rw [List.getElem_append_left hj8]
        apply hsub1
        have := bytesAt_view (h := none) (c := out1) (by intro a ha; cases ha) fx []
        have := this j hj8
        simpa [view] using this
      · rw [List.getElem_append_right (by omega)]
        have := hd.size (j - fx.length) (by rw [List.length_append] at hj; omega)
        rw [hfl, show out1.length + 8 + (j - fx.length) = out1.length + j by omega] at this
        exact this
    · rw [hdl, ← hdf, hfx8]
  · exact ⟨h4.same, rfl, rfl, rfl, rfl, hd.same, rfl⟩
  · rw [h3] at hsub0
    exact (memOf_append s.out x).trans hsub0

theorem answers_step {N um : Nat} {u : List UInt8} (hum : u.length < um) : ∀ (rs : List Rec), (∀ r ∈ rs, r.Sound) →
    ∀ (s : St) (pre : List UInt8), Inv none N s ((rs.map recCount).sum) → Base none s.out → u = pre ++ (rs.map Rec.toRR).flatMap RR.enc →
    s.off = pre.length →
    (answers u um rs.length s = .err ∧ Bad u N) ∨
    ∃ s' rs', answers u um rs.length s = .ok s' ∧ RecsVia (Firm (memOf s'.out)) (memOf s'.out) s.out.length rs' s'.out.length ∧ SameRecs rs rs' ∧
      Sub (memOf s.out) (memOf s'.out) ∧ s'.out.length ≤ u.length
  | [], _, s, pre, hi, hbase, hu, hoff => by
    right
    refine ⟨s, [], rfl, .nil, trivial, Sub.refl _, ?_⟩
    have := hi.le
    simp at hu
    rw [hu]
    omega
  | r :: rs, hr, s, pre, hi, hbase, hu, hoff => by
    rw [List.map_cons, List.sum_cons] at hi
    rw [List.map_cons, List.flatMap_cons] at hu
    rw [List.length_cons, answers]
    rcases record_step (hr r (by simp)) hi hbase hu hoff hum with ⟨h1, h2⟩ | ⟨s1, r', h1, h2, h3, h4, h5, h6⟩
    · left; rw [h1]; exact ⟨rfl, h2⟩
    rw [h1]
    simp only [Res.ok_bind]
    rcases answers_step hum rs (fun x hx => hr x (by simp [hx])) s1 (pre ++ r.toRR.enc) h3 (hbase.sub h6) (by rw [hu]; simp)
      (by rw [h2, hoff]; simp) with ⟨g1, g2⟩ | ⟨s2, rs', g1, g2, g3, g4, g5⟩
    · left; exact ⟨g1, g2⟩
    · right
      exact ⟨s2, r' :: rs', g1, .cons (g4.frec h4) g2, ⟨h5, g3⟩, h6.trans g4, g5⟩

end Comp
end Mara
