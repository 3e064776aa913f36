import Verif.Deadwood.CompressPacketProps
/-!
# C58: only the names of the old types are compressed

RFC 3597, section 4: names in the data of types not in RFC 1035 must not be compressed.
-/

namespace Dw
namespace DwStr
open Spec

/-- **C58**: the data of a record that is not NS, CNAME, SOA, PTR or MX go out as they are in the
cache, whatever names they contain. -/
theorem data_as_is {u q c s : DwStr} (hu : Usable u) (hq : Usable q) (hc : Usable c) (hs : Usable s)
    (junk : List UInt8) {r : Rec} (hr : r.Ok)
    {pos : Nat} (hb : BytesAt u.mem pos r.toRR.enc) {c' s' : DwStr}
    (hres : compressRr (pos, pos + (encName r.name).length) u c q s junk = .ok (c', s'))
    (htype' : r.type ∉ [2, 5, 6, 12, 15]) : ∃ x, c'.contents = x ++ r.rdata := by
  have hul := hu.clen
  have hulim := hu.lim
  have hult := hu.lt
  have henl : r.toRR.enc.length = (encName r.name).length + 10 + r.rdata.length :=
    RR.enc_length (Rec.toRR_ok hr)
  have hub := bytesAt_le hb (by omega)
  rw [henl] at hub
  -- the pieces of the record
  have henc : r.toRR.enc = encName r.name ++ (be16 r.type ++ r.cls ++ be32 r.ttl ++ be16 r.rdata.length) ++ r.rdata := by
    simp [Rec.toRR, RR.enc]
  have hhl : (be16 r.type ++ r.cls ++ be32 r.ttl ++ be16 r.rdata.length).length = 10 := by
    simp [be16_length, be32, hr.cls]
  rw [henc] at hb
  have hbn := bytesAt_left (bytesAt_left hb)
  have hbh := bytesAt_right (bytesAt_left hb)
  have hbr : BytesAt u.mem (pos + (encName r.name).length + 10) r.rdata := by
    have := bytesAt_right hb
    rwa [List.length_append, hhl, ← Nat.add_assoc] at this
  generalize hoff : pos + (encName r.name).length = off at hres hbh hbr hub
  rw [compressRr] at hres
  simp only [hu.sane, hc.sane, hq.sane, hs.sane, Bool.not_true, Bool.or_self, Bool.false_eq_true, if_false] at hres
  rw [if_neg (by omega)] at hres
  -- the owner name
  rcases compressName_safe hu hq junk 300 pos hc hs with e | ⟨r0, c0, s0, e0, g1, g2⟩
  · rw [compressDlabels] at hres
    simp only [hu.sane, hc.sane, hs.sane, Bool.not_true, Bool.or_self,
      decide_eq_false (show ¬ pos > u.len by omega), Bool.false_eq_true, if_false] at hres
    rw [e] at hres; cases hres
  have hd : compressDlabels u q junk 1 pos c s = if r0 > u.len then .err else .ok (r0, c0, s0) := by
    rw [compressDlabels]
    simp only [hu.sane, hc.sane, hs.sane, Bool.not_true, Bool.or_self,
      decide_eq_false (show ¬ pos > u.len by omega), Bool.false_eq_true, if_false]
    rw [e0, Res.ok_bind]
    simp only [compressDlabels, hu.sane, g1.1.sane, g2.1.sane, Bool.not_true, Bool.or_self, Bool.false_or,
      decide_eq_true_eq]
  rw [hd] at hres
  by_cases hr0 : r0 > u.len
  · rw [if_pos hr0] at hres; cases hres
  rw [if_neg hr0] at hres
  simp only [Res.ok_bind] at hres
  by_cases hr0' : r0 = off
  swap
  · rw [if_pos hr0'] at hres; cases hres
  rw [if_neg (by simp [hr0'])] at hres
  subst hr0'
  -- the fixed fields
  obtain ⟨tmp, t1, t2, t3⟩ := copy_piece hu hc hbh (by rw [hhl]; omega) (by rw [hhl]; omega) junk
  rw [hhl] at t1
  have t1' : u.substr (r0 : Int) 10 1 junk = .ok tmp := t1
  rw [t1', Res.ok_bind] at hres
  obtain ⟨c1, e1, u1, m1, x1⟩ := append_squeeze t2 g1.1
  rw [e1, Res.ok_bind] at hres
  have hc0l : c0.len ≤ c1.len := by
    obtain ⟨y, hy⟩ := squeeze_ext c0.max [tmp.contents] c0.contents
    rw [← g1.1.clen, ← u1.clen, x1, hy]; simp
  have htype : BytesAt u.mem r0 (be16 r.type) := bytesAt_left (bytesAt_left (bytesAt_left hbh))
  have hrdl : BytesAt u.mem (r0 + 8) (be16 r.rdata.length) := by
    have := bytesAt_right hbh
    rwa [show (be16 r.type ++ r.cls ++ be32 r.ttl).length = 8 by simp [be16_length, be32, hr.cls]] at this
  rw [fetchI_at hu htype hr.type, Res.ok_bind] at hres
  simp only [if_neg (show ¬ ((r.type : Int) < 0) by omega), Int.toNat_natCast] at hres
  have hdesc : ∀ lead names tail, typeDesc r.type ≠ some (true, lead, names, tail) := by
    intro lead names tail h
    simp only [List.mem_cons, List.not_mem_nil, or_false, not_or] at htype'
    unfold typeDesc at h
    rw [if_neg (by omega), if_neg (by omega), if_neg (by omega)] at h
    split at h
    · cases h
    split at h
    · cases h
    split at h
    · cases h
    split at h
    · cases h
    · cases h
  have plain : (do
        let len ← u.fetchI (r0 + 8 : Nat)
        let tmp ← u.substr (r0 + 10 : Nat) len 1 junk
        let c ← append tmp c1
        .ok (c, s0)) = Res.ok (c', s') → ∃ x, c'.contents = x ++ r.rdata := by
    intro hres
    rw [fetchI_at hu hrdl hr.size, Res.ok_bind] at hres
    obtain ⟨tm, q1, q2, q3⟩ := copy_piece hu hc hbr (by omega) hr.size junk
    rw [q1, Res.ok_bind] at hres
    rcases append_safe q2.live u1 with e3 | ⟨c3, e3, -⟩
    · rw [e3] at hres; cases hres
    obtain ⟨f1, f2, f3⟩ := append_inv q2 u1 e3
    rw [e3, Res.ok_bind] at hres
    simp only [Res.ok.injEq, Prod.mk.injEq] at hres
    obtain ⟨rfl, rfl⟩ := hres
    rw [q3] at f3
    exact ⟨_, f3⟩
  cases hd : typeDesc r.type with
  | none => rw [hd] at hres; exact plain hres
  | some d =>
    obtain ⟨f, lead, names, tail⟩ := d
    cases f with
    | true => exact absurd hd (hdesc _ _ _)
    | false => rw [hd] at hres; exact plain hres

/-- An SRV record of `a` with the target `a`: the name in the data is the one of the question,
yet it is sent in full. -/
def exSrv : Rec := { name := [[97]], type := 33, cls := [0, 1], ttl := 60, lead := [0, 1, 0, 2, 0, 3], names := [[[97]]], tail := [] }

example : ∃ x c' s', compressRr (0, (encName exSrv.name).length) (ofBytes exSrv.toRR.enc) ⟨0, 100, List.replicate 102 7⟩ exQ ⟨0, 100, List.replicate 102 7⟩ [] = .ok (c', s') ∧
    c'.contents = x ++ [0, 1, 0, 2, 0, 3, 1, 97, 0] := by
  have h : (match compressRr (0, (encName exSrv.name).length) (ofBytes exSrv.toRR.enc) ⟨0, 100, List.replicate 102 7⟩ exQ ⟨0, 100, List.replicate 102 7⟩ [] with
      | .ok _ => true | _ => false) = true := by decide +kernel
  cases hc : compressRr (0, (encName exSrv.name).length) (ofBytes exSrv.toRR.enc) ⟨0, 100, List.replicate 102 7⟩ exQ ⟨0, 100, List.replicate 102 7⟩ [] with
  | err => rw [hc] at h; cases h
  | ub => rw [hc] at h; cases h
  | ok p =>
    obtain ⟨c', s'⟩ := p
    have u7 : Usable ⟨0, 100, List.replicate 102 7⟩ := ⟨by simp [WF], by decide, by decide⟩
    obtain ⟨x, hx⟩ := data_as_is (u := ofBytes exSrv.toRR.enc) (r := exSrv) (pos := 0) (ofBytes_usable (by decide +kernel)) (show Usable exQ from ofBytes_usable (by decide)) u7 u7 []
      ⟨by decide, by decide, by decide, by decide, by decide⟩ (bytesAt_mid (pre := []) (post := []) (by decide +kernel)) (by rw [Nat.zero_add]; exact hc) (by decide)
    exact ⟨x, c', s', rfl, hx⟩

end DwStr
end Dw
