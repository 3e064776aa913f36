import Verif.Deadwood.CompressPacketProps
/-!
# Answers that are small enough are compressed without an error
-/

namespace Dw
namespace DwStr
open Spec

/-- Enough room for a name. -/
def nameRoom (n : List (List UInt8)) : Nat := (encName n).length + 1

/-- Enough room for a record. -/
def _root_.Spec.Rec.room (r : Rec) : Nat :=
  nameRoom r.name + 10 + r.lead.length + (r.names.map nameRoom).sum + r.tail.length

theorem seekLoop_total {u c q s : DwStr} (hu : Usable u) (hc : Usable c) (hq : Usable q) (hs : Usable s)
    (he : s.len % 2 = 0) (uo : Nat) : ∀ (n so : Nat), so % 2 = 0 →
    ∃ r, seekLoop u uo c q s n so = .ok r := by
  intro n
  induction n with
  | zero => intro so _; exact ⟨none, rfl⟩
  | succ n ih =>
    intro so hso
    rw [seekLoop]
    by_cases h : so < s.len
    · rw [if_pos h, (fetchU16_in hs so (by rw [hs.clen]; omega)).1, Res.ok_bind]
      simp only
      generalize (s.contents[so]'_).toNat * 256 + (s.contents[so + 1]'_).toNat = v
      split
      · obtain ⟨r, hr⟩ := isYes_dname (q := none) hu hq (by simp) uo (v % 16384)
        rw [hr, Res.ok_bind]
        cases r
        · exact ih _ (by omega)
        · exact ⟨_, rfl⟩
      · obtain ⟨r, hr⟩ := isYes_dname (q := some q) hu hc (fun x hx => by cases hx; exact hq) uo (v % 16384)
        rw [hr, Res.ok_bind]
        cases r
        · exact ih _ (by omega)
        · exact ⟨_, rfl⟩
    · rw [if_neg h]; exact ⟨none, rfl⟩

/-- `c` grew to `c'` by at most `a` bytes, the stack `s` to `s'` by at most `b` places. -/
structure Fits (c s : DwStr) (a b : Nat) (c' s' : DwStr) : Prop where
  uc : Usable c'
  us : Usable s'
  mc : c'.max = c.max
  ms : s'.max = s.max
  gc : c.len ≤ c'.len
  lc : c'.len ≤ c.len + a
  ls : s'.len ≤ s.len + 2 * b
  even : s'.len % 2 = 0

theorem Fits.trans {c s c1 s1 c2 s2 : DwStr} {a b a' b' : Nat} (h : Fits c s a b c1 s1)
    (h' : Fits c1 s1 a' b' c2 s2) : Fits c s (a + a') (b + b') c2 s2 :=
  ⟨h'.uc, h'.us, by rw [h'.mc, h.mc], by rw [h'.ms, h.ms], by have := h.gc; have := h'.gc; omega, by have := h.lc; have := h'.lc; omega,
    by have := h.ls; have := h'.ls; omega, h'.even⟩

theorem Fits.mono {c s c1 s1 : DwStr} {a b a' b' : Nat} (h : Fits c s a b c1 s1) (ha : a ≤ a') (hb : b ≤ b') :
    Fits c s a' b' c1 s1 :=
  ⟨h.uc, h.us, h.mc, h.ms, h.gc, by have := h.lc; omega, by have := h.ls; omega, h.even⟩

theorem compressName_fits {u q : DwStr} (hu : Usable u) (hq : Usable q) (junk : List UInt8) :
    ∀ (us : List (List UInt8)) (n uo : Nat) (c s : DwStr), Usable c → Usable s → us.length < n →
    us.length < 200 → PlainAt u.mem uo us → s.len % 2 = 0 → c.len + nameRoom us < c.max →
    s.len + 2 * us.length < s.max →
    ∃ c' s', compressName u q junk n uo c s = .ok (uo + (encName us).length, c', s') ∧
      Fits c s (nameRoom us) us.length c' s' := by
  intro us
  induction us with
  | nil =>
    intro n uo c s hc hs hn hn2 hP he hrc hrs
    obtain ⟨n, rfl⟩ : ∃ m, n = m + 1 := ⟨n - 1, by omega⟩
    have hul := PlainAt.lt hu hP
    have h0 : u.mem uo = some 0 := by cases hP; assumption
    have hroom : nameRoom [] = 2 := rfl
    have hlen : (encName []).length = 1 := rfl
    obtain ⟨r, hr⟩ := seekLoop_total hu hc hq hs he uo 1000 0 rfl
    rw [compressName, seekCompPointer]
    simp only [hu.sane, hc.sane, Bool.not_true, Bool.or_self,
      decide_eq_false (show ¬ uo > u.len by omega), Bool.false_eq_true, if_false]
    rw [hr, Res.ok_bind]
    cases r with
    | some p =>
      simp only
      obtain ⟨c', e1, u1, m1, x1⟩ := (pushU16_exact (p % 16384 + 49152) hc).2 (by rw [hc.clen]; omega)
      rw [e1, Res.ok_bind, getDnEnd_plain hu hP (by simp), Res.ok_bind]
      refine ⟨_, _, rfl, u1, hs, m1, rfl, ?_, ?_, by simp, he⟩ <;>
        (rw [← u1.clen, x1, ← hc.clen]; simp [hroom])
    | none =>
      simp only [mem_peek h0, Res.ok_bind]
      rw [if_neg (by decide), if_pos trivial]
      obtain ⟨c', e1, u1, m1, x1⟩ := (addchar_exact 0 hc).2 (by rw [hc.clen]; omega)
      rw [e1]
      refine ⟨_, _, rfl, u1, hs, m1, rfl, ?_, ?_, by simp, he⟩ <;>
        (rw [← u1.clen, x1, ← hc.clen]; simp [hroom])
  | cons l us ih =>
    intro n uo c s hc hs hn hn2 hP he hrc hrs
    obtain ⟨n, rfl⟩ : ∃ m, n = m + 1 := ⟨n - 1, by omega⟩
    have hul := PlainAt.lt hu hP
    have h2l := encName_two (l :: us) (by simp)
    have hroom : nameRoom (l :: us) = (encName (l :: us)).length + 1 := rfl
    obtain ⟨r, hr⟩ := seekLoop_total hu hc hq hs he uo 1000 0 rfl
    rw [compressName, seekCompPointer]
    simp only [hu.sane, hc.sane, Bool.not_true, Bool.or_self,
      decide_eq_false (show ¬ uo > u.len by omega), Bool.false_eq_true, if_false]
    rw [hr, Res.ok_bind]
    cases r with
    | some p =>
      simp only
      obtain ⟨c', e1, u1, m1, x1⟩ := (pushU16_exact (p % 16384 + 49152) hc).2 (by rw [hc.clen]; omega)
      rw [e1, Res.ok_bind, getDnEnd_plain hu hP hn2, Res.ok_bind]
      refine ⟨_, _, rfl, u1, hs, m1, rfl, ?_, ?_, by omega, he⟩ <;>
        (rw [← u1.clen, x1, ← hc.clen]; simp; try omega)
    | none =>
      cases hP with
      | label hl hP =>
        obtain ⟨hlfit, hldrop⟩ := LabelAt.drop hu hl
        have hlen := ofNat_len hl.le
        obtain ⟨-, g2, g3⟩ := labelAt_byte hl
        have hle := hl.le
        have hpos := hl.pos
        simp only [mem_peek hl.len, Res.ok_bind]
        rw [if_neg g2, if_neg g3, hlen]
        have henc : (encName (l :: us)).length = l.length + 1 + (encName us).length := by
          rw [encName_cons]; simp; omega
        have h1 : 1 ≤ (encName us).length := by simp [encName]
        simp only [List.length_cons] at hn hn2 hrs
        obtain ⟨s1, e1, us1, ms1, cs1⟩ := (pushU16_exact (c.len % 65536) hs).2 (by rw [hs.clen]; omega)
        rw [e1, Res.ok_bind]
        obtain ⟨t, f1, f2, -, f4⟩ := substr_in hu uo (l.length + 1) 1 junk (by rw [hu.clen]; omega) (by omega)
        rw [hldrop] at f4
        rw [show ((1 : Nat) : Int) = 1 from rfl] at f1
        rw [f1, Res.ok_bind]
        obtain ⟨c1, k1, k2, k3, k4⟩ := (append_exact f2 hc).2 (by rw [hc.clen, f4]; simp; omega)
        rw [k1]
        simp only [orElse, Res.ok_bind]
        have hc1 : c1.len = c.len + (l.length + 1) := by rw [← k2.clen, k4, f4]; simp [hc.clen]
        have hs1 : s1.len = s.len + 2 := by rw [← us1.clen, cs1]; simp [hs.clen]
        have hroom2 : nameRoom us = (encName us).length + 1 := rfl
        obtain ⟨c', s', e2, F⟩ := ih n (uo + (l.length + 1)) c1 s1 k2 us1 (by omega) (by omega) hP (by omega)
          (by rw [k3]; omega) (by rw [ms1]; omega)
        refine ⟨c', s', by rw [e2, henc, Nat.add_assoc], F.uc, F.us, by rw [F.mc, k3], by rw [F.ms, ms1], ?_, ?_, ?_, F.even⟩
        · have := F.gc; omega
        · have := F.lc; omega
        · have := F.ls; simp only [List.length_cons]; omega

theorem compressDlabels_fits {u q : DwStr} (hu : Usable u) (hq : Usable q) (junk : List UInt8) :
    ∀ (ns : List (List (List UInt8))) (uo : Nat) (c s : DwStr), Usable c → Usable s →
    (∀ n ∈ ns, LabelsOk n ∧ n.length < 100) → BytesAt u.mem uo (ns.flatMap encName) → s.len % 2 = 0 →
    uo + (ns.flatMap encName).length ≤ u.len →
    c.len + (ns.map nameRoom).sum < c.max → s.len + 2 * (ns.map List.length).sum < s.max →
    ∃ c' s', compressDlabels u q junk ns.length uo c s = .ok (uo + (ns.flatMap encName).length, c', s') ∧
      Fits c s (ns.map nameRoom).sum (ns.map List.length).sum c' s' := by
  intro ns
  induction ns with
  | nil =>
    intro uo c s hc hs _ _ he hle _ _
    refine ⟨c, s, ?_, hc, hs, rfl, rfl, by simp, by simp, by simp, he⟩
    simp only [List.flatMap_nil, List.length_nil, Nat.add_zero] at hle
    rw [List.length_nil, compressDlabels]
    simp [hu.sane, hc.sane, hs.sane]
    omega
  | cons n ns ih =>
    intro uo c s hc hs hok hb he hle hrc hrs
    rw [List.flatMap_cons] at hb
    rw [List.flatMap_cons, List.length_append] at hle
    simp only [List.map_cons, List.sum_cons] at hrc hrs
    obtain ⟨h1, h2⟩ := hok n (by simp)
    obtain ⟨c1, s1, e1, F1⟩ := compressName_fits hu hq junk n 300 uo c s hc hs (by omega) (by omega)
      (PlainAt.of_encName h1 (bytesAt_left hb)) he (by omega) (by omega)
    have := F1.lc; have := F1.ls; have := F1.mc; have := F1.ms
    obtain ⟨c2, s2, e2, F2⟩ := ih (uo + (encName n).length) c1 s1 F1.uc F1.us (fun x hx => hok x (by simp [hx]))
      (bytesAt_right hb) F1.even (by omega) (by omega) (by omega)
    refine ⟨c2, s2, ?_, by simpa using F1.trans F2⟩
    rw [List.length_cons, compressDlabels]
    simp only [hu.sane, hc.sane, hs.sane, Bool.not_true, Bool.or_self,
      decide_eq_false (show ¬ uo > u.len by omega), Bool.false_eq_true, if_false]
    rw [e1, Res.ok_bind]
    simp only
    rw [e2, List.flatMap_cons, List.length_append, Nat.add_assoc]

theorem append_fits {t c s : DwStr} (ht : Usable t) (hc : Usable c) (hs : Usable s) (he : s.len % 2 = 0)
    (h : c.len + t.contents.length < c.max) :
    ∃ c', append t c = .ok c' ∧ Fits c s t.contents.length 0 c' s ∧ c'.len = c.len + t.contents.length := by
  obtain ⟨c', e1, u1, m1, x1⟩ := (append_exact ht hc).2 (by rw [hc.clen]; omega)
  have hl : c'.len = c.len + t.contents.length := by rw [← u1.clen, x1, ← hc.clen, List.length_append]
  exact ⟨c', e1, ⟨u1, hs, m1, rfl, by omega, by omega, by omega, he⟩, hl⟩

theorem compRddata_fits {u q c s : DwStr} (hu : Usable u) (hq : Usable q) (hc : Usable c) (hs : Usable s)
    (junk : List UInt8) {r : Rec} (hok : ∀ n ∈ r.names, LabelsOk n ∧ n.length < 100) {off : Nat}
    (hb : BytesAt u.mem off r.rdata) (hin : off + r.rdata.length ≤ u.contents.length)
    (hsz : r.rdata.length < 65536) (he : s.len % 2 = 0)
    (hrc : c.len + (r.lead.length + (r.names.map nameRoom).sum + r.tail.length) < c.max)
    (hrs : s.len + 2 * (r.names.map List.length).sum < s.max) :
    ∃ e c' s', compRddata r.lead.length r.names.length r.tail.length u off c s q junk = .ok (e, c', s') ∧
      Fits c s (r.lead.length + (r.names.map nameRoom).sum + r.tail.length) (r.names.map List.length).sum c' s' := by
  have hrl : r.rdata.length = r.lead.length + (r.names.flatMap encName).length + r.tail.length := by
    simp [Rec.rdata, -List.length_flatMap]; omega
  have hb1 : BytesAt u.mem off r.lead := bytesAt_left (bytesAt_left hb)
  have hb2 : BytesAt u.mem (off + r.lead.length) (r.names.flatMap encName) := bytesAt_right (bytesAt_left hb)
  have hb3 : BytesAt u.mem (off + r.lead.length + (r.names.flatMap encName).length) r.tail := by
    have := bytesAt_right hb
    rwa [List.length_append, ← Nat.add_assoc] at this
  have hul := hu.clen
  rw [compRddata]
  simp only [hu.sane, hc.sane, hs.sane, Bool.not_true, Bool.or_self,
    decide_eq_false (show ¬ off > u.len by omega), Bool.false_eq_true, if_false]
  have main : ∀ c1 : DwStr, Fits c s r.lead.length 0 c1 s →
      ∃ e c' s', (do
        let (offset, c, s) ← compressDlabels u q junk r.names.length (off + r.lead.length) c1 s
        if r.tail.length > 0 then do
          let tmp ← u.substr offset r.tail.length 1 junk
          let c ← append tmp c
          .ok (offset + r.tail.length, c, s)
        else .ok (offset, c, s)) = Res.ok (e, c', s') ∧
      Fits c s (r.lead.length + (r.names.map nameRoom).sum + r.tail.length) (r.names.map List.length).sum c' s' := by
    intro c1 F1
    have := F1.lc; have := F1.mc
    obtain ⟨c2, s2, e2, F2⟩ := compressDlabels_fits hu hq junk r.names (off + r.lead.length) c1 s F1.uc hs hok hb2 he
      (by omega) (by omega) hrs
    rw [e2]
    simp only [Res.ok_bind]
    by_cases h0 : r.tail.length > 0
    · rw [if_pos h0]
      obtain ⟨tmp, t1, t2, t3⟩ := copy_piece hu hc hb3 (by omega) (by omega) junk
      rw [t1, Res.ok_bind]
      have := F2.lc; have := F2.mc
      obtain ⟨c3, e3, F3, -⟩ := append_fits t2 F2.uc F2.us F2.even (by rw [t3]; omega)
      rw [e3, Res.ok_bind]
      rw [t3] at F3
      exact ⟨_, _, _, rfl, by simpa using (F1.trans F2).trans F3⟩
    · rw [if_neg h0]
      exact ⟨_, _, _, rfl, (F1.trans F2).mono (by omega) (by omega)⟩
  by_cases h0 : r.lead.length > 0
  · rw [if_pos h0]
    obtain ⟨tmp, t1, t2, t3⟩ := copy_piece hu hc hb1 (by omega) (by omega) junk
    rw [t1, Res.ok_bind]
    obtain ⟨c3, e3, F3, -⟩ := append_fits t2 hc hs he (by rw [t3]; omega)
    rw [e3, Res.ok_bind]
    rw [t3] at F3
    exact main c3 F3
  · rw [if_neg h0, Res.ok_bind]
    exact main c ⟨hc, hs, rfl, rfl, by omega, by omega, by omega, he⟩

/-- The labels of a record. -/
def _root_.Spec.Rec.labels (r : Rec) : Nat := r.name.length + (r.names.map List.length).sum

theorem compressRr_fits {u q c s : DwStr} (hu : Usable u) (hq : Usable q) (hc : Usable c) (hs : Usable s)
    (junk : List UInt8) {r : Rec} (hr : RecOk r)
    {pos : Nat} (hb : BytesAt u.mem pos r.toRR.enc) (he : s.len % 2 = 0)
    (hbig : c.max ≤ 16777215) (hrc : c.len + r.room < c.max) (hrs : s.len + 2 * r.labels < s.max) :
    ∃ c' s', compressRr (pos, pos + (encName r.name).length) u c q s junk = .ok (c', s') ∧
      Fits c s r.room r.labels c' s' := by
  have hul := hu.clen
  have hulim := hu.lim
  have hult := hu.lt
  have henl : r.toRR.enc.length = (encName r.name).length + 10 + r.rdata.length :=
    RR.enc_length (Rec.toRR_ok hr.ok)
  have hub := bytesAt_le hb (by omega)
  rw [henl] at hub
  have henc : r.toRR.enc = encName r.name ++ (be16 r.type ++ r.cls ++ be32 r.ttl ++ be16 r.rdata.length) ++ r.rdata := by
    simp [Rec.toRR, RR.enc]
  have hhl : (be16 r.type ++ r.cls ++ be32 r.ttl ++ be16 r.rdata.length).length = 10 := by
    simp [be16_length, be32, hr.ok.cls]
  rw [henc] at hb
  have hbn := bytesAt_left (bytesAt_left hb)
  have hbh := bytesAt_right (bytesAt_left hb)
  have hbr : BytesAt u.mem (pos + (encName r.name).length + 10) r.rdata := by
    have := bytesAt_right hb
    rwa [List.length_append, hhl, ← Nat.add_assoc] at this
  have hrl : r.rdata.length = r.lead.length + (r.names.flatMap encName).length + r.tail.length := by
    simp [Rec.rdata, -List.length_flatMap]; omega
  have hnr : ∀ ns : List (List (List UInt8)), (ns.flatMap encName).length ≤ (ns.map nameRoom).sum := by
    intro ns
    induction ns with
    | nil => simp
    | cons n ns ih =>
      rw [List.flatMap_cons, List.length_append, List.map_cons, List.sum_cons]
      unfold nameRoom at ih ⊢; omega
  have hnr := hnr r.names
  unfold Rec.room at hrc ⊢
  unfold Rec.labels at hrs ⊢
  obtain ⟨c0, s0, e0, F0⟩ := compressDlabels_fits hu hq junk [r.name] pos c s hc hs
    (fun n hn => by simp at hn; subst hn; exact ⟨hr.name.1, hr.name.2.1⟩) (by simpa using hbn) he
    (by simp only [List.flatMap_cons, List.flatMap_nil, List.append_nil]; omega) (by simp; omega) (by simp; omega)
  simp only [List.flatMap_cons, List.flatMap_nil, List.append_nil, List.length_cons, List.length_nil, Nat.zero_add,
    List.map_cons, List.map_nil, List.sum_cons, List.sum_nil, Nat.add_zero] at e0 F0
  generalize hoff : pos + (encName r.name).length = off at hbh hbr hub e0 ⊢
  rw [compressRr]
  simp only [hu.sane, hc.sane, hq.sane, hs.sane, Bool.not_true, Bool.or_self, Bool.false_eq_true, if_false]
  rw [if_neg (by omega), e0]
  simp only [Res.ok_bind]
  rw [if_neg (by simp)]
  obtain ⟨tmp, t1, t2, t3⟩ := copy_piece hu hc hbh (by rw [hhl]; omega) (by rw [hhl]; omega) junk
  rw [hhl] at t1
  have t1' : u.substr (off : Int) 10 1 junk = .ok tmp := t1
  rw [t1', Res.ok_bind]
  have := F0.lc; have := F0.mc; have := F0.ls; have := F0.ms
  obtain ⟨c1, e1, F1, hc1⟩ := append_fits t2 F0.uc F0.us F0.even (by rw [t3, hhl]; omega)
  rw [t3, hhl] at F1 hc1
  rw [e1]
  simp only [orElse, Res.ok_bind]
  have htype : BytesAt u.mem off (be16 r.type) := bytesAt_left (bytesAt_left (bytesAt_left hbh))
  have hrdl : BytesAt u.mem (off + 8) (be16 r.rdata.length) := by
    have := bytesAt_right hbh
    rwa [show (be16 r.type ++ r.cls ++ be32 r.ttl).length = 8 by simp [be16_length, be32, hr.ok.cls]] at this
  rw [fetchI_at hu htype hr.ok.type, Res.ok_bind]
  simp only [if_neg (show ¬ ((r.type : Int) < 0) by omega), Int.toNat_natCast]
  have := F1.lc; have := F1.mc
  have F01 := F0.trans F1
  have hlead := hr.ok.form
  have plain : ∃ c' s', (do
        let len ← u.fetchI (off + 8 : Nat)
        let tmp ← u.substr (off + 10 : Nat) len 1 junk
        let c ← append tmp c1
        .ok (c, s0)) = Res.ok (c', s') ∧
      Fits c s (nameRoom r.name + 10 + r.lead.length + (r.names.map nameRoom).sum + r.tail.length)
        (r.name.length + (r.names.map List.length).sum) c' s' := by
    rw [fetchI_at hu hrdl hr.ok.size, Res.ok_bind]
    obtain ⟨tm, q1, q2, q3⟩ := copy_piece hu hc hbr (by omega) hr.ok.size junk
    rw [q1, Res.ok_bind]
    obtain ⟨c2, e2, F2, -⟩ := append_fits q2 F1.uc F1.us F1.even (by rw [q3]; omega)
    rw [e2, Res.ok_bind]
    rw [q3] at F2
    exact ⟨_, _, rfl, (F01.trans F2).mono (by omega) (by omega)⟩
  rcases typeDesc_layout r.type with ⟨ht, hl⟩ | ⟨f, ⟨lead, names, tail⟩, ht, hl⟩
  · rw [ht]
    exact plain
  · rw [ht]
    cases f with
    | false => exact plain
    | true =>
      rw [hl] at hlead
      simp only [Option.getD_some, Prod.mk.injEq] at hlead
      obtain ⟨q1, q2, q3⟩ := hlead
      subst q1 q2 q3
      simp only
      obtain ⟨e2, c2, s2, e3, F2⟩ := compRddata_fits hu hq F1.uc F1.us junk (r := r)
        (fun n hn => ⟨(hr.names n hn).1, (hr.names n hn).2.1⟩) hbr (by omega) hr.ok.size F1.even (by omega) (by omega)
      rw [e3]
      simp only [Res.ok_bind]
      have hlim1 := F1.uc.lim
      have hlt1 := F1.uc.lt
      have := F2.gc; have := F2.mc; have := F2.uc.lt
      obtain ⟨c4, e5, u4, m4, x4⟩ := putU16_in F2.uc ((c2.len - c1.len) % 65536) (c1.len - 2)
        (by rw [F2.uc.clen]; omega) (by rw [F2.uc.clen]; omega)
      rw [show ((c1.len - 2 : Nat) : Int) = (c1.len : Int) - 2 by omega] at e5
      rw [e5]
      refine ⟨_, _, rfl, ?_⟩
      have hl4 : c4.len = c2.len := by
        rw [← u4.clen, ← F2.uc.clen, x4]
        simp [F2.uc.clen]
      have F := (F01.trans F2).mono (a' := nameRoom r.name + 10 + r.lead.length + (r.names.map nameRoom).sum + r.tail.length)
        (b' := r.name.length + (r.names.map List.length).sum) (by omega) (by omega)
      exact ⟨u4, F.us, by rw [m4, F.mc], F.ms, by rw [hl4]; exact F.gc, by rw [hl4]; exact F.lc, F.ls, F.even⟩

theorem compressRrs_fits {u q : DwStr} (hu : Usable u) (hq : Usable q) (junk : List UInt8) :
    ∀ (rs : List Rec) (pos : Nat) (c s : DwStr), Usable c → Usable s → (∀ r ∈ rs, RecOk r) →
    BytesAt u.mem pos ((rs.map Rec.toRR).flatMap RR.enc) → s.len % 2 = 0 → c.max ≤ 16777215 →
    c.len + (rs.map Rec.room).sum < c.max → s.len + 2 * (rs.map Rec.labels).sum < s.max →
    ∃ c' s', compressRrs u q junk (offsets pos (rs.map Rec.toRR)) c s = .ok (c', s') ∧
      Fits c s (rs.map Rec.room).sum (rs.map Rec.labels).sum c' s' := by
  intro rs
  induction rs with
  | nil =>
    intro pos c s hc hs _ _ he _ _ _
    exact ⟨c, s, rfl, hc, hs, rfl, rfl, by simp, by simp, by simp, he⟩
  | cons r rs ih =>
    intro pos c s hc hs hok hb he hbig hrc hrs
    rw [List.map_cons, List.flatMap_cons] at hb
    simp only [List.map_cons, List.sum_cons] at hrc hrs
    have hr := hok r (by simp)
    obtain ⟨c1, s1, e1, F1⟩ := compressRr_fits hu hq hc hs junk hr (bytesAt_left hb) he hbig (by omega) (by omega)
    have hb2 := bytesAt_right hb
    rw [RR.enc_length (Rec.toRR_ok hr.ok)] at hb2
    have := F1.lc; have := F1.ls; have := F1.mc; have := F1.ms
    obtain ⟨c2, s2, e2, F2⟩ := ih _ c1 s1 F1.uc F1.us (fun x hx => hok x (by simp [hx])) hb2 F1.even
      (by omega) (by omega) (by omega)
    refine ⟨c2, s2, ?_, by simpa using F1.trans F2⟩
    simp only [List.map_cons, offsets, compressRrs]
    rw [show r.toRR.name.length = (encName r.name).length from rfl, e1]
    exact e2

theorem labels_le_enc : ∀ n : List (List UInt8), LabelsOk n → 2 * n.length ≤ (encName n).length := by
  intro n
  induction n with
  | nil => intro _; simp
  | cons l ls ih =>
    intro h
    have h1 := h l (by simp)
    have := ih (fun x hx => h x (by simp [hx]))
    rw [encName_cons]
    simp only [List.length_cons, List.length_append]
    omega

theorem labels_le_room {r : Rec} (h : RecOk r) : 2 * r.labels ≤ r.room := by
  have hn : ∀ ns : List (List (List UInt8)), (∀ n ∈ ns, NameOk n) →
      2 * (ns.map List.length).sum ≤ (ns.map nameRoom).sum := by
    intro ns
    induction ns with
    | nil => simp
    | cons n ns ih =>
      intro h
      have h1 := labels_le_enc n (h n (by simp)).1
      have := ih (fun x hx => h x (by simp [hx]))
      simp only [List.map_cons, List.sum_cons]
      unfold nameRoom at this ⊢
      omega
  have h1 := hn r.names h.names
  have h2 := labels_le_enc r.name h.name.1
  unfold Rec.labels Rec.room
  unfold nameRoom at h1 ⊢
  omega

theorem pushOffsetsLoop_fits {q : DwStr} (hq : Usable q) (hq2 : q.len < 16000) {place : Nat}
    {ls : List (List UInt8)} (h : PlainAt q.mem place ls) : ∀ (n : Nat) {s : DwStr}, Usable s →
    ls.length < n → s.len + 2 * ls.length < s.max →
    ∃ s', pushOffsetsLoop q 0x8000 n place s = .ok s' ∧ Usable s' ∧ s'.max = s.max ∧
      s'.len = s.len + 2 * ls.length := by
  induction h with
  | @root i h =>
    intro n s hs hn _
    obtain ⟨n, rfl⟩ : ∃ m, n = m + 1 := ⟨n - 1, by omega⟩
    have hlt := mem_lt hq h
    rw [pushOffsetsLoop, if_neg (by omega), mem_peek h, Res.ok_bind, if_pos (by decide)]
    exact ⟨s, rfl, hs, rfl, rfl⟩
  | @label i l ls hl hrest ih =>
    intro n s hs hn hroom
    obtain ⟨n, rfl⟩ : ∃ m, n = m + 1 := ⟨n - 1, by omega⟩
    have hlt := mem_lt hq hl.len
    have hby := labelAt_byte hl
    have htn : (UInt8.ofNat l.length).toNat = l.length := ofNat_len hl.le
    simp only [List.length_cons] at hn hroom
    rw [pushOffsetsLoop, if_neg (by omega), mem_peek hl.len, Res.ok_bind,
      if_neg (by intro h; rcases h with h | h; exact hby.1 h; exact hby.2.2 h),
      if_neg (by rw [UInt8.le_iff_toNat_le, htn]; have := hl.le; simp; omega), if_neg (by omega)]
    obtain ⟨s1, e1, u1, m1, x1⟩ := (pushU16_exact (i + 32768) hs).2 (by rw [hs.clen]; omega)
    have hl1 : s1.len = s.len + 2 := by rw [← u1.clen, x1, ← hs.clen]; simp
    rw [e1, Res.ok_bind, htn]
    obtain ⟨s2, e2, u2, m2, l2⟩ := ih n u1 (by omega) (by omega)
    exact ⟨s2, e2, u2, by omega, by rw [l2, hl1, List.length_cons]; omega⟩

/-- Answers that need at most 450 bytes, even with one more byte for each name, are compressed. -/
theorem compress_fits {q inp : DwStr} (hq : Usable q) (hi : Usable inp) (junk : List UInt8)
    {qn : List (List UInt8)} {rest : List UInt8} (hqn : LabelsOk qn) (hql : qn.length < 128)
    (hqc : q.contents = encName qn ++ rest) (hq2 : q.contents.length ≤ 300)
    (p : Answers) (hne : p.all ≠ []) (hp : ∀ r ∈ p.all, RecOk r)
    (hk : p.kind = 0 ∨ p.kind = 1 ∨ p.kind = 2) (hic : inp.contents = p.packed.enc)
    (hsz : sizes p.packed.all < 65536) (hroom : (p.all.map Rec.room).sum ≤ 450) :
    ∃ o, compress q inp junk = .ok o ∧ o.contents.length ≤ (p.all.map Rec.room).sum + 7 := by
  have hpok : p.packed.Ok := ⟨by
      rw [packed_all]
      intro r hr
      obtain ⟨x, hx, rfl⟩ := List.mem_map.1 hr
      exact Rec.toRR_ok (hp x hx).ok, hsz, hk⟩
  obtain ⟨d, d1, -, -, d4, d5, d6, d7⟩ := makeDnsStr_eq hi hpok (by rw [packed_all]; simpa using hne) hic junk
  obtain ⟨st, a1, a2, a3, a4⟩ := create_usable 1024 junk (by decide) (by decide)
  obtain ⟨c0, b1, b2, b3, b4⟩ := create_usable 515 junk (by decide) (by decide)
  have hcl0 : c0.len = 0 := by rw [← b2.clen, b3]; rfl
  have hsl0 : st.len = 0 := by rw [← a2.clen, a3]; rfl
  have hqcl := hq.clen
  rw [compress]
  simp only [hq.sane, hi.sane, Bool.not_true, Bool.or_self, Bool.false_eq_true, if_false]
  rw [a1, Res.ok_bind, b1, Res.ok_bind]
  have hpush : pushOffsets q 0 st 0x8000 = pushOffsetsLoop q 0x8000 300 0 st := by
    rw [pushOffsets]
    simp only [hq.sane, a2.sane, Bool.not_true, Bool.or_self, Bool.false_eq_true, if_false]
  rw [hpush]
  have hplain : PlainAt q.mem 0 qn := by
    apply PlainAt.of_encName hqn
    have := bytesAt_mid (s := q) (pre := []) (l := encName qn) (post := rest) (by rw [hqc]; simp)
    exact this
  obtain ⟨s1, e1, us1, m1, l1⟩ := pushOffsetsLoop_fits hq (by omega) hplain 300 a2 (by omega) (by omega)
  rw [e1, Res.ok_bind, d1, Res.ok_bind]
  have hoff : d.an ++ d.ns ++ d.ar = offsets 0 (p.all.map Rec.toRR) := by
    rw [d4, d5, d6, ← packed_all, Packed.all, offsets_append, offsets_append]
    simp [sizes]
  rw [hoff]
  have hrecs : BytesAt inp.mem 0 ((p.all.map Rec.toRR).flatMap RR.enc) := by
    have := bytesAt_mid (s := inp) (pre := []) (l := (p.all.map Rec.toRR).flatMap RR.enc)
      (post := (offsets 0 (p.all.map Rec.toRR)).flatMap Packed.cell ++ p.trailer) (by
        rw [hic, Packed.enc, packed_all]
        simp [Answers.trailer, Answers.packed])
    exact this
  have hlab : ∀ rs : List Rec, (∀ r ∈ rs, RecOk r) → 2 * (rs.map Rec.labels).sum ≤ (rs.map Rec.room).sum := by
    intro rs
    induction rs with
    | nil => simp
    | cons r rs ih =>
      intro h
      have h1 := labels_le_room (h r (by simp))
      have := ih (fun x hx => h x (by simp [hx]))
      simp only [List.map_cons, List.sum_cons]; omega
  have hlab := hlab p.all hp
  obtain ⟨c1, s2, e2, F⟩ := compressRrs_fits hi hq junk p.all 0 c0 s1 b2 us1 hp hrecs (by omega) (by omega)
    (by omega) (by omega)
  rw [e2]
  simp only [Res.ok_bind]
  have := F.lc; have := F.mc
  obtain ⟨t1, f1, u1, n1, x1⟩ := (pushU16_exact d.an.length F.uc).2 (by rw [F.uc.clen]; omega)
  have k1 : t1.len = c1.len + 2 := by rw [← u1.clen, x1, ← F.uc.clen]; simp
  rw [f1, orElse, Res.ok_bind]
  obtain ⟨t2, f2, u2, n2, x2⟩ := (pushU16_exact d.ns.length u1).2 (by rw [u1.clen]; omega)
  have k2 : t2.len = t1.len + 2 := by rw [← u2.clen, x2, ← u1.clen]; simp
  rw [f2, orElse, Res.ok_bind]
  obtain ⟨t3, f3, u3, n3, x3⟩ := (pushU16_exact d.ar.length u2).2 (by rw [u2.clen]; omega)
  have k3 : t3.len = t2.len + 2 := by rw [← u3.clen, x3, ← u2.clen]; simp
  rw [f3, orElse, Res.ok_bind]
  obtain ⟨t4, f4, u4, n4, x4⟩ := (addchar_exact d.type u3).2 (by rw [u3.clen]; omega)
  rw [f4]
  exact ⟨t4, rfl, by rw [x4, List.length_append, u3.clen]; simp; omega⟩

end DwStr
end Dw
