import Verif.Deadwood.DecompProps
import Verif.Deadwood.DecompSafe
import Verif.Deadwood.DnsStr3Props
import Verif.Deadwood.CompressProps
import Verif.Spec.Message
import Mathlib.Tactic.SplitIfs
/-!
# Decompressing whole answers: lemmas
-/

namespace Dw
namespace DwStr
open Spec

theorem bytesAt_take {c : List UInt8} {i : Nat} {l : List UInt8} (h : BytesAt (memOf c) i l) :
    (c.drop i).take l.length = l := by
  apply List.ext_getElem?
  intro j
  by_cases hj : j < l.length
  · rw [List.getElem?_take_of_lt hj, List.getElem?_drop, List.getElem?_eq_getElem hj]
    exact h j hj
  · rw [List.getElem?_eq_none (by simp; omega), List.getElem?_eq_none (by omega)]

theorem bytesAt_le {c : List UInt8} {i : Nat} {l : List UInt8} (h : BytesAt (memOf c) i l) (h0 : 0 < l.length) :
    i + l.length ≤ c.length := by
  have := h (l.length - 1) (by omega)
  have := (List.getElem?_eq_some_iff.1 this).1
  omega

theorem bytesAt_left {m : Mem} {i : Nat} {a b : List UInt8} (h : BytesAt m i (a ++ b)) : BytesAt m i a := by
  intro j hj
  rw [h j (by simp; omega), List.getElem_append_left hj]

theorem bytesAt_right {m : Mem} {i : Nat} {a b : List UInt8} (h : BytesAt m i (a ++ b)) :
    BytesAt m (i + a.length) b := by
  intro j hj
  have := h (a.length + j) (by simp; omega)
  rw [Nat.add_assoc, this, List.getElem_append_right (by omega)]
  simp

theorem bytesAt_append {m : Mem} {i : Nat} {a b : List UInt8} (h1 : BytesAt m i a)
    (h2 : BytesAt m (i + a.length) b) : BytesAt m i (a ++ b) := by
  intro j hj
  by_cases h : j < a.length
  · rw [h1 j h, List.getElem_append_left h]
  · have := h2 (j - a.length) (by simp at hj; omega)
    rw [show i + a.length + (j - a.length) = i + j by omega] at this
    rw [this, List.getElem_append_right (by omega)]

theorem be16_val {v : Nat} (h : v < 65536) :
    ((be16 v)[0]'(by rw [be16_length]; omega)).toNat * 256 + ((be16 v)[1]'(by rw [be16_length]; omega)).toNat = v := by
  simp [be16]; omega

theorem fetchU16_at {s : DwStr} (h : Usable s) {i v : Nat} (hb : BytesAt s.mem i (be16 v)) (hv : v < 65536) :
    s.fetchU16 i = .ok v := by
  have hle := bytesAt_le hb (by simp [be16])
  rw [be16_length] at hle
  rw [(fetchU16_in h i (by omega)).1]
  have h0 := hb 0 (by simp [be16])
  have h1 := hb 1 (by simp [be16])
  simp only [mem, memOf, Nat.add_zero] at h0 h1
  rw [List.getElem?_eq_getElem (by omega)] at h0 h1
  injection h0 with h0
  injection h1 with h1
  rw [h0, h1, be16_val hv]

theorem fetchI_at {s : DwStr} (h : Usable s) {i v : Nat} (hb : BytesAt s.mem i (be16 v)) (hv : v < 65536) :
    s.fetchI i = .ok v := by
  rw [fetchI, fetchU16_at h hb hv]

theorem bytesAt_mid {s : DwStr} {pre l post : List UInt8} (h : s.contents = pre ++ l ++ post) :
    BytesAt s.mem pre.length l := by
  intro j hj
  simp only [mem, memOf, h]
  rw [List.getElem?_append_left (by simp; omega), List.getElem?_append_right (by omega)]
  simp [hj]

theorem putU16_at {s : DwStr} (h : Usable s) {pre post : List UInt8} {x w : Nat}
    (hc : s.contents = pre ++ be16 x ++ post) (hl : s.contents.length ≤ 16777215) :
    ∃ s', s.orElse (s.putU16 w (pre.length : Nat)) = .ok s' ∧ Usable s' ∧ s'.max = s.max ∧
      s'.contents = pre ++ be16 w ++ post := by
  obtain ⟨s', e, u, m, c⟩ := putU16_in h w pre.length (by rw [hc]; simp [be16]) hl
  refine ⟨s', by rw [e]; rfl, u, m, ?_⟩
  rw [c, hc]
  simp [be16]

theorem u16_lt (v : Int) : u16 v < 65536 := by unfold u16; omega

theorem u16_add (v d : Int) : u16 ((u16 v : Int) + d) = u16 (v + d) := by unfold u16; omega

theorem endsAt_lt {m : Mem} {i e : Nat} (h : EndsAt m i e) : i < e := by
  induction h with
  | root => omega
  | pointer => omega
  | label _ _ ih => omega

theorem namesAt_le {p q : Mem} {plen qlen i k : Nat} {ns : List (List (List UInt8))}
    (h : NamesAt p q plen qlen i ns k) : i ≤ k := by
  induction h with
  | nil => omega
  | cons _ _ he _ ih => have := endsAt_lt he; omega

theorem decompNames_exact {inp q : DwStr} (hi : Usable inp) (hq : Usable q) (junk : List UInt8)
    {pre : List UInt8} {i k : Nat} {ns : List (List (List UInt8))}
    (h : NamesAt inp.mem q.mem inp.len q.len i ns k) :
    ∀ (out : DwStr) (v : Int) (post : List UInt8), Usable out →
      out.contents = pre ++ be16 (u16 v) ++ post →
      out.contents.length + (ns.flatMap encName).length < out.max → out.max ≤ 16777215 →
      ∃ out', decompNames inp q (pre.length : Nat) junk ns.length i out = .ok (k, out') ∧ Usable out' ∧
        out'.max = out.max ∧
        out'.contents = pre ++ be16 (u16 (v + (ns.flatMap encName).length - (k - i))) ++ post ++ ns.flatMap encName := by
  induction h with
  | nil =>
    intro out v post ho hc hf hm
    exact ⟨out, rfl, ho, rfl, by rw [hc]; simp⟩
  | @cons n i e k ls rest hn hname hend hrest ih =>
    intro out v post ho hc hf hm
    simp only [List.flatMap_cons, List.length_append] at hf
    obtain ⟨e', o, h1, h2, h3, h4, -, h5⟩ := decompDname_exact hi hq ho hn hname junk
    have hee := endsAt_unique h2 hend
    subst hee
    have hoc := h5 (by omega)
    rw [List.length_cons, decompNames, h1, Res.ok_bind]
    simp only [if_neg (show ¬ ((e' : Int) < 0) by omega), Int.toNat_natCast]
    have hc2 : o.contents = pre ++ be16 (u16 v) ++ (post ++ encName ls) := by rw [hoc, hc]; simp
    rw [fetchI_at h3 (bytesAt_mid hc2) (u16_lt v), Res.ok_bind, u16_add]
    have hol : o.contents.length = out.contents.length + (encName ls).length := by rw [hoc]; simp
    obtain ⟨o2, g1, g2, g3, g4⟩ := putU16_at (w := u16 (v + (((encName ls).length : Int) - ((e' : Int) - i)))) h3 hc2 (by omega)
    rw [g1, Res.ok_bind]
    have hl2 : o2.contents.length = o.contents.length := by rw [g4, hc2]; simp [be16_length]
    obtain ⟨o3, k1, k2, k3, k4⟩ := ih _ _ _ g2 g4 (by rw [g3, h4]; omega) (by rw [g3, h4]; exact hm)
    refine ⟨o3, k1, k2, by rw [k3, g3, h4], ?_⟩
    rw [k4]
    simp only [List.flatMap_cons, List.length_append, List.append_assoc]
    have : (v + ((encName ls).length - ((e' : Int) - i)) + (rest.flatMap encName).length - ((k : Int) - e')) =
        (v + (((encName ls).length + (rest.flatMap encName).length : Nat) : Int) - ((k : Int) - i)) := by
      omega
    rw [this]

theorem typeDesc_layout (t : Nat) :
    (typeDesc t = none ∧ rdLayout t = none) ∨
      ∃ f x, typeDesc t = some (f, x) ∧ rdLayout t = some x := by
  by_cases h : t < 34
  · have : ∀ t : Fin 34, (typeDesc t = none ∧ rdLayout t = none) ∨
        ∃ f x, typeDesc t = some (f, x) ∧ rdLayout t = some x := by
      intro t
      have h2 : (match typeDesc t, rdLayout t with
        | none, none => true
        | some (_, x), some y => x == y
        | _, _ => false) = true := by
        revert t; decide
      cases h3 : typeDesc t with
      | none =>
        cases h4 : rdLayout t with
        | none => exact Or.inl ⟨rfl, rfl⟩
        | some y => rw [h3, h4] at h2; exact absurd h2 (by simp)
      | some d =>
        obtain ⟨f, x⟩ := d
        cases h4 : rdLayout t with
        | none => rw [h3, h4] at h2; exact absurd h2 (by simp)
        | some y =>
          rw [h3, h4] at h2
          have : x = y := by simpa using h2
          subst this
          exact Or.inr ⟨f, x, rfl, rfl⟩
    exact this ⟨t, h⟩
  · left
    constructor
    · unfold typeDesc
      split_ifs <;> first | rfl | omega
    · unfold rdLayout
      split <;> first | rfl | omega

/-- Copying bytes that are there and fit. -/
theorem appendSub_at {s out : DwStr} (h : Usable s) (ho : Usable out) {b : Nat} {l : List UInt8}
    (hb : BytesAt s.mem b l) (hle : b + l.length ≤ s.contents.length)
    (hf : out.contents.length + l.length < out.max) (hm : out.max ≤ 16777215) (junk : List UInt8) :
    ∃ o', s.appendSub b l.length out junk = .ok o' ∧ Usable o' ∧ o'.max = out.max ∧
      o'.contents = out.contents ++ l := by
  obtain ⟨o', h1, h2, h3, h4⟩ := appendSub_in h ho hle (by omega) junk
  refine ⟨o', h1, h2, h3, ?_⟩
  rw [h4, bytesAt_take hb, squeeze_fits _ _ _ (by simpa using hf)]
  simp

theorem decompRddata_exact {inp q out : DwStr} (hi : Usable inp) (hq : Usable q) (ho : Usable out)
    (junk : List UInt8) {r : Rec} {a k : Nat} {pre : List UInt8} {v : Nat} (hv : v < 65536)
    (hc : out.contents = pre ++ be16 v)
    (hlead : BytesAt inp.mem (a + 10) r.lead)
    (hnames : NamesAt inp.mem q.mem inp.len q.len (a + 10 + r.lead.length) r.names k)
    (htail : BytesAt inp.mem k r.tail) (hin : a + 10 ≤ inp.contents.length)
    (hf : out.contents.length + r.rdata.length < out.max) (hm : out.max ≤ 16777215)
    (hval : v = k + r.tail.length - (a + 10)) (hsz : r.rdata.length < 65536) :
    ∃ out', decompRddata r.lead.length r.names.length r.tail.length a inp out q junk =
        .ok (k + r.tail.length, out') ∧ Usable out' ∧ out'.max = out.max ∧
      out'.contents = pre ++ be16 r.rdata.length ++ r.rdata := by
  have hkl := namesAt_le hnames
  have hrl : r.rdata.length = r.lead.length + (r.names.flatMap encName).length + r.tail.length := by
    simp [Rec.rdata, -List.length_flatMap]; omega
  have hol : out.contents.length = pre.length + 2 := by rw [hc]; simp [be16_length]
  rw [decompRddata]
  simp only [hi.sane, ho.sane, hq.sane, Bool.not_true, Bool.or_self, Bool.false_eq_true, if_false]
  have hrdo : ((out.len : Int) - 2) = (pre.length : Nat) := by rw [← ho.clen, hol]; omega
  rw [hrdo]
  have huv : u16 (v : Int) = v := by unfold u16; omega
  -- what follows the bytes before the names
  have main : ∀ o1 : DwStr, Usable o1 → o1.max = out.max → o1.contents = pre ++ be16 v ++ r.lead →
      ∃ out', (do
        let (offset, out) ← decompNames inp q (pre.length : Nat) junk r.names.length (a + 10 + r.lead.length) o1
        if r.tail.length > 0 then
          if inp.len < offset + r.tail.length then .err
          else do
            let out ← inp.appendSub offset r.tail.length out junk
            .ok (offset + r.tail.length, out)
        else .ok (offset, out)) = Res.ok (k + r.tail.length, out') ∧ Usable out' ∧ out'.max = out.max ∧
        out'.contents = pre ++ be16 r.rdata.length ++ r.rdata := by
    intro o1 u1 m1 c1
    have hl1 : o1.contents.length = out.contents.length + r.lead.length := by
      rw [c1, hc]; simp [be16_length]; omega
    obtain ⟨o2, s2, u2, m2, c2⟩ := decompNames_exact hi hq junk hnames o1 v r.lead u1 (by rw [huv]; exact c1)
      (by rw [m1]; omega) (by rw [m1]; exact hm)
    rw [s2]
    simp only [Res.ok_bind]
    have hfin : u16 ((v : Int) + (r.names.flatMap encName).length - ((k : Int) - ((a + 10 + r.lead.length : Nat) : Int))) =
        r.rdata.length := by
      unfold u16; omega
    rw [hfin] at c2
    have hl2 : o2.contents.length = out.contents.length + r.lead.length + (r.names.flatMap encName).length := by
      rw [c2, hc]; simp [be16_length, -List.length_flatMap]; omega
    by_cases h0 : r.tail.length > 0
    · simp only [if_pos h0]
      have hle := bytesAt_le htail h0
      rw [if_neg (by rw [← hi.clen]; omega)]
      obtain ⟨o3, s3, u3, m3, c3⟩ := appendSub_at hi u2 htail hle (by rw [m2, m1]; omega) (by omega) junk
      rw [s3, Res.ok_bind]
      refine ⟨o3, rfl, u3, by rw [m3, m2, m1], ?_⟩
      rw [c3, c2]; simp [Rec.rdata]
    · simp only [if_neg h0]
      have : r.tail = [] := List.eq_nil_of_length_eq_zero (by omega)
      refine ⟨o2, by rw [this]; rfl, u2, by rw [m2, m1], ?_⟩
      rw [c2]; simp [Rec.rdata, this]
  by_cases h0 : r.lead.length > 0
  · rw [if_pos h0]
    have hle := bytesAt_le hlead h0
    rw [if_neg (by rw [← hi.clen]; omega)]
    have hlim := ho.lim
    obtain ⟨c, e1, e2, e3, e4⟩ := substr_in hi (a + 10) r.lead.length 1 junk hle (by omega)
    have e1' : inp.substr ((a + 10 : Nat) : Int) (r.lead.length : Nat) 1 junk = .ok c := e1
    rw [e1', Res.ok_bind]
    rw [bytesAt_take hlead] at e4
    obtain ⟨t, g1, g2, g3, g4⟩ := (append_exact e2 ho).2 (by rw [e4]; omega)
    rw [g1, Res.ok_bind]
    exact main t g2 g3 (by rw [g4, e4, hc])
  · rw [if_neg h0]
    have h00 : r.lead = [] := List.eq_nil_of_length_eq_zero (by omega)
    rw [Res.ok_bind]
    exact main out ho rfl (by rw [hc, h00]; simp)

theorem recAt_lt {p q : Mem} {plen qlen i e : Nat} {r : Rec} (h : RecAt p q plen qlen i r e) : i + 11 ≤ e := by
  obtain ⟨n, a, k, -, -, h2, -, -, -, h3, -, h4⟩ := h.at_
  have := endsAt_lt h2
  have := namesAt_le h3
  omega

theorem decompRr_exact {inp q out stack : DwStr} (hi : Usable inp) (hq : Usable q) (ho : Usable out)
    (hs : Usable stack) (junk : List UInt8) {r : Rec} (hr : r.Ok) {i e : Nat}
    (h : RecAt inp.mem q.mem inp.len q.len i r e) (hin : e + 7 ≤ inp.contents.length)
    (hf : out.contents.length + r.toRR.size < out.max) (hm : out.max ≤ 65535)
    (hst : stack.contents.length + 4 < stack.max) :
    ∃ out' stack', decompRr inp out q stack i junk = .ok (e, out', stack') ∧ Usable out' ∧ Usable stack' ∧
      out'.max = out.max ∧ stack'.max = stack.max ∧ out'.contents = out.contents ++ r.toRR.enc ∧
      stack'.contents = stack.contents ++
        Packed.cell (out.contents.length, out.contents.length + (encName r.name).length) := by
  have hee := recAt_lt h
  obtain ⟨n, a, k, hn, hname, hend, hhead, hlt, hlead, hnames, htail, hek⟩ := h.at_
  have hae := namesAt_le hnames
  have hlim := hi.lim
  have hilt := hi.lt
  have hcl := hi.clen
  have hocl := ho.clen
  have hsz : r.toRR.size = (encName r.name).length + 10 + r.rdata.length := rfl
  rw [decompRr]
  simp only [hi.sane, ho.sane, hq.sane, hs.sane, Bool.not_true, Bool.or_self, Bool.false_eq_true, if_false]
  obtain ⟨st1, p1, p2, p3, p4⟩ := (pushU16_exact (out.len % 65536) hs).2 (by omega)
  rw [p1]
  simp only [orElse, Res.ok_bind]
  obtain ⟨a', o1, d1, d2, d3, d4, -, d5⟩ := decompDname_exact hi hq ho hn hname junk
  have haa := endsAt_unique d2 hend
  subst haa
  have c1 := d5 (by omega)
  have hl1 : o1.contents.length = out.contents.length + (encName r.name).length := by rw [c1]; simp
  have hi7 : u32 ((inp.len : Int) - 7) = inp.len - 7 := by unfold u32; omega
  rw [d1, Res.ok_bind, hi7]
  simp only
  rw [if_neg (by omega)]
  obtain ⟨st2, g1, g2, g3, g4⟩ := (pushU16_exact (o1.len % 65536) p2).2 (by rw [p4, p3]; simp; omega)
  simp only [Int.toNat_natCast]
  rw [g1]
  simp only [Res.ok_bind]
  have hhl : (be16 r.type ++ r.cls ++ be32 r.ttl ++ be16 (e - (a' + 10))).length = 10 := by
    simp [be16_length, be32, hr.cls]
  have htype : BytesAt inp.mem a' (be16 r.type) := bytesAt_left (bytesAt_left (bytesAt_left hhead))
  have hrdl : BytesAt inp.mem (a' + 8) (be16 (e - (a' + 10))) := by
    have := bytesAt_right hhead
    rwa [show (be16 r.type ++ r.cls ++ be32 r.ttl).length = 8 by simp [be16_length, be32, hr.cls]] at this
  rw [fetchU16_at hi htype hr.type, Res.ok_bind]
  obtain ⟨o2, f1, f2, f3, f4⟩ := appendSub_at hi d3 hhead (by rw [hhl]; omega) (by rw [hhl, d4]; omega) (by omega) junk
  rw [hhl] at f1
  have f1' : inp.appendSub (a' : Nat) 10 o1 junk = .ok o2 := f1
  rw [f1', Res.ok_bind, fetchI_at hi hrdl hlt, Res.ok_bind]
  have hl2 : o2.contents.length = o1.contents.length + 10 := by rw [f4, List.length_append, hhl]
  have hcell : st2.contents = stack.contents ++
      Packed.cell (out.contents.length, out.contents.length + (encName r.name).length) := by
    rw [g4, p4, ← ho.clen, ← d3.clen, hl1, Nat.mod_eq_of_lt (by omega), Nat.mod_eq_of_lt (by omega)]
    simp [Packed.cell, be16]
  have henc : out.contents ++ r.toRR.enc = out.contents ++ encName r.name ++
      (be16 r.type ++ r.cls ++ be32 r.ttl ++ be16 r.rdata.length) ++ r.rdata := by
    simp [Rec.toRR, RR.enc]
  have hform := hr.form
  rcases typeDesc_layout r.type with ⟨ht, hl⟩ | ⟨f, ⟨lead, names, tail⟩, ht, hl⟩
  · rw [ht]
    rw [hl] at hform
    simp only [Option.getD_none, Prod.mk.injEq] at hform
    obtain ⟨q1, q2, -⟩ := hform
    have hld : r.lead = [] := List.eq_nil_of_length_eq_zero q1
    have hns : r.names = [] := List.eq_nil_of_length_eq_zero q2
    have hrd : r.rdata = r.tail := by simp [Rec.rdata, hld, hns]
    have hk : k = a' + 10 := by
      rw [hns, hld] at hnames
      cases hnames; rfl
    subst hk
    have hdiff : e - (a' + 10) = r.tail.length := by omega
    simp only
    rw [if_neg (by omega), hdiff]
    obtain ⟨o3, s1, s2, s3, s4⟩ := appendSub_at hi f2 htail (by omega) (by
      rw [f3, d4]; rw [hrd] at hsz; omega) (by rw [f3, d4]; omega) junk
    rw [s1, Res.ok_bind]
    refine ⟨o3, st2, ?_, s2, g2, by rw [s3, f3, d4], by rw [g3, p3], ?_, hcell⟩
    · congr 1
      rw [Prod.mk.injEq]
      exact ⟨by omega, rfl⟩
    · rw [s4, f4, c1, henc, hrd, hdiff]
  · rw [ht]
    rw [hl] at hform
    simp only [Option.getD_some, Prod.mk.injEq] at hform
    obtain ⟨q1, q2, q3⟩ := hform
    subst q1 q2 q3
    simp only
    obtain ⟨o3, s1, s2, s3, s4⟩ := decompRddata_exact hi hq f2 junk (r := r) (a := a') (k := k)
      (pre := o1.contents ++ (be16 r.type ++ r.cls ++ be32 r.ttl)) (v := e - (a' + 10)) hlt
      (by rw [f4]; simp) hlead hnames htail (by omega) (by rw [f3, d4]; omega) (by rw [f3, d4]; omega)
      (by omega) hr.size
    rw [s1, Res.ok_bind]
    refine ⟨o3, st2, by rw [← hek], s2, g2, by rw [s3, f3, d4], by rw [g3, p3], ?_, hcell⟩
    rw [s4, c1, henc]
    simp

theorem Rec.toRR_ok {r : Rec} (h : r.Ok) : r.toRR.Ok :=
  ⟨h.type, h.cls, h.ttl, rfl⟩

theorem recsAt_le {p q : Mem} {plen qlen i e : Nat} {rs : List Rec} (h : RecsAt p q plen qlen i rs e) :
    i + 11 * rs.length ≤ e := by
  induction h with
  | nil => simp
  | cons hr _ ih => have := recAt_lt hr; simp; omega

theorem decompAll_exact {inp q : DwStr} (hi : Usable inp) (hq : Usable q) (junk : List UInt8) {i e : Nat}
    {rs : List Rec} (h : RecsAt inp.mem q.mem inp.len q.len i rs e) (he : e + 7 = inp.contents.length) :
    ∀ (n : Nat) (out stack : DwStr), rs.length < n → (∀ r ∈ rs, r.Ok) → Usable out → Usable stack →
      out.contents.length + sizes (rs.map Rec.toRR) < out.max → out.max ≤ 65535 →
      stack.contents.length + 4 * rs.length < stack.max →
      ∃ out' stack', decompAll inp q junk n i out stack = .ok (out', stack') ∧ Usable out' ∧ Usable stack' ∧
        out'.max = out.max ∧ stack'.max = stack.max ∧
        out'.contents = out.contents ++ (rs.map Rec.toRR).flatMap RR.enc ∧
        stack'.contents = stack.contents ++
          (offsets out.contents.length (rs.map Rec.toRR)).flatMap Packed.cell := by
  have hi7 : u32 ((inp.len : Int) - 7) = e := by
    have := hi.clen; have := hi.lim; have := hi.lt
    unfold u32; omega
  induction h with
  | nil =>
    intro n out stack hn _ ho hs _ _ _
    obtain ⟨n, rfl⟩ : ∃ m, n = m + 1 := ⟨n - 1, by simp at hn; omega⟩
    rw [decompAll, hi7, if_neg (by omega)]
    exact ⟨out, stack, rfl, ho, hs, rfl, rfl, by simp, by simp [offsets]⟩
  | @cons i m e r rs hr hrest ih =>
    intro n out stack hn hok ho hs hf hm hst
    obtain ⟨n, rfl⟩ : ∃ m, n = m + 1 := ⟨n - 1, by simp at hn; omega⟩
    have h1 := recAt_lt hr
    have h2 := recsAt_le hrest
    have hrok := hok r (by simp)
    have hsz : sizes ((r :: rs).map Rec.toRR) = r.toRR.size + sizes (rs.map Rec.toRR) := by simp [sizes]
    rw [hsz] at hf
    simp only [List.length_cons] at hn hst
    rw [decompAll, hi7, if_pos (by omega)]
    obtain ⟨o1, s1, e1, u1, v1, m1, k1, c1, d1⟩ := decompRr_exact hi hq ho hs junk hrok hr (by omega) (by omega) hm (by omega)
    rw [e1, Res.ok_bind]
    simp only [if_neg (show ¬ m > e by omega)]
    have hl1 : o1.contents.length = out.contents.length + r.toRR.size := by
      rw [c1, List.length_append, RR.enc_length (Rec.toRR_ok hrok)]
    have hd1 : s1.contents.length = stack.contents.length + 4 := by
      rw [d1]; simp [Packed.cell, be16_length]
    obtain ⟨o2, s2, e2, u2, v2, m2, k2, c2, d2⟩ := ih he hi7 n o1 s1 (by omega)
      (fun x hx => hok x (by simp [hx])) u1 v1 (by rw [m1]; omega) (by rw [m1]; exact hm) (by rw [k1]; omega)
    refine ⟨o2, s2, e2, u2, v2, by rw [m2, m1], by rw [k2, k1], ?_, ?_⟩
    · rw [c2, c1]; simp
    · rw [d2, d1, hl1]
      simp [offsets, Rec.toRR]

end DwStr
end Dw
