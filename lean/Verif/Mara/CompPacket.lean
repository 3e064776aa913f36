import Verif.Mara.CompRec
/-!
# Compression: the data of a record, records, messages
-/

namespace Mara
namespace Comp

open Spec
open Dw (Res)
open Lookup (encName_cons_length encName_pos encName_lower ofNat_len len_facts)

theorem substrAppend_eq' (pre x rest out : List UInt8) (hx : 1 ≤ x.length + rest.length) :
    (substrAppend (pre ++ (x ++ rest)) out pre.length x.length = .err ∧ 4100 ≤ out.length + x.length) ∨
    substrAppend (pre ++ (x ++ rest)) out pre.length x.length = .ok (out ++ x) := by
  unfold substrAppend
  rw [if_neg (by simp), if_neg (by simp; omega), List.drop_left, List.take_left]
  exact append_eq out x

theorem Inv.whole {N k at_ : Nat} {s : St} (hi : Inv (some at_) N s k) : Inv none N s k where
  le := hi.le
  lo := hi.lo
  pts := fun p hp => by
    have h := hi.pts p hp
    obtain ⟨ls, hn⟩ := h.name
    obtain ⟨z, hz, hz'⟩ := h.first
    exact ⟨h.lo, h.hi, (view_sub (some at_) s.out).placed h.place, ⟨ls, (view_sub _ _).firm hn⟩, z, view_sub _ _ _ _ hz, hz'⟩
  cap := hi.cap
  sum := hi.sum
  hole := by intro a ha; cases ha

/-- Writing the length. -/
theorem patch_ok {c : List UInt8} {at_ n : Nat} (hat : at_ + 2 ≤ c.length) :
    let c' := (c.set at_ (UInt8.ofNat (n / 256))).set (at_ + 1) (UInt8.ofNat n)
    c'.length = c.length ∧ Sub (view (some at_) c) (memOf c') ∧ BytesAt (memOf c') at_ (be16 n) := by
  intro c'
  have hl : c'.length = c.length := by simp [c']
  refine ⟨hl, ?_, ?_⟩
  · intro i b hb
    simp only [view] at hb
    split at hb
    · cases hb
    · rename_i hn
      unfold memOf
      rw [List.getElem?_set_ne (by omega), List.getElem?_set_ne (by omega)]
      exact hb
  · intro j hj
    have hj2 : j < 2 := hj
    unfold memOf
    rcases (by omega : j = 0 ∨ j = 1) with rfl | rfl
    · rw [Nat.add_zero, List.getElem?_set_ne (by omega), List.getElem?_set_self (by omega)]
      rfl
    · rw [List.getElem?_set_self (by simp; omega)]
      rfl

/-- The end of `compress_rddata`. -/
theorem finish_ok {N k at_ rdlen : Nat} {s1 : St} {c x : List UInt8} (hi : Inv (some at_) N s1 k) (h12 : 12 ≤ at_)
    (hat : at_ + 2 ≤ c.length) (hout : s1.out = c ++ x)
    (hb : BytesAt (memOf c) at_ (be16 rdlen)) (hx : x.length ≤ rdlen) (hx2 : x.length = rdlen ∨ 2 ≤ x.length)
    (hr : rdlen < 65536) :
    ∃ s', (if rdlen ≠ rdlen then (.err : Res St)
      else if (x.length : Int) ≠ rdlen then
        if (x.length : Int) > 65535 ∨ (x.length : Int) < 2 then .err
        else if at_ < 12 ∨ at_ + 1 ≥ s1.out.length then .err
        else .ok { s1 with out :=
          (s1.out.set at_ (UInt8.ofNat ((x.length : Int).toNat / 256))).set (at_ + 1) (UInt8.ofNat (x.length : Int).toNat) }
      else .ok s1) = .ok s' ∧ s'.off = s1.off ∧ s'.out.length = c.length + x.length ∧
      Sub (view (some at_) (c ++ x)) (memOf s'.out) ∧ BytesAt (memOf s'.out) at_ (be16 x.length) ∧ Inv none N s' k := by
  rw [if_neg (by simp)]
  have hol : s1.out.length = c.length + x.length := by rw [hout, List.length_append]
  by_cases he : x.length = rdlen
  · refine ⟨s1, ?_, rfl, hol, ?_, ?_, hi.whole⟩
    · rw [if_neg (by rw [he]; simp)]
    · rw [← hout]; exact view_sub _ _
    · rw [hout, he]; exact (memOf_append c x).bytes hb
  · have h2 : 2 ≤ x.length := by omega
    obtain ⟨hp1, hp2, hp3⟩ := patch_ok (c := s1.out) (at_ := at_) (n := x.length) (by omega)
    refine ⟨⟨s1.off, (s1.out.set at_ (UInt8.ofNat (x.length / 256))).set (at_ + 1) (UInt8.ofNat x.length), s1.points⟩,
      ?_, rfl, ?_, ?_, ?_, ?_⟩
    · rw [if_pos (by omega), if_neg (by omega), if_neg (by omega)]
      simp only [Int.toNat_natCast]
    · rw [hp1, hol]
    · rw [← hout]; exact hp2
    · exact hp3
    · have hle := hi.le
      have hlo := hi.lo
      refine ⟨by simp only; rw [hp1]; exact hle, by simp only; rw [hp1]; exact hlo, ?_, hi.cap, hi.sum, by intro a ha; cases ha⟩
      intro p hp
      have h := hi.pts p hp
      obtain ⟨ls, hn⟩ := h.name
      obtain ⟨z, hz, hz'⟩ := h.first
      refine ⟨h.lo, ?_, hp2.placed h.place, ⟨ls, hp2.firm hn⟩, z, hp2 _ _ hz, hz'⟩
      simp only
      rw [hp1]
      exact h.hi

/-- What the data of a record becomes. -/
structure Data (N k at_ : Nat) (s s' : St) (r : Rec) (x : List UInt8) (names' : List Name) (e : Nat) : Prop where
  off : s'.off = s.off + r.rdata.length
  len : s'.out.length = s.out.length + x.length
  sub : Sub (view (some at_) (s.out ++ x)) (memOf s'.out)
  size : BytesAt (memOf s'.out) at_ (be16 x.length)
  le : x.length ≤ r.rdata.length
  lead : BytesAt (view (some at_) (s.out ++ x)) s.out.length r.lead
  names : NamesVia (Firm (view (some at_) (s.out ++ x))) (view (some at_) (s.out ++ x)) (s.out.length + r.lead.length) names' e
  tail : BytesAt (view (some at_) (s.out ++ x)) e r.tail
  fin : s.out.length + x.length = e + r.tail.length
  same : SameNames r.names names'
  inv : Inv none N s' k

theorem rddata_step {N um k at_ : Nat} {s : St} {u pre rest : List UInt8} {r : Rec} (hr : r.Sound)
    (hi : Inv (some at_) N s ((r.names.map nameCount).sum + k)) (hbase : Base (some at_) s.out) (h12 : 12 ≤ at_)
    (hb : BytesAt (memOf s.out) at_ (be16 r.rdata.length)) (hu : u = pre ++ (r.rdata ++ rest)) (hoff : s.off = pre.length)
    (hum : u.length < um) :
    (rddata u um r.type r.rdata.length at_ s = .err ∧ Bad u N) ∨
    ∃ s' x names' e, rddata u um r.type r.rdata.length at_ s = .ok s' ∧ Data N k at_ s s' r x names' e := by
  have hat := hi.hole at_ rfl
  have hle := hi.le
  have hform := hr.ok.form
  have hsize := hr.ok.size
  have hul : u.length = pre.length + (r.rdata.length + rest.length) := by rw [hu]; simp
  -- data that is only bytes
  have hplain : r.lead = [] → r.names = [] → ∀ s', s'.off = s.off + r.rdata.length →
      s'.out = s.out ++ r.tail → Inv none N s' k → Data N k at_ s s' r r.tail [] s.out.length := by
    intro h1 h2 s' g1 g2 g3
    have ht : r.rdata = r.tail := by unfold Rec.rdata; rw [h1, h2]; simp
    refine ⟨g1, by rw [g2]; simp, by rw [g2]; exact view_sub _ _, ?_, Nat.le_of_eq (by rw [ht]), ?_, by rw [h1]; exact .nil, ?_, by omega,
      by rw [h2]; trivial, g3⟩
    · rw [g2, ← ht]; exact (memOf_append _ _).bytes hb
    · rw [h1]; intro j hj; cases hj
    · have := bytesAt_view hi.hole r.tail []
      simpa using this
  cases hlay : rdLayout r.type with
  | none =>
    rw [hlay] at hform
    simp only [Option.getD_none, Prod.mk.injEq] at hform
    have h1 : r.lead = [] := List.eq_nil_of_length_eq_zero hform.1
    have h2 : r.names = [] := List.eq_nil_of_length_eq_zero hform.2.1
    have ht : r.rdata = r.tail := by unfold Rec.rdata; rw [h1, h2]; simp
    have hi0 : Inv (some at_) N s k := by simpa [h2] using hi
    have hplain := hplain h1 h2
    rw [ht] at hu hul hplain ⊢
    have hk := fun (y : List UInt8) (hy : y.length ≤ r.tail.length) => (hi0.app r.tail.length y hy).whole
    rcases fields_unknown hlay with h | h | h
    · -- A
      have h4 := hr.a h
      have hrun := fixed_run (u := u) (rest := rest) (um := um) (rdlen := r.tail.length) (N := N) (cmp := false) (fs := [])
        [4] (by simp) r.tail pre s.out s.points 0 0 (by simpa using h4) hu (by omega)
      rw [← hoff] at hrun
      unfold rddata
      rw [h]
      simp only [fields]
      simp only [List.map_cons, List.map_nil, List.append_nil] at hrun
      rcases hrun with ⟨g1, g2⟩ | g1
      · left
        rw [show (⟨s.off, s.out, s.points⟩ : St) = s from rfl] at g1
        rw [g1]
        exact ⟨rfl, g2⟩
      · right
        rw [show (⟨s.off, s.out, s.points⟩ : St) = s from rfl] at g1
        rw [g1, runFields]
        simp only [Res.ok_bind]
        refine ⟨_, r.tail, [], s.out.length, ?_, hplain ⟨s.off + r.tail.length, s.out ++ r.tail, s.points⟩ rfl rfl (hk r.tail (by omega))⟩
        rw [if_neg (by omega), if_neg (by push_cast; omega)]
    · -- TXT
      obtain ⟨n, tl, htl, hn⟩ := hr.txt h
      have hget : u[s.off]? = some n := by rw [hu, hoff, htl]; simp
      have hlt : r.tail.length = tl.length + 1 := by rw [htl]; simp
      have hsplit : r.tail = r.tail.take n.toNat ++ r.tail.drop n.toNat := (List.take_append_drop _ _).symm
      have hlen1 : (r.tail.take n.toNat).length = n.toNat := by rw [List.length_take]; omega
      have hlen2 : (r.tail.drop n.toNat).length = r.tail.length - n.toNat := by rw [List.length_drop]
      have hu1 : u = pre ++ (r.tail.take n.toNat ++ (r.tail.drop n.toNat ++ rest)) := by
        rw [hu, ← List.append_assoc (r.tail.take _), ← hsplit]
      have hu2 : u = (pre ++ r.tail.take n.toNat) ++ (r.tail.drop n.toNat ++ rest) := by rw [hu1]; simp
      have e1 := substrAppend_eq' pre (r.tail.take n.toNat) (r.tail.drop n.toNat ++ rest) s.out
        (by rw [List.length_append]; omega)
      have e2 := substrAppend_eq' (pre ++ r.tail.take n.toNat) (r.tail.drop n.toNat) rest (s.out ++ r.tail.take n.toNat)
        (by omega)
      rw [← hu1, hlen1, ← hoff] at e1
      rw [← hu2, hlen2, List.append_assoc s.out, ← hsplit, List.length_append, hlen1, ← hoff, List.length_append, hlen1] at e2
      unfold rddata
      rw [h]
      simp only [fields]
      rw [runFields, hget]
      simp only
      rcases e1 with ⟨g1, g2⟩ | g1
      · left
        rw [g1]
        exact ⟨rfl, .inl (by omega)⟩
      · rw [g1]
        simp only [Res.ok_bind]
        rw [runFields, if_neg (by omega), if_neg (by omega)]
        simp only [Nat.zero_add]
        rcases e2 with ⟨g3, g4⟩ | g3
        · left
          rw [g3]
          exact ⟨rfl, .inl (by omega)⟩
        · right
          rw [g3]
          simp only [Res.ok_bind]
          refine ⟨_, r.tail, [], s.out.length, ?_, hplain ⟨s.off + r.tail.length, s.out ++ r.tail, s.points⟩ rfl rfl (hk r.tail (by omega))⟩
          rw [if_neg (by omega), if_neg (by push_cast; omega), show s.off + n.toNat + (r.tail.length - n.toNat) = s.off + r.tail.length by omega]
    · -- other types
      unfold rddata
      rw [h]
      simp only
      by_cases h0 : r.tail.length = 0
      · right
        have hnil : r.tail = [] := List.eq_nil_of_length_eq_zero h0
        refine ⟨s, r.tail, [], s.out.length, by rw [if_pos h0], hplain s (by rw [h0]; rfl) (by rw [hnil]; simp) hi0.whole⟩
      · rw [if_neg h0]
        have e1 := substrAppend_eq pre r.tail rest s.out (by omega)
        rw [← hu, ← hoff] at e1
        rcases e1 with ⟨g1, g2⟩ | g1
        · left
          rw [g1]
          exact ⟨rfl, .inl (by omega)⟩
        · right
          rw [g1]
          exact ⟨_, r.tail, [], s.out.length, rfl, hplain ⟨s.off + r.tail.length, s.out ++ r.tail, s.points⟩ rfl rfl (hk r.tail (by omega))⟩
  | some v =>
    obtain ⟨l, nn, tl⟩ := v
    rw [hlay] at hform
    simp only [Option.getD_some, Prod.mk.injEq] at hform
    obtain ⟨hf1, hf2, hf3⟩ := hform
    obtain ⟨A, B, cmp, hfld, hA, hB, hA1, hB1⟩ := fields_known hlay
    have hrd : r.rdata = r.lead ++ (r.names.flatMap encName ++ r.tail) := by unfold Rec.rdata; simp
    have hrl : r.rdata.length = r.lead.length + ((r.names.flatMap encName).length + r.tail.length) := by rw [hrd]; simp
    have hu1 : u = pre ++ (r.lead ++ (r.names.flatMap encName ++ (r.tail ++ rest))) := by rw [hu, hrd]; simp
    have hu2 : u = (pre ++ r.lead) ++ (r.names.flatMap encName ++ (r.tail ++ rest)) := by rw [hu1]; simp
    have hu3 : u = (pre ++ r.lead ++ r.names.flatMap encName) ++ (r.tail ++ rest) := by rw [hu1]; simp
    have run1 := fixed_run (u := u) (rest := r.names.flatMap encName ++ (r.tail ++ rest)) (um := um) (rdlen := r.rdata.length)
      (N := N) (cmp := cmp) (fs := List.replicate nn .name ++ B.map .fixed) A hA1 r.lead pre s.out s.points 0 0 (by omega) hu1 (by omega)
    rw [← hoff, show (⟨s.off, s.out, s.points⟩ : St) = s from rfl] at run1
    have hi1 := hi.app r.lead.length r.lead (by omega)
    unfold rddata
    rw [hfld]
    simp only
    rcases run1 with ⟨g1, g2⟩ | g1
    · left
      rw [g1]
      exact ⟨rfl, g2⟩
    rw [g1]
    have run2 := names_run (rdlen := r.rdata.length) (cmp := cmp) (fs := B.map .fixed) (rest := r.tail ++ rest) hum r.names hr.names
      _ (pre ++ r.lead) (0 + r.lead.length) (0 + (r.lead.length : Int)) hi1 (hbase.append _) hu2 (by rw [List.length_append, hoff])
    rw [hf2] at run2
    rcases run2 with ⟨g3, g4⟩ | ⟨x, s2, names', g3, g4, g5, g6, g7, g8, g9, g10⟩
    · left
      rw [g3]
      exact ⟨rfl, g4⟩
    rw [g3]
    simp only at g4 g5 g7
    have hle2 := g6.le
    have run3 := fixed_run (u := u) (rest := rest) (um := um) (rdlen := r.rdata.length) (N := N) (cmp := cmp) (fs := []) B hB1
      r.tail (pre ++ r.lead ++ r.names.flatMap encName) s2.out s2.points (0 + r.lead.length + (r.names.flatMap encName).length)
      (0 + (r.lead.length : Int) + x.length) (by omega) hu3 (by simp only [List.length_append]; omega)
    rw [List.append_nil, show (pre ++ r.lead ++ r.names.flatMap encName).length = s2.off by
      rw [g4, hoff]; simp [Nat.add_assoc], show (⟨s2.off, s2.out, s2.points⟩ : St) = s2 from rfl] at run3
    rcases run3 with ⟨g11, g12⟩ | g11
    · left
      rw [g11]
      exact ⟨rfl, g12⟩
    right
    rw [g11, runFields]
    simp only [Res.ok_bind]
    have hi3 := g6.app r.tail.length r.tail (by omega)
    have hout3 : s2.out ++ r.tail = s.out ++ (r.lead ++ x ++ r.tail) := by rw [g5]; simp
    have hxl : (r.lead ++ x ++ r.tail).length = r.lead.length + x.length + r.tail.length := by simp [Nat.add_assoc]
    obtain ⟨s', f1, f2, f3, f4, f5, f6⟩ := finish_ok (rdlen := r.rdata.length) (c := s.out) (x := r.lead ++ x ++ r.tail) hi3 h12 hat hout3 hb
      (by omega) (by omega) hsize
    refine ⟨s', r.lead ++ x ++ r.tail, names', s2.out.length, ?_, ?_⟩
    · rw [← f1]
      have e1 : 0 + r.lead.length + (r.names.flatMap encName).length + r.tail.length = r.rdata.length := by omega
      have e2 : (0 : Int) + (r.lead.length : Int) + (x.length : Int) + (r.tail.length : Int) = ((r.lead ++ x ++ r.tail).length : Int) := by
        rw [hxl]; push_cast; omega
      rw [e1, e2]
    · have hsub : Sub (view (some at_) s2.out) (view (some at_) (s.out ++ (r.lead ++ x ++ r.tail))) := by
        rw [← hout3]; exact view_append _ _ _
      refine ⟨?_, f3, f4, f5, by omega, ?_, ?_, ?_, ?_, g8, f6⟩
      · rw [f2]; simp only; omega
      · have := bytesAt_view hi.hole r.lead (x ++ r.tail)
        simpa using this
      · rw [List.length_append] at g7
        exact hsub.firms g7
      · rw [← hout3]
        have := bytesAt_view g6.hole r.tail []
        simpa using this
      · rw [hxl, g5]; simp; omega

end Comp
end Mara
