import Verif.Deadwood.DecompPacket
/-!
# C57: an answer is stored as it was received
-/

namespace Dw
namespace DwStr
open Spec

theorem packed_all (p : Answers) : p.packed.all = p.all.map Rec.toRR := by
  simp [Answers.packed, Packed.all, Answers.all]

theorem substr_last7 {s : DwStr} (junk : List UInt8) (h : 7 ≤ s.len) :
    s.substr (-7) (-1) 1 junk = s.substr ((s.len - 7 : Nat) : Int) 7 1 junk := by
  unfold substr
  have e1 : (s.len : Int) + -7 = ((s.len - 7 : Nat) : Int) := by omega
  simp only [if_pos (show ((-7 : Int) < 0) by decide), if_pos (show ((-1 : Int) < 0) by decide),
    if_neg (show ¬ (((s.len - 7 : Nat) : Int) < 0) by omega), if_neg (show ¬ ((7 : Int) < 0) by decide), e1]
  rw [show (s.len : Int) - ((s.len - 7 : Nat) : Int) + -1 + 1 = 7 by omega]

/-- **C57**: if the string holds the records `p` with (compressed) names, then what is kept in the
cache is exactly these records, with all names written out and the length fields corrected,
provided the result is shorter than 2048 bytes. -/
theorem decompress_exact {q inp : DwStr} (hq : Usable q) (hi : Usable inp) (junk : List UInt8) (p : Answers)
    (hok : ∀ r ∈ p.all, r.Ok) {e : Nat} (h : RecsAt inp.mem q.mem inp.len q.len 0 p.all e)
    (ht : inp.contents.drop e = p.trailer)
    (hf : p.packed.enc.length < 2048) :
    ∃ o, decompress q inp junk = .ok o ∧ Usable o ∧ o.contents = p.packed.enc := by
  have htl : p.trailer.length = 7 := by simp [Answers.trailer, be16_length]
  have hle : e + 7 = inp.contents.length := by
    have := congrArg List.length ht
    rw [List.length_drop, htl] at this
    omega
  have henc : p.packed.enc = (p.all.map Rec.toRR).flatMap RR.enc ++
      (offsets 0 (p.all.map Rec.toRR)).flatMap Packed.cell ++ p.trailer := by
    rw [Packed.enc, packed_all]
    simp [Answers.trailer, Answers.packed]
  have hsz : ((p.all.map Rec.toRR).flatMap RR.enc).length = sizes (p.all.map Rec.toRR) :=
    encs_length (fun r hr => by
      obtain ⟨x, hx, rfl⟩ := List.mem_map.1 hr
      exact Rec.toRR_ok (hok x hx))
  have htb : ((offsets 0 (p.all.map Rec.toRR)).flatMap Packed.cell).length = p.all.length * 4 := by
    rw [cells_length, offsets_length]; simp
  rw [henc, List.length_append, List.length_append, hsz, htb, htl] at hf
  obtain ⟨out, a1, a2, a3, a4⟩ := create_usable 2048 junk (by decide) (by decide)
  rw [decompress]
  simp only [hi.sane, hq.sane, Bool.not_true, Bool.or_self, Bool.false_eq_true, if_false]
  rw [a1]
  simp only [Res.ok_bind]
  obtain ⟨o1, s1, e1, u1, v1, m1, k1, c1, d1⟩ := decompAll_exact hi hq junk h hle 1000 out out
    (by omega) hok a2 a2 (by rw [a3, a4]; simp; omega) (by omega) (by rw [a3, a4]; simp; omega)
  rw [e1]
  simp only [Res.ok_bind]
  rw [a3] at c1 d1
  simp only [List.nil_append, List.length_nil] at c1 d1
  obtain ⟨o2, e2, u2, m2, c2⟩ := (append_exact v1 u1).2 (by rw [c1, d1, m1, a4, hsz, htb]; omega)
  rw [e2]
  simp only [orElse, Res.ok_bind]
  rw [appendSub, substr_last7 junk (by rw [← hi.clen]; omega)]
  have hil := hi.clen
  obtain ⟨c, g1, g2, g3, g4⟩ := substr_in hi (inp.len - 7) 7 1 junk (by omega) (by decide)
  have g1' : inp.substr ((inp.len - 7 : Nat) : Int) 7 1 junk = .ok c := g1
  have g5 : c.contents = p.trailer := by
    rw [g4, show inp.len - 7 = e by omega, ht, List.take_of_length_le (by omega)]
  rw [g1', Res.ok_bind]
  obtain ⟨o3, e3, u3, m3, c3⟩ := (append_exact g2 u2).2 (by
    rw [c2, c1, d1, g5, List.length_append, hsz, htb, htl, m2, m1, a4]; omega)
  rw [e3]
  exact ⟨o3, rfl, u3, by rw [c3, c2, c1, d1, g5, henc]⟩

/-! ## Example

Question `a.` (type 1); one CNAME record `a. -> b.a.` with two pointers, one address for `b.a.`. -/

def exMsg : DwStr := ofBytes
  ([0xc0, 12, 0, 5, 0, 1, 0, 0, 0, 9, 0, 4, 1, 98, 0xc0, 12] ++
   [0xc0, 31, 0, 1, 0, 1, 0, 0, 0, 7, 0, 4, 10, 1, 2, 3] ++ [0, 2, 0, 0, 0, 0, 0])

def exAns : Answers := ⟨[⟨[[97]], 5, [0, 1], 9, [], [[[98], [97]]], []⟩,
  ⟨[[98], [97]], 1, [0, 1], 7, [], [], [10, 1, 2, 3]⟩], [], [], 0⟩

theorem exMsg_usable : Usable exMsg := ofBytes_usable (by decide)

theorem exLabel {s : DwStr} {i : Nat} {c : UInt8} (h0 : s.mem i = some 1) (h1 : s.mem (i + 1) = some c) :
    LabelAt s.mem i [c] :=
  ⟨by simp, by simp, h0, fun j hj => by
    have : j = 0 := by simp at hj; omega
    subst this; exact h1⟩

theorem exMsg_recs : RecsAt exMsg.mem exQ.mem exMsg.len exQ.len 0 exAns.all 32 := by
  have hb : ∀ {i : Nat} {l : List UInt8}, (exMsg.contents.drop i).take l.length = l → BytesAt exMsg.mem i l := by
    intro i l h j hj
    have h2 := congrArg (·[j]?) h
    simp only [List.getElem?_take_of_lt hj, List.getElem?_drop, List.getElem?_eq_getElem hj] at h2
    exact h2
  have hqa : LabelAt (sel exMsg.mem exQ.mem true) 0 [97] :=
    exLabel (s := exQ) (by decide +kernel) (by decide +kernel)
  have na : ∀ {i}, exMsg.mem i = some 0xc0 → exMsg.mem (i + 1) = some 12 →
      Spec.NameAt exMsg.mem exQ.mem exMsg.len exQ.len 2 false i [[97]] := by
    intro i h1 h2
    exact ⟨true, 2, .pointer h1 (by decide) h2 (b₁ := true) (i₁ := 0) (by decide +kernel) (.label hqa .here),
      by decide +kernel⟩
  have nb : Spec.NameAt exMsg.mem exQ.mem exMsg.len exQ.len 3 false 12 [[98], [97]] := by
    obtain ⟨b, i, w, z⟩ := na (i := 14) (by decide +kernel) (by decide +kernel)
    exact ⟨b, i, .label (exLabel (by decide +kernel) (by decide +kernel)) w, z⟩
  have nc : Spec.NameAt exMsg.mem exQ.mem exMsg.len exQ.len 4 false 16 [[98], [97]] := by
    obtain ⟨b, i, w, z⟩ := nb
    exact ⟨b, i, .pointer (x := 0xc0) (y := 31) (by decide +kernel) (by decide) (by decide +kernel)
      (b₁ := false) (i₁ := 12) (by decide +kernel) w, z⟩
  refine .cons (e := 16) ⟨2, 2, 16, by decide, na (by decide +kernel) (by decide +kernel),
      .pointer (x := 0xc0) (by decide +kernel) (by decide), hb (by decide +kernel), by decide, hb (by decide +kernel),
      ?_, hb (by decide +kernel), rfl⟩
    (.cons (e := 32) ⟨4, 18, 28, by decide, nc,
      .pointer (x := 0xc0) (by decide +kernel) (by decide), hb (by decide +kernel), by decide, hb (by decide +kernel),
      .nil, hb (by decide +kernel), rfl⟩ .nil)
  exact .cons (e := 16) (n := 3) (by decide) nb
    (.label (l := [98]) (exLabel (by decide +kernel) (by decide +kernel))
      (.pointer (x := 0xc0) (by decide +kernel) (by decide))) .nil

example : ∃ o, decompress exQ exMsg [] = .ok o ∧ Usable o ∧ o.contents = exAns.packed.enc :=
  decompress_exact (ofBytes_usable (by decide)) exMsg_usable [] exAns
    (by
      intro r hr
      simp only [exAns, Answers.all, List.append_nil, List.mem_cons, List.not_mem_nil, or_false] at hr
      rcases hr with rfl | rfl
      · exact ⟨by decide, by decide, by decide, by decide, by decide⟩
      · exact ⟨by decide, by decide, by decide, by decide, by decide⟩)
    exMsg_recs (by decide +kernel) (by decide +kernel)

end DwStr
end Dw
