import Verif.Deadwood.DissectView
/-!
# Putting a reply together again from the records that are kept: lemmas
-/

namespace Dw
namespace Dissect

open DwStr Spec

/-- The records that are not marked as ignored or out of bailiwick. -/
def keep : List Rec → List Int → List Rec
  | r :: rs, m :: ms => if m = 36 ∨ m = 37 then keep rs ms else r :: keep rs ms
  | _, _ => []

theorem keep_sublist : ∀ (rs : List Rec) (ms : List Int), (keep rs ms).Sublist rs
  | [], _ => by simp [keep]
  | _ :: _, [] => by simp [keep]
  | r :: rs, m :: ms => by
    unfold keep
    split
    · exact (keep_sublist rs ms).cons _
    · exact (keep_sublist rs ms).cons_cons _

theorem keep_none {α : Type} (rs : List Rec) (ms : List α) : keep rs (ms.map fun _ => 36) = [] := by
  induction rs generalizing ms with
  | nil => cases ms <;> rfl
  | cons r rs ih =>
    cases ms with
    | nil => rfl
    | cons m ms =>
      simp only [List.map_cons, keep, true_or, if_true]
      exact ih ms

theorem keep_map (rs : List Rec) (f : Rec → Int) :
    keep rs (rs.map f) = rs.filter fun r => !(f r == 36) && !(f r == 37) := by
  induction rs with
  | nil => rfl
  | cons r rs ih =>
    simp only [List.map_cons, keep, ih, List.filter_cons]
    by_cases h : f r = 36 ∨ f r = 37
    · rw [if_pos h, if_neg]
      rcases h with h | h <;> simp [h]
    · rw [if_neg h, if_pos]
      simp only [not_or] at h
      simp [h.1, h.2]

/-- The offsets of a table one after another. -/
def flat (cs : List (Nat × Nat)) : List Nat := cs.flatMap fun c => [c.1, c.2]

theorem flat_length (cs : List (Nat × Nat)) : (flat cs).length = 2 * cs.length := by
  induction cs with
  | nil => rfl
  | cons c cs ih => simp only [flat, List.flatMap_cons, List.length_append] at ih ⊢; simp [ih]; omega

theorem flat_be16 (cs : List (Nat × Nat)) : (flat cs).flatMap be16 = cs.flatMap Packed.cell := by
  induction cs with
  | nil => rfl
  | cons c cs ih =>
    simp only [flat, List.flatMap_cons, Packed.cell, List.flatMap_append] at ih ⊢
    rw [ih]; simp

theorem sizes_sublist {a b : List Rec} (h : a.Sublist b) : sizes (a.map Rec.toRR) ≤ sizes (b.map Rec.toRR) := by
  induction h with
  | slnil => exact Nat.le_refl _
  | cons x _ ih => simp only [List.map_cons, sizes_cons]; omega
  | cons_cons x _ ih => simp only [List.map_cons, sizes_cons]; omega

theorem copySection_exact {packet : DwStr} (hp : Usable packet) (most : Nat) (junk : List UInt8) :
    ∀ {cells : List (Nat × Nat)} {rs : List Rec} (_ : Sec packet cells rs) (ms : List Int) (_ : ms.length = rs.length)
      (out : DwStr) (offs : List Nat) (count : Nat), Usable out →
      out.contents.length + sizes (rs.map Rec.toRR) < out.max → out.contents.length + sizes (rs.map Rec.toRR) < 65536 →
      offs.length + 2 * rs.length ≤ most →
      ((∀ r ∈ keep rs ms, inClass r) →
        ∃ out', copySection packet most junk (cells.zip ms) out offs count =
          .ok (out', offs ++ flat (offsets out.contents.length ((keep rs ms).map Rec.toRR)), count + (keep rs ms).length) ∧
          Usable out' ∧ out'.max = out.max ∧
          out'.contents = out.contents ++ ((keep rs ms).map Rec.toRR).flatMap RR.enc) ∧
      ((∃ r ∈ keep rs ms, ¬ inClass r) → copySection packet most junk (cells.zip ms) out offs count = .err)
  | _, _, .nil, ms, hl, out, offs, count, ho, _, _, _ => by
    have : ms = [] := List.length_eq_zero_iff.1 hl
    subst this
    constructor
    · intro _
      exact ⟨out, by simp [copySection, keep, offsets, flat], ho, rfl, by simp [keep]⟩
    · rintro ⟨r, hr, -⟩; simp [keep] at hr
  | c :: cells, r :: rs, .cons h hs, m :: ms, hl, out, offs, count, ho, hfit, h64, hmost => by
    have ih := copySection_exact hp most junk hs ms (by simpa using hl)
    simp only [List.map_cons, sizes_cons, List.length_cons] at hfit h64 hmost
    simp only [List.zip_cons_cons, copySection, keep]
    by_cases hm : m = 36 ∨ m = 37
    · rw [if_pos hm, if_pos hm]
      exact ih out offs count ho (by omega) (by omega) (by omega)
    · rw [if_neg hm, if_neg hm]
      by_cases hin : inClass r
      · obtain ⟨t, e1, e2, e3⟩ := (oneRr_exact hp h junk).1 hin
        rw [e1]
        simp only [Res.ok_bind]
        rw [if_neg (by omega), if_neg (by omega)]
        have hsz := enc_len h.plain.ok
        have hcl := ho.clen
        obtain ⟨o', a1, a2, a3, a4⟩ := (append_exact e2 ho).2 (by rw [e3, hsz]; omega)
        rw [a1]
        simp only [Res.ok_bind]
        have hlen : o'.contents.length = out.contents.length + r.toRR.size := by rw [a4, e3]; simp [hsz]
        have ih := ih o' (offs ++ [out.len % 65536, u16 ((out.len : Int) + ((c.2 : Int) - c.1))]) (count + 1) a2
          (by rw [hlen, a3]; omega) (by rw [hlen]; omega) (by simp; omega)
        have ho1 : out.len % 65536 = out.contents.length := by omega
        have ho2 : u16 ((out.len : Int) + ((c.2 : Int) - c.1)) = out.contents.length + r.toRR.name.length := by
          have : r.toRR.name.length ≤ r.toRR.size := by simp [RR.size]; omega
          rw [h.mid]
          show u16 _ = _ + (encName r.name).length
          have : (encName r.name).length ≤ r.toRR.size := this
          unfold u16
          omega
        constructor
        · intro hall
          obtain ⟨out', b1, b2, b3, b4⟩ := ih.1 (fun x hx => hall x (by simp [hx]))
          refine ⟨out', ?_, b2, by rw [b3, a3], ?_⟩
          · rw [b1, ho1, ho2, hlen]
            simp only [List.map_cons, offsets, flat, List.flatMap_cons, List.length_cons, List.append_assoc]
            congr 3
            omega
          · rw [b4, a4, e3]; simp
        · rintro ⟨x, hx, hnx⟩
          rcases List.mem_cons.1 hx with rfl | hx
          · exact absurd hin hnx
          · exact ih.2 ⟨x, hx, hnx⟩
      · constructor
        · intro hall; exact absurd (hall r (by simp)) hin
        · intro _
          rw [(oneRr_exact hp h junk).2 hin]
          rfl

theorem pushAll_exact : ∀ (os : List Nat) {s : DwStr}, Usable s → s.contents.length + 2 * os.length < s.max →
    ∃ s', pushAll os s = .ok s' ∧ Usable s' ∧ s'.max = s.max ∧ s'.contents = s.contents ++ os.flatMap be16
  | [], s, h, _ => ⟨s, rfl, h, rfl, by simp⟩
  | o :: os, s, h, hf => by
    simp only [List.length_cons] at hf
    obtain ⟨t, a1, a2, a3, a4⟩ := (pushU16_exact o h).2 (by omega)
    have a4' : t.contents = s.contents ++ be16 o := a4
    obtain ⟨u, b1, b2, b3, b4⟩ := pushAll_exact os a2 (by rw [a4', a3]; simp [be16_length]; omega)
    refine ⟨u, ?_, b2, by rw [b3, a3], by rw [b4, a4']; simp⟩
    simp only [pushAll]
    rw [a1]
    exact b1

/-- The reply with only the records that are kept. -/
def Answers.kept (p : Answers) (an ns ar : List Int) (kind : UInt8) : Answers :=
  ⟨keep p.an an, keep p.ns ns, keep p.ar ar, kind⟩

theorem remake_exact {inp : DwStr} {p : Answers} (h : Reply inp p) {look : DnsStr} (hv : Views inp p look)
    {an ns ar : List Int} (h1 : an.length = p.an.length) (h2 : ns.length = p.ns.length) (h3 : ar.length = p.ar.length)
    (kind : UInt8) (junk : List UInt8) :
    ((∀ r ∈ (Answers.kept p an ns ar kind).all, inClass r) →
      ∃ o, remake ⟨look, an, ns, ar⟩ kind junk = .ok o ∧ Usable o ∧
        o.contents = (Answers.kept p an ns ar kind).packed.enc) ∧
    ((∃ r ∈ (Answers.kept p an ns ar kind).all, ¬ inClass r) → remake ⟨look, an, ns, ar⟩ kind junk = .err) := by
  have hpk := h.packed
  have hel := hpk.enc_length
  have hlen : look.packet.contents.length = sizes (p.all.map Rec.toRR) + p.all.length * 4 + 7 := by
    rw [hv.same, h.contents, hel, packed_all]; simp
  have hcl := hv.packet.clen
  have hsz := h.size
  have hcnt := count_le (p.all.map Rec.toRR)
  have hall : p.all.map Rec.toRR = p.an.map Rec.toRR ++ p.ns.map Rec.toRR ++ p.ar.map Rec.toRR := by
    simp [Answers.all]
  have hsum : sizes (p.all.map Rec.toRR) = sizes (p.an.map Rec.toRR) + sizes (p.ns.map Rec.toRR) + sizes (p.ar.map Rec.toRR) := by
    rw [hall, sizes_append, sizes_append]
  have hcall : p.all.length = p.an.length + p.ns.length + p.ar.length := by simp [Answers.all]; omega
  rw [List.length_map] at hcnt
  have hlim : look.packet.len + 1 < 134217728 := by omega
  obtain ⟨o0, a1, a2, a3, a4⟩ := create_usable (look.packet.len + 1) junk (by omega) hlim
  have c1 := sec_length hv.an
  have c2 := sec_length hv.ns
  have c3 := sec_length hv.ar
  generalize hm : (look.an.length + look.ns.length + look.ar.length) * 2 = most
  have S1 := sizes_sublist (keep_sublist p.an an)
  have S2 := sizes_sublist (keep_sublist p.ns ns)
  have S3 := sizes_sublist (keep_sublist p.ar ar)
  have L1 := (keep_sublist p.an an).length_le
  have L2 := (keep_sublist p.ns ns).length_le
  have L3 := (keep_sublist p.ar ar).length_le
  have hrr : ∀ {l : List Rec} {ms : List Int}, (∀ r ∈ l, r ∈ p.all) → ∀ x ∈ (keep l ms).map Rec.toRR, x.Ok := by
    intro l ms hl x hx
    obtain ⟨r, hr, rfl⟩ := List.mem_map.1 hx
    exact hpk.recs _ (by rw [packed_all]; exact List.mem_map.2 ⟨r, hl r ((keep_sublist _ _).subset hr), rfl⟩)
  have E1 := encs_length (hrr (l := p.an) (ms := an) (fun r hr => by simp [Answers.all, hr]))
  have E2 := encs_length (hrr (l := p.ns) (ms := ns) (fun r hr => by simp [Answers.all, hr]))
  have E3 := encs_length (hrr (l := p.ar) (ms := ar) (fun r hr => by simp [Answers.all, hr]))
  have X1 := copySection_exact hv.packet most junk hv.an' an h1 o0 [] 0 a2
    (by rw [a3, a4]; simp; omega) (by rw [a3]; simp; omega) (by simp; omega)
  have hkall : (Answers.kept p an ns ar kind).all = keep p.an an ++ keep p.ns ns ++ keep p.ar ar := rfl
  unfold remake
  simp only [hm]
  rw [a1]
  simp only [Res.ok_bind]
  by_cases i1 : ∀ r ∈ keep p.an an, inClass r
  swap
  · have ne : ∃ r ∈ keep p.an an, ¬ inClass r := by
      simpa using i1
    constructor
    · intro hh; exact absurd (fun r hr => hh r (by rw [hkall]; simp [hr])) i1
    · intro _; rw [X1.2 ne]; rfl
  obtain ⟨o1, b1, b2, b3, b4⟩ := X1.1 i1
  rw [b1]
  simp only [Res.ok_bind]
  have l1 : o1.contents.length = sizes ((keep p.an an).map Rec.toRR) := by rw [b4, a3, List.nil_append, E1]
  have X2 := copySection_exact hv.packet most junk hv.ns' ns h2 o1
    ([] ++ flat (offsets o0.contents.length ((keep p.an an).map Rec.toRR))) 0 b2
    (by rw [l1, b3, a4]; omega) (by rw [l1]; omega)
    (by rw [List.nil_append, flat_length, offsets_length, List.length_map]; omega)
  by_cases i2 : ∀ r ∈ keep p.ns ns, inClass r
  swap
  · have ne : ∃ r ∈ keep p.ns ns, ¬ inClass r := by simpa using i2
    constructor
    · intro hh; exact absurd (fun r hr => hh r (by rw [hkall]; simp [hr])) i2
    · intro _; rw [X2.2 ne]; rfl
  obtain ⟨o2, d1, d2, d3, d4⟩ := X2.1 i2
  rw [d1]
  simp only [Res.ok_bind]
  have l2 : o2.contents.length = sizes ((keep p.an an).map Rec.toRR) + sizes ((keep p.ns ns).map Rec.toRR) := by
    rw [d4, List.length_append, l1, E2]
  have X3 := copySection_exact hv.packet most junk hv.ar' ar h3 o2
    ([] ++ flat (offsets o0.contents.length ((keep p.an an).map Rec.toRR)) ++
      flat (offsets o1.contents.length ((keep p.ns ns).map Rec.toRR))) 0 d2
    (by rw [l2, d3, b3, a4]; omega) (by rw [l2]; omega)
    (by
      rw [List.nil_append, List.length_append, flat_length, offsets_length, List.length_map, flat_length, offsets_length,
        List.length_map]
      omega)
  by_cases i3 : ∀ r ∈ keep p.ar ar, inClass r
  swap
  · have ne : ∃ r ∈ keep p.ar ar, ¬ inClass r := by simpa using i3
    constructor
    · intro hh; exact absurd (fun r hr => hh r (by rw [hkall]; simp [hr])) i3
    · intro _; rw [X3.2 ne]; rfl
  obtain ⟨o3, f1, f2, f3, f4⟩ := X3.1 i3
  rw [f1]
  simp only [Res.ok_bind]
  have l3 : o3.contents.length = sizes ((keep p.an an).map Rec.toRR) + sizes ((keep p.ns ns).map Rec.toRR) +
      sizes ((keep p.ar ar).map Rec.toRR) := by rw [f4, List.length_append, l2, E3]
  have m3 : o3.max = look.packet.len + 1 := by rw [f3, d3, b3, a4]
  constructor
  swap
  · rintro ⟨r, hr, hn⟩
    rw [hkall] at hr
    simp only [List.mem_append] at hr
    rcases hr with (hr | hr) | hr
    · exact absurd (i1 r hr) hn
    · exact absurd (i2 r hr) hn
    · exact absurd (i3 r hr) hn
  intro _
  generalize hoffs : ([] ++ flat (offsets o0.contents.length ((keep p.an an).map Rec.toRR)) ++
      flat (offsets o1.contents.length ((keep p.ns ns).map Rec.toRR)) ++
      flat (offsets o2.contents.length ((keep p.ar ar).map Rec.toRR)) : List Nat) = offs
  have hol : offs.length = 2 * ((keep p.an an).length + (keep p.ns ns).length + (keep p.ar ar).length) := by
    rw [← hoffs]
    simp only [List.nil_append, List.length_append, flat_length, offsets_length, List.length_map]
    omega
  obtain ⟨o4, g1, g2, g3, g4⟩ := pushAll_exact offs f2 (by rw [l3, hol, m3]; omega)
  have l4 : o4.contents.length = o3.contents.length + 2 * offs.length := by
    rw [g4, List.length_append]
    congr 1
    clear * -
    induction offs with
    | nil => rfl
    | cons o os ih => simp [be16_length, ih]; omega
  rw [g1]
  simp only [Res.ok_bind, Nat.zero_add]
  obtain ⟨o5, j1, j2, j3, j4⟩ := (pushU16_exact (keep p.an an).length g2).2 (by rw [l4, l3, hol, g3, m3]; omega)
  have l5 : o5.contents.length = o4.contents.length + 2 := by rw [j4]; simp
  rw [j1]
  simp only [Res.ok_bind]
  obtain ⟨o6, k1, k2, k3, k4⟩ := (pushU16_exact (keep p.ns ns).length j2).2 (by rw [l5, l4, l3, hol, j3, g3, m3]; omega)
  have l6 : o6.contents.length = o5.contents.length + 2 := by rw [k4]; simp
  rw [k1]
  simp only [Res.ok_bind]
  obtain ⟨o7, n1, n2, n3, n4⟩ := (pushU16_exact (keep p.ar ar).length k2).2
    (by rw [l6, l5, l4, l3, hol, k3, j3, g3, m3]; omega)
  have l7 : o7.contents.length = o6.contents.length + 2 := by rw [n4]; simp
  rw [n1]
  simp only [Res.ok_bind]
  obtain ⟨o8, r1, r2, r3, r4⟩ := (addchar_exact kind n2).2
    (by rw [l7, l6, l5, l4, l3, hol, n3, k3, j3, g3, m3]; omega)
  refine ⟨o8, r1, r2, ?_⟩
  rw [r4, n4, k4, j4, g4, f4, d4, b4, a3]
  have hpk2 : (Answers.kept p an ns ar kind).packed.all =
      (keep p.an an).map Rec.toRR ++ (keep p.ns ns).map Rec.toRR ++ (keep p.ar ar).map Rec.toRR := by
    rw [packed_all, hkall]; simp
  have hof : offs.flatMap be16 = (offsets 0 (Answers.kept p an ns ar kind).packed.all).flatMap Packed.cell := by
    rw [hpk2, ← flat_be16, ← hoffs, offsets_append, offsets_append, a3, l1, l2, sizes_append]
    simp [flat]
  rw [Packed.enc, ← hof, hpk2]
  simp only [Answers.packed, Answers.kept, List.flatMap_append, List.length_map, List.nil_append, be16]

end Dissect
end Dw
