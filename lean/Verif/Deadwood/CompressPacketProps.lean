import Verif.Deadwood.CompressPacket
/-!
# C58: what is sent to a client is what is in the cache
-/

namespace Dw
namespace DwStr
open Spec

theorem sameRecs_append {a b rs' : List Rec} (h : SameRecs (a ++ b) rs') :
    ∃ a' b', rs' = a' ++ b' ∧ SameRecs a a' ∧ SameRecs b b' := by
  induction a generalizing rs' with
  | nil => exact ⟨[], rs', rfl, trivial, h⟩
  | cons x a ih =>
    cases rs' with
    | nil => exact h.elim
    | cons y rs' =>
      obtain ⟨h1, h2⟩ := h
      obtain ⟨a', b', e, h3, h4⟩ := ih h2
      exact ⟨y :: a', b', by rw [e]; rfl, ⟨h1, h3⟩, h4⟩

theorem sameRecs_length {a b : List Rec} (h : SameRecs a b) : a.length = b.length := by
  induction a generalizing b with
  | nil => cases b with
    | nil => rfl
    | cons => exact h.elim
  | cons x a ih => cases b with
    | nil => exact h.elim
    | cons y b => simp [ih h.2]

theorem push_inv {c c' : DwStr} (hc : Usable c) {v : Nat} (h : c.orElse (pushU16 v c) = .ok c') :
    Usable c' ∧ c'.max = c.max ∧ (c'.contents = c.contents ++ be16 v ∨ (c' = c ∧ c.max ≤ c.contents.length + 2)) := by
  by_cases hf : c.contents.length + 2 < c.max
  · obtain ⟨s, e1, e2, e3, e4⟩ := (pushU16_exact v hc).2 hf
    rw [e1] at h; cases h
    exact ⟨e2, e3, Or.inl e4⟩
  · rw [(pushU16_exact v hc).1 (by omega)] at h
    cases h
    exact ⟨hc, rfl, Or.inr ⟨rfl, by omega⟩⟩

theorem addc_inv {c c' : DwStr} (hc : Usable c) {v : UInt8} (h : c.orElse (addchar v c) = .ok c') :
    Usable c' ∧ c'.max = c.max ∧ (c'.contents = c.contents ++ [v] ∨ (c' = c ∧ c.max ≤ c.contents.length + 1)) := by
  by_cases hf : c.contents.length + 1 < c.max
  · obtain ⟨s, e1, e2, e3, e4⟩ := (addchar_exact v hc).2 hf
    rw [e1] at h; cases h
    exact ⟨e2, e3, Or.inl e4⟩
  · rw [(addchar_exact v hc).1 (by omega)] at h
    cases h
    exact ⟨hc, rfl, Or.inr ⟨rfl, by omega⟩⟩

/-- `compress_exact_partial` with pointers that lead back, and the records before the counts. -/
theorem compress_back {q inp : DwStr} (hq : Usable q) (hi : Usable inp) (junk : List UInt8)
    {qn : List (List UInt8)} {rest : List UInt8} (hqn : LabelsOk qn) (hql : qn.length < 128)
    (hqc : q.contents = encName qn ++ rest) (hq2 : q.contents.length ≤ 300)
    (p : Answers) (hne : p.all ≠ []) (hp : ∀ r ∈ p.all, RecOk r)
    (hk : p.kind = 0 ∨ p.kind = 1 ∨ p.kind = 2) (hic : inp.contents = p.packed.enc)
    (hsz : sizes p.packed.all < 65536)
    {o : DwStr} (hres : compress q inp junk = .ok o) (hroom : o.contents.length ≤ 457) :
    Usable o ∧ ∃ p' body, SameAnswers p p' ∧ o.contents = body ++ p'.trailer ∧
      RecsBk (memOf body) q.mem body.length q.len 0 p'.all body.length := by
  have hpok : p.packed.Ok := ⟨by
      rw [packed_all]
      intro r hr
      obtain ⟨x, hx, rfl⟩ := List.mem_map.1 hr
      exact Rec.toRR_ok (hp x hx).ok, hsz, hk⟩
  obtain ⟨d, d1, -, -, d4, d5, d6, d7⟩ := makeDnsStr_eq hi hpok (by rw [packed_all]; simpa using hne) hic junk
  obtain ⟨st, a1, a2, a3, a4⟩ := create_usable 1024 junk (by decide) (by decide)
  obtain ⟨c0, b1, b2, b3, b4⟩ := create_usable 515 junk (by decide) (by decide)
  have hcl0 : c0.len = 0 := by rw [← b2.clen, b3]; rfl
  have hqcl := hq.clen
  rw [compress] at hres
  simp only [hq.sane, hi.sane, Bool.not_true, Bool.or_self, Bool.false_eq_true, if_false] at hres
  rw [a1, Res.ok_bind, b1, Res.ok_bind] at hres
  have hpush : pushOffsets q 0 st 0x8000 = pushOffsetsLoop q 0x8000 300 0 st := by
    rw [pushOffsets]
    simp only [hq.sane, a2.sane, Bool.not_true, Bool.or_self, Bool.false_eq_true, if_false]
  rw [hpush] at hres
  have hplain : PlainAt q.mem 0 qn := by
    apply PlainAt.of_encName hqn
    have := bytesAt_mid (s := q) (pre := []) (l := encName qn) (post := rest) (by rw [hqc]; simp)
    exact this
  rcases pushOffsetsLoop_safe hq 0x8000 300 0 a2 with e | ⟨s1, e, -⟩
  · rw [e] at hres; cases hres
  obtain ⟨us1, hst⟩ := pushOffsetsLoop_plain hq c0.mem c0.len (by omega) hplain 300 a2 (by omega)
    ⟨[], by rw [a3]; rfl, fun e he => absurd he (by simp)⟩ e
  rw [e, Res.ok_bind, d1, Res.ok_bind] at hres
  have hoff : d.an ++ d.ns ++ d.ar = offsets 0 (p.all.map Rec.toRR) := by
    rw [d4, d5, d6, ← packed_all, Packed.all, offsets_append, offsets_append]
    simp [sizes]
  rw [hoff] at hres
  rcases compressRrs_safe hi hq junk (offsets 0 (p.all.map Rec.toRR)) b2 us1 with e2 | ⟨c1, s2, e2, u1, m1, -⟩
  · rw [e2] at hres; cases hres
  rw [e2] at hres
  simp only [Res.ok_bind] at hres
  -- the counts
  obtain ⟨t1, f1⟩ : ∃ t1, c1.orElse (pushU16 d.an.length c1) = .ok t1 := by
    obtain ⟨t, h, -⟩ := orElse_push u1 d.an.length; exact ⟨t, h⟩
  obtain ⟨ut1, mt1, k1⟩ := push_inv u1 f1
  rw [f1, Res.ok_bind] at hres
  obtain ⟨t2, f2⟩ : ∃ t2, t1.orElse (pushU16 d.ns.length t1) = .ok t2 := by
    obtain ⟨t, h, -⟩ := orElse_push ut1 d.ns.length; exact ⟨t, h⟩
  obtain ⟨ut2, mt2, k2⟩ := push_inv ut1 f2
  rw [f2, Res.ok_bind] at hres
  obtain ⟨t3, f3⟩ : ∃ t3, t2.orElse (pushU16 d.ar.length t2) = .ok t3 := by
    obtain ⟨t, h, -⟩ := orElse_push ut2 d.ar.length; exact ⟨t, h⟩
  obtain ⟨ut3, mt3, k3⟩ := push_inv ut2 f3
  rw [f3, Res.ok_bind] at hres
  obtain ⟨uo, mo, k4⟩ := addc_inv ut3 hres
  rcases k4 with k4 | ⟨rfl, h4⟩
  swap
  · omega
  have hlo := congrArg List.length k4
  rw [List.length_append] at hlo
  rcases k3 with k3 | ⟨rfl, h3⟩
  swap
  · simp at hlo; omega
  have hl3 := congrArg List.length k3
  rw [List.length_append, be16_length] at hl3
  rcases k2 with k2 | ⟨rfl, h2⟩
  swap
  · simp at hlo; omega
  have hl2 := congrArg List.length k2
  rw [List.length_append, be16_length] at hl2
  rcases k1 with k1 | ⟨rfl, h1⟩
  swap
  · simp at hlo; omega
  have hl1 := congrArg List.length k1
  rw [List.length_append, be16_length] at hl1
  simp only [List.length_cons, List.length_nil] at hlo
  have hc1l : c1.contents.length = c1.len := u1.clen
  have hrecs : BytesAt inp.mem 0 ((p.all.map Rec.toRR).flatMap RR.enc) := by
    have := bytesAt_mid (s := inp) (pre := []) (l := (p.all.map Rec.toRR).flatMap RR.enc)
      (post := (offsets 0 (p.all.map Rec.toRR)).flatMap Packed.cell ++ p.trailer) (by
        rw [hic, Packed.enc, packed_all]
        simp [Answers.trailer, Answers.packed])
    exact this
  obtain ⟨-, -, -, rs', q1, q2⟩ := compressRrs_exact hi hq junk p.all b2 us1 hst (by omega) hp hrecs e2 (by omega)
  rw [hcl0] at q2
  have hoc : o.contents = c1.contents ++ (be16 d.an.length ++ be16 d.ns.length ++ be16 d.ar.length ++ [d.type]) := by
    rw [k4, k3, k2, k1]; simp
  obtain ⟨ab, ar', e5, q3, q4⟩ := sameRecs_append (a := p.an ++ p.ns) (b := p.ar) q1
  obtain ⟨an', ns', e6, q5, q6⟩ := sameRecs_append q3
  refine ⟨uo, ⟨an', ns', ar', p.kind⟩, c1.contents, ⟨q5, q6, q4, rfl⟩, ?_, ?_⟩
  · rw [hoc, d4, d5, d6, d7]
    simp only [offsets_length, Answers.packed, List.length_map, Answers.trailer,
      sameRecs_length q5, sameRecs_length q6, sameRecs_length q4]
  · have : (⟨an', ns', ar', p.kind⟩ : Answers).all = rs' := by rw [e5, e6]; rfl
    rw [this, hc1l]
    exact q2

/-- **C58 (partial).** If an answer `p` in the cache is compressed for the question `qn` and the result has at
most 457 bytes, the result holds the very records of `p`, in the same order and the same sections, with
the same names ignoring letter case, and it decompresses to them.

Missing for the full statement: names with an immediately repeated part (`compress_self_loop`) and
results of more than 457 bytes (`compress_drops_label`). -/
theorem compress_exact_partial {q inp : DwStr} (hq : Usable q) (hi : Usable inp) (junk : List UInt8)
    {qn : List (List UInt8)} {rest : List UInt8} (hqn : LabelsOk qn) (hql : qn.length < 128)
    (hqc : q.contents = encName qn ++ rest) (hq2 : q.contents.length ≤ 300)
    (p : Answers) (hne : p.all ≠ []) (hp : ∀ r ∈ p.all, RecOk r)
    (hk : p.kind = 0 ∨ p.kind = 1 ∨ p.kind = 2) (hic : inp.contents = p.packed.enc)
    (hsz : sizes p.packed.all < 65536)
    {o : DwStr} (hres : compress q inp junk = .ok o) (hroom : o.contents.length ≤ 457) :
    Usable o ∧ ∃ p', SameAnswers p p' ∧
      ∃ e, RecsAt o.mem q.mem o.len q.len 0 p'.all e ∧ o.contents.drop e = p'.trailer := by
  obtain ⟨h1, p', body, h2, h3, h4⟩ := compress_back hq hi junk hqn hql hqc hq2 p hne hp hk hic hsz hres hroom
  refine ⟨h1, p', h2, body.length, (recsAt_mono (fun i v hv => ?_) ?_ h4).recsAt, by rw [h3, List.drop_left]⟩
  · simp only [mem, memOf] at hv ⊢
    rw [h3, List.getElem?_append_left (List.getElem?_eq_some_iff.1 hv).1, hv]
  · rw [← h1.clen, h3]; simp

theorem sameName_enc {a b : List (List UInt8)} (h : SameName a b) : (encName a).length = (encName b).length := by
  have key : ∀ l : List (List UInt8), (encLabels l).length = ((l.map (·.map lower)).map List.length).sum + l.length := by
    intro l
    induction l with
    | nil => rfl
    | cons x l ih => rw [encLabels_cons]; simp at ih ⊢; omega
  have hl : a.length = b.length := by simpa using congrArg List.length h
  unfold SameName at h
  rw [encName, encName, List.length_append, List.length_append, key, key, h, hl]

theorem sameNames_enc {a b : List (List (List UInt8))} (h : SameNames a b) :
    (a.flatMap encName).length = (b.flatMap encName).length ∧ a.length = b.length := by
  induction a generalizing b with
  | nil => cases b with
    | nil => exact ⟨rfl, rfl⟩
    | cons => exact h.elim
  | cons x a ih => cases b with
    | nil => exact h.elim
    | cons y b =>
      obtain ⟨h1, h2⟩ := h
      obtain ⟨e1, e2⟩ := ih h2
      rw [List.flatMap_cons, List.flatMap_cons, List.length_append, List.length_append, sameName_enc h1, e1]
      exact ⟨rfl, by simp [e2]⟩

theorem sameRec_rdata {r r' : Rec} (h : SameRec r r') : r.rdata.length = r'.rdata.length := by
  simp only [Rec.rdata, List.length_append, h.lead, h.tail, (sameNames_enc h.names).1]

theorem sameRec_size {r r' : Rec} (h : SameRec r r') : r.toRR.size = r'.toRR.size := by
  simp only [RR.size, Rec.toRR, sameRec_rdata h, sameName_enc h.name]

theorem sameRec_ok {r r' : Rec} (h : SameRec r r') (ho : r.Ok) : r'.Ok :=
  ⟨h.type ▸ ho.type, h.cls ▸ ho.cls, h.ttl ▸ ho.ttl, sameRec_rdata h ▸ ho.size, by
    rw [← h.lead, ← h.tail, ← (sameNames_enc h.names).2, ← h.type]; exact ho.form⟩

theorem sameRecs_all {a b : List Rec} (h : SameRecs a b) (ho : ∀ r ∈ a, r.Ok) :
    (∀ r ∈ b, r.Ok) ∧ sizes (a.map Rec.toRR) = sizes (b.map Rec.toRR) := by
  induction a generalizing b with
  | nil => cases b with
    | nil => exact ⟨fun r hr => absurd hr (by simp), rfl⟩
    | cons => exact h.elim
  | cons x a ih => cases b with
    | nil => exact h.elim
    | cons y b =>
      obtain ⟨h1, h2⟩ := h
      obtain ⟨e1, e2⟩ := ih h2 (fun r hr => ho r (by simp [hr]))
      refine ⟨?_, ?_⟩
      · intro r hr
        rcases List.mem_cons.1 hr with rfl | hr
        · exact sameRec_ok h1 (ho _ (by simp))
        · exact e1 r hr
      · simp only [sizes, List.map_cons, List.sum_cons] at e2 ⊢
        rw [e2, sameRec_size h1]

theorem sameRecs_join {a a' b b' : List Rec} (h : SameRecs a a') (g : SameRecs b b') : SameRecs (a ++ b) (a' ++ b') := by
  induction a generalizing a' with
  | nil => cases a' with
    | nil => exact g
    | cons => exact h.elim
  | cons x a ih => cases a' with
    | nil => exact h.elim
    | cons y a' => exact ⟨h.1, ih h.2⟩

/-- **C58 (round trip, partial).** Decompressing what was compressed gives the records back. -/
theorem compress_round_trip_partial {q inp : DwStr} (hq : Usable q) (hi : Usable inp) (junk junk' : List UInt8)
    {qn : List (List UInt8)} {rest : List UInt8} (hqn : LabelsOk qn) (hql : qn.length < 128)
    (hqc : q.contents = encName qn ++ rest) (hq2 : q.contents.length ≤ 300)
    (p : Answers) (hne : p.all ≠ []) (hp : ∀ r ∈ p.all, RecOk r)
    (hk : p.kind = 0 ∨ p.kind = 1 ∨ p.kind = 2) (hic : inp.contents = p.packed.enc)
    (hsz : p.packed.enc.length < 2048)
    {o : DwStr} (hres : compress q inp junk = .ok o) (hroom : o.contents.length ≤ 457) :
    ∃ p' d, SameAnswers p p' ∧ decompress q o junk' = .ok d ∧ d.contents = p'.packed.enc := by
  have hrr : ∀ r ∈ p.all.map Rec.toRR, r.Ok := fun r hr => by
    obtain ⟨x, hx, rfl⟩ := List.mem_map.1 hr
    exact Rec.toRR_ok (hp x hx).ok
  have hlen : ∀ p : Answers, (∀ r ∈ p.all, r.Ok) →
      p.packed.enc.length = sizes (p.all.map Rec.toRR) + p.all.length * 4 + 7 := by
    intro p hp
    rw [Packed.enc, packed_all]
    simp only [List.length_append, be16_length, List.length_cons, List.length_nil]
    rw [encs_length (fun r hr => by
      obtain ⟨x, hx, rfl⟩ := List.mem_map.1 hr
      exact Rec.toRR_ok (hp x hx)), cells_length, offsets_length]
    simp
  have hl := hlen p (fun r hr => (hp r hr).ok)
  obtain ⟨uo, p', same, e, h1, h2⟩ := compress_exact_partial hq hi junk hqn hql hqc hq2 p hne hp hk hic
    (by rw [packed_all]; omega) hres hroom
  have hall : SameRecs p.all p'.all := sameRecs_join (sameRecs_join same.an same.ns) same.ar
  obtain ⟨ok', sz'⟩ := sameRecs_all hall (fun r hr => (hp r hr).ok)
  obtain ⟨d, k1, -, k3⟩ := decompress_exact hq uo junk' p' ok' h1 h2
    (by rw [hlen p' ok', ← sz', ← sameRecs_length hall]; omega)
  exact ⟨p', d, same, k1, k3⟩

/-! ## The hypotheses can be met -/

/-- A name whose labels all differ has no immediately repeated part. -/
theorem noRepeat_of_nodup {ls : List (List UInt8)} (h : (ls.map (·.map lower)).Nodup) : NoRepeat ls := by
  intro a w w' b e hw hs
  obtain ⟨x, w, rfl⟩ := List.exists_cons_of_ne_nil hw
  unfold SameName at hs
  cases w' with
  | nil => simp at hs
  | cons y w' =>
    simp only [List.map_cons, List.cons.injEq] at hs
    rw [e] at h
    simp only [List.map_append, List.map_cons, List.nodup_append, hs.1] at h
    have := h.1.2.2 (y.map lower) (by simp) (y.map lower) (by simp)
    exact this rfl

theorem exAns_recOk : ∀ r ∈ exAns.all, RecOk r := by
  have ab : NameOk [[98], [97]] :=
    ⟨by intro l hl; simp at hl; rcases hl with rfl | rfl <;> decide, by decide, noRepeat_of_nodup (by decide)⟩
  have a1 : NameOk [[97]] :=
    ⟨by intro l hl; simp at hl; subst hl; decide, by decide, noRepeat_of_nodup (by decide)⟩
  intro r hr
  simp only [exAns, Answers.all, List.append_nil, List.mem_cons, List.not_mem_nil, or_false] at hr
  rcases hr with rfl | rfl
  · exact ⟨⟨by decide, by decide, by decide, by decide, by decide⟩, a1, by
      intro n hn; simp at hn; subst hn; exact ab⟩
  · exact ⟨⟨by decide, by decide, by decide, by decide, by decide⟩, ab, by intro n hn; simp at hn⟩

theorem exAns_compressed : compress exQ (ofBytes exAns.packed.enc) [] = .ok (match compress exQ (ofBytes exAns.packed.enc) [] with
    | .ok o => o | _ => exMsg) ∧ (match compress exQ (ofBytes exAns.packed.enc) [] with
    | .ok o => o.contents | _ => []) = exMsg.contents := by
  decide +kernel

example : ∃ o, compress exQ (ofBytes exAns.packed.enc) [] = .ok o ∧ o.contents.length = 39 ∧
    ∃ p' d, SameAnswers exAns p' ∧ decompress exQ o [] = .ok d ∧ d.contents = p'.packed.enc := by
  obtain ⟨h, g⟩ := exAns_compressed
  generalize hc : compress exQ (ofBytes exAns.packed.enc) [] = x at h g
  cases x with
  | err => cases h
  | ub => cases h
  | ok o =>
    simp only at g
    have hl : o.contents.length = 39 := by rw [g]; decide
    refine ⟨o, rfl, hl, ?_⟩
    exact compress_round_trip_partial (q := exQ) (ofBytes_usable (by decide)) (ofBytes_usable (by decide +kernel)) [] []
      (qn := [[97]]) (rest := [0, 1]) (by intro l hl; simp at hl; subst hl; decide) (by decide) (by decide)
      (by decide) exAns (by decide) exAns_recOk (by decide) (by decide +kernel) (by decide +kernel) hc (by omega)

end DwStr
end Dw
