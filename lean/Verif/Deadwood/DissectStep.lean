import Verif.Deadwood.DissectAnswer
/-!
# What a reply leads to: lemmas
-/

namespace Dw
namespace Dissect

open DwStr Spec

/-! ### Aliases -/

theorem cnameLoop_exact {s : DwStr} (hs : Usable s) (junk : List UInt8) :
    ∀ {cells : List (Nat × Nat)} {rs : List Rec}, Sec s cells rs → ∀ {ms : List Int},
    List.Forall₂ (fun r m => m = 36 ∨ (m = 5 ∧ r.type = 5)) rs ms → ∀ (out : DwStr) (final : Nat), Usable out →
    (out.contents.length + ((keep rs ms).flatMap aliasEntry).length < out.max →
      ∃ out', cnameLoop s junk (cells.zip ms) out final =
        .ok (out', (place out.contents.length ((keep rs ms).map aliasEntry)).getLastD final) ∧ Usable out' ∧
        out'.max = out.max ∧ out'.contents = out.contents ++ (keep rs ms).flatMap aliasEntry) ∧
    (out.max ≤ out.contents.length + ((keep rs ms).flatMap aliasEntry).length →
      cnameLoop s junk (cells.zip ms) out final = .err)
  | _, _, .nil, _, .nil, out, final, ho => by
    have := ho.lt
    have hc := ho.clen
    refine ⟨fun _ => ⟨out, rfl, ho, rfl, by simp [keep]⟩, fun h => ?_⟩
    simp only [keep, List.flatMap_nil, List.length_nil] at h
    omega
  | _, _, .cons (a := c) (b := r) (l₂ := rs) h hsec, _, .cons (b := m) (l₂ := ms) hm hms, out, final, ho => by
    simp only [List.zip_cons_cons, cnameLoop]
    rcases hm with rfl | ⟨rfl, ht⟩
    · simp only [keep, true_or, if_true]
      exact cnameLoop_exact hs junk hsec hms out final ho
    · obtain ⟨-, hrd, hok⟩ := oneName_form h.plain (.inr ht)
      have hd := h.data
      rw [hrd] at hd
      obtain ⟨t, e1, e2, e3⟩ := oneName_exact hs hok hd junk
      have ht' := e2.clen
      rw [e3] at ht'
      have h255 := hok.2
      have hocl := ho.clen
      rw [if_neg (by omega), if_neg (by omega), e1]
      simp only [Res.ok_bind]
      rw [if_neg (by omega)]
      simp only [keep]
      rw [if_neg (show ¬ ((5 : Int) = 36 ∨ (5 : Int) = 37) by omega)]
      simp only [List.flatMap_cons, List.map_cons, place, List.length_append]
      have hal : (aliasEntry r).length = 2 + (encName r.target).length := by simp [aliasEntry, be16_length]
      by_cases hf : out.contents.length + 2 < out.max
      · obtain ⟨o1, a1, a2, a3, a4⟩ := (pushU16_exact t.len ho).2 hf
        rw [a1]
        simp only [Res.ok_bind]
        have ap := append_exact e2 a2
        rw [a4, e3, a3] at ap
        simp only [List.length_append, List.length_cons, List.length_nil] at ap
        by_cases hf2 : out.contents.length + 2 + (encName r.target).length < out.max
        · obtain ⟨o2, b1, b2, b3, b4⟩ := ap.2 (by omega)
          rw [b1]
          simp only [Res.ok_bind]
          have hc2 : o2.contents = out.contents ++ aliasEntry r := by
            rw [b4]; simp [aliasEntry, be16, ht']
          have ih := cnameLoop_exact hs junk hsec hms o2 out.len b2
          rw [hc2] at ih
          simp only [List.length_append] at ih
          rw [b3] at ih
          constructor
          · intro hroom
            obtain ⟨o', c1, c2, c3, c4⟩ := ih.1 (by omega)
            refine ⟨o', ?_, c2, c3, by rw [c4, List.append_assoc]⟩
            rw [c1]
            congr 2
            rw [List.getLastD_cons, hocl]
          · intro hno
            exact ih.2 (by omega)
        · rw [ap.1 (by omega)]
          exact ⟨fun hroom => by omega, fun _ => rfl⟩
      · rw [(pushU16_exact t.len ho).1 (by omega)]
        exact ⟨fun hroom => by omega, fun _ => rfl⟩

theorem cnameRefer_exact {inp : DwStr} {p : Answers} (hr : Reply inp p) {look : DnsStr} (hv : Views inp p look)
    (han : p.an ≠ []) {an ns ar : List Int}
    (hm : List.Forall₂ (fun r m => m = 36 ∨ (m = 5 ∧ r.type = 5)) p.an an) (junk : List UInt8) :
    (((keep p.an an).flatMap aliasEntry).length + 3 < 257 * p.an.length →
      ∃ o, cnameRefer ⟨look, an, ns, ar⟩ junk = .ok o ∧ Usable o ∧ o.contents = aliases (keep p.an an)) ∧
    (257 * p.an.length ≤ ((keep p.an an).flatMap aliasEntry).length + 3 → cnameRefer ⟨look, an, ns, ar⟩ junk = .err) := by
  have hs := hv.packet
  have hlen : look.an.length = p.an.length := sec_length hv.an
  have hpos : 0 < p.an.length := List.length_pos_iff.2 han
  have hcnt := count_le (p.all.map Rec.toRR)
  have hsz := hr.size
  rw [List.length_map] at hcnt
  have hcall : p.all.length = p.an.length + p.ns.length + p.ar.length := by simp [Answers.all]; omega
  unfold cnameRefer
  simp only
  rw [hlen]
  obtain ⟨o0, a1, a2, a3, a4⟩ := create_usable (257 * p.an.length) junk (by omega) (by omega)
  rw [a1]
  simp only [Res.ok_bind]
  have X := cnameLoop_exact hs junk hv.an' hm o0 0 a2
  rw [a3, a4] at X
  simp only [List.length_nil, Nat.zero_add, List.nil_append] at X
  by_cases h1 : ((keep p.an an).flatMap aliasEntry).length < 257 * p.an.length
  · obtain ⟨o1, b1, b2, b3, b4⟩ := X.1 h1
    rw [b1]
    simp only [Res.ok_bind]
    have Y := pushU16_exact ((place 0 ((keep p.an an).map aliasEntry)).getLastD 0) b2
    rw [b4, b3] at Y
    by_cases h2 : ((keep p.an an).flatMap aliasEntry).length + 2 < 257 * p.an.length
    · obtain ⟨o2, c1, c2, c3, c4⟩ := Y.2 h2
      rw [c1]
      simp only [Res.ok_bind]
      have Z := addchar_exact 17 c2
      rw [c4, c3] at Z
      simp only [List.length_append, List.length_cons, List.length_nil] at Z
      constructor
      · intro h3
        obtain ⟨o3, d1, d2, -, d4⟩ := Z.2 (by omega)
        exact ⟨o3, d1, d2, by rw [d4]; rfl⟩
      · intro h3
        exact Z.1 (by omega)
    · rw [Y.1 (by omega)]
      exact ⟨fun h => by omega, fun _ => rfl⟩
  · rw [X.2 (by omega)]
    exact ⟨fun h => by omega, fun _ => rfl⟩

/-! ### An answer among the additional records -/

/-- The record answers the question. -/
def Right (qs : List (List UInt8)) (qtype : Nat) (r : Rec) : Prop := Alike qs r.name ∧ r.type = qtype

instance (qs : List (List UInt8)) (qtype : Nat) (r : Rec) : Decidable (Right qs qtype r) :=
  inferInstanceAs (Decidable (_ ∧ _))

theorem arFind_exact {inp query : DwStr} (hi : Usable inp) {qs : List (List UInt8)} {qtype : Nat}
    (hq : Asks query qs qtype) : ∀ {cells : List (Nat × Nat)} {rs : List Rec}, Sec inp cells rs → ∀ (i : Nat),
    (∃ pre r post cpre c cpost, rs = pre ++ r :: post ∧ cells = cpre ++ c :: cpost ∧ cpre.length = pre.length ∧
      Here inp c r ∧ Right qs qtype r ∧ (∀ x ∈ pre, ¬ Right qs qtype x) ∧
      arFind inp query qtype cells i = .ok (some (i + pre.length))) ∨
    ((∀ r ∈ rs, ¬ Right qs qtype r) ∧ arFind inp query qtype cells i = .ok none)
  | _, _, .nil, _ => .inr ⟨by simp, rfl⟩
  | _, _, .cons (a := c) (b := r) (l₁ := cs) (l₂ := rs) h hsec, i => by
    simp only [arFind]
    rw [isSame_exact hq.usable hi hq.plain h.nameAt, h.type hi]
    simp only [Res.ok_bind]
    by_cases hr : Right qs qtype r
    · left
      have hd : decide (SameName qs r.name ∧ cost qs < 260) = true := decide_eq_true hr.1
      have h2 := hr.2
      rw [if_pos ⟨hd, by omega⟩]
      exact ⟨[], r, rs, [], c, cs, rfl, rfl, rfl, h, hr, by simp, rfl⟩
    · rw [if_neg (by rintro ⟨x, y⟩; exact hr ⟨of_decide_eq_true x, by omega⟩)]
      rcases arFind_exact hi hq hsec (i + 1) with ⟨pre, x, post, cpre, d, cpost, e1, e2, e3, e4, e5, e6, e7⟩ | ⟨e1, e2⟩
      · left
        refine ⟨r :: pre, x, post, c :: cpre, d, cpost, by rw [e1]; rfl, by rw [e2]; rfl, by simp [e3], e4, e5, ?_, ?_⟩
        · intro y hy
          rcases List.mem_cons.1 hy with rfl | hy
          · exact hr
          · exact e6 y hy
        · rw [e7]
          simp only [List.length_cons]
          congr 2
          omega
      · right
        exact ⟨by intro y hy; rcases List.mem_cons.1 hy with rfl | hy; exacts [hr, e1 y hy], e2⟩

theorem arPick_set (r : Rec) (post : List Rec) (c : Nat × Nat) (cpost : List (Nat × Nat)) :
    ∀ (pre : List Rec) (cpre : List (Nat × Nat)), cpre.length = pre.length →
    arPick ((cpre ++ c :: cpost).zip (((pre ++ r :: post).map cleanAr).set pre.length 38)) = some c
  | [], [], _ => by simp [arPick]
  | x :: pre, d :: cpre, h => by
    simp only [List.cons_append, List.map_cons, List.length_cons, List.set_cons_succ, List.zip_cons_cons, arPick]
    rw [if_neg]
    · exact arPick_set r post c cpost pre cpre (by simpa using h)
    · unfold cleanAr
      split
      · omega
      · split <;> omega
  | [], _ :: _, h => by simp at h
  | _ :: _, [], h => by simp at h

theorem answerInAr_exact {inp : DwStr} (hi : Usable inp) {look : DnsStr} {an ns ar : List Int} {c : Nat × Nat} {r : Rec}
    (h : Here inp c r) (hp : arPick (look.ar.zip ar) = some c) (hl : inp.len < 1000000) (junk : List UInt8) :
    (inClass r → ∃ o, answerInAr inp ⟨look, an, ns, ar⟩ junk = .ok o ∧ Usable o ∧
      o.contents = (⟨[r], [], [], 0⟩ : Answers).packed.enc) ∧
    (¬ inClass r → answerInAr inp ⟨look, an, ns, ar⟩ junk = .err) := by
  have X := oneRr_exact hi h junk
  unfold answerInAr
  simp only
  rw [hp]
  simp only
  constructor
  · intro hc
    obtain ⟨t, e1, e2, e3⟩ := X.1 hc
    have hb := at_bound hi h.bytes (rr_pos h.plain.ok)
    have htl := e2.clen
    have hil := hi.clen
    rw [e3] at htl
    rw [e1]
    simp only [Res.ok_bind]
    obtain ⟨o0, a1, a2, a3, a4⟩ := create_usable (t.len + 14) junk (by omega) (by omega)
    rw [a1]
    simp only [Res.ok_bind]
    have ap := append_exact e2 a2
    rw [a3, a4, e3] at ap
    simp only [List.length_nil, List.nil_append] at ap
    obtain ⟨o1, b1, b2, b3, b4⟩ := ap.2 (by omega)
    rw [b1]
    simp only [Res.ok_bind]
    obtain ⟨o2, c1, c2, c3, c4⟩ := pushAll_exact [0, u16 ((c.2 : Int) - c.1), 1, 0, 0] b2 (by
      rw [b4, b3]; simp only [List.length_cons, List.length_nil]; omega)
    rw [c1]
    simp only [Res.ok_bind]
    obtain ⟨o3, d1, d2, d3, d4⟩ := (addchar_exact 0 c2).2 (by
      rw [c4, c3, b4, b3, List.length_append, flatMap_be16_length]; simp only [List.length_cons, List.length_nil]; omega)
    refine ⟨o3, d1, d2, ?_⟩
    rw [d4, c4, b4]
    have hu : u16 ((c.2 : Int) - c.1) = (encName r.name).length := by
      have := h.plain.name.2
      have hm := h.mid
      have e : (c.2 : Int) - c.1 = ((encName r.name).length : Nat) := by omega
      rw [e]
      unfold u16
      omega
    rw [hu]
    simp [Packed.enc, Answers.packed, Packed.all, offsets, Packed.cell, Rec.toRR]
  · intro hc
    rw [X.2 hc]
    rfl

/-! ### Replies without answers -/

theorem kind_byte {inp : DwStr} {p : Answers} (hr : Reply inp p) {look : DnsStr} (hv : Views inp p look) (an ns ar : List Int)
    (k : Nat) (junk : List UInt8) :
    cacheString ⟨look, an, ns, ar⟩ k junk =
      if p.kind = 2 then .err
      else if k = 17 then cnameRefer ⟨look, an, ns, ar⟩ junk
      else if k = 16 then nsRefer ⟨look, an, ns, ar⟩ junk
      else if k = 0 ∨ k = 1 then remake ⟨look, an, ns, ar⟩ (UInt8.ofNat k) junk
      else if k = 2 then remake ⟨look, an, ns, ar⟩ (if p.kind = 1 then 1 else 2) junk
      else .err := by
  unfold cacheString
  simp only
  rw [peek_kind hr hv]
  simp only [Res.ok_bind]
  rcases hr.kind with h | h | h
  · rw [h]
    simp only [show ¬ (0 : UInt8) = 1 by decide, show ¬ (0 : UInt8) = 2 by decide, false_and, if_false, ne_eq, not_true_eq_false]
    by_cases h2 : k = 2
    · subst h2; rfl
    · simp only [h2, if_false, or_false]
  · rw [h]
    simp only [show ¬ (1 : UInt8) = 2 by decide, show ¬ (1 : UInt8) = 0 by decide, not_false_eq_true, not_true_eq_false, ne_eq, true_and, if_false, if_true, and_false]
    by_cases h2 : k = 2
    · subst h2; rfl
    · simp only [h2, if_false, or_false]
  · rw [h]
    simp only [show ¬ (2 : UInt8) = 1 by decide, show ¬ (2 : UInt8) = 0 by decide, not_false_eq_true, not_true_eq_false, ne_eq, true_and, if_true]

/-- The authority records that are left when there are no answers, and the additional ones. -/
def leftNs (r : Rec) : Bool := r.type == 2 || r.type == 6

theorem keep_clean (rs : List Rec) : keep rs (rs.map clean) = rs.filter leftNs := by
  rw [keep_map]
  apply List.filter_congr
  intro r _
  unfold clean leftNs
  by_cases h2 : r.type = 2
  · simp [h2]
  · by_cases h6 : r.type = 6
    · simp [h6]
    · simp [h2, h6]

theorem keep_cleanAr (rs : List Rec) : keep rs (rs.map cleanAr) = rs.filter Rec.isAddr := by
  rw [keep_map]
  apply List.filter_congr
  intro r _
  unfold cleanAr Rec.isAddr
  by_cases h2 : r.type = 1
  · simp [h2]
  · by_cases h6 : r.type = 28
    · simp [h6]
    · simp [h2, h6]

/-- A negative answer as it is kept. -/
def negative (p : Answers) : Answers :=
  ⟨[], p.ns.filter leftNs, p.ar.filter Rec.isAddr, if p.kind = 1 then 1 else 2⟩

theorem inp_len {inp : DwStr} {p : Answers} (hr : Reply inp p) : inp.len < 1000000 := by
  have h := hr.packed.enc_length
  have hs := hr.size
  have hcnt := count_le (p.all.map Rec.toRR)
  rw [packed_all] at h
  have := hr.usable.clen
  rw [hr.contents, h] at this
  omega

theorem linked {inp query b : DwStr} {p : Answers} (hr : Reply inp p) {look : DnsStr} (hv : Views inp p look)
    {qs bs : List (List UInt8)} {qtype : Nat} (hq : Asks query qs qtype) (hb : Zone b bs) :
    ∃ nsM arM T, (∀ f : View → Res DwStr, (do
        let v ← checkBailiwick query b ⟨look, [], p.ns.map clean, p.ar.map cleanAr⟩
        let v ← linkNs v
        f v : Res DwStr) = f ⟨look, [], nsM, arM⟩) ∧
      List.Forall₂ (NsMark bs qs p.ar) (tag 15 p.ns) nsM ∧ List.Forall₂ (ArMark T) p.ar arM ∧
      ∀ t, t ∈ T ↔ ∃ x ∈ tag 15 p.ns, Followed bs qs x ∧ t = x.1.target := by
  have hs := hv.packet
  have h0 : List.Forall₂ (ArMark []) p.ar (p.ar.map cleanAr) := by
    rw [List.forall₂_map_right_iff]
    exact List.forall₂_same.2 fun r _ => cleanAr_mark r
  obtain ⟨nsM, arM, T, e1, e2, e3, e4⟩ := linkLoop_exact hs hv.ar' 15 0 (bs := bs) (qs := qs) (by omega) hv.ns' h0
  refine ⟨nsM, arM, T, ?_, e2, e3, fun t => by rw [e4]; simp⟩
  intro f
  unfold checkBailiwick
  simp only
  rw [bailiwickLoop_exact hs hq hb 15 hv.ns']
  simp only [Res.ok_bind]
  unfold linkNs
  simp only
  rw [e1]
  rfl

/-- Where a reply without answers begins with an SOA record. -/
theorem dissect_soa {inp query b : DwStr} {p : Answers} (hr : Reply inp p) {qs : List (List UInt8)} {qtype : Nat}
    (hq : Asks query qs qtype) (hb : Usable b) (han : p.an = []) {r : Rec} {rest : List Rec} (hns : p.ns = r :: rest)
    (h6 : r.type = 6) (junk : List UInt8) :
    (p.kind ≠ 2 → (∀ r ∈ (negative p).all, inClass r) → ∃ o, dissect inp query b junk = .ok o ∧ Usable o ∧
      o.contents = (negative p).packed.enc) ∧
    ((p.kind = 2 ∨ ∃ r ∈ (negative p).all, ¬ inClass r) → dissect inp query b junk = .err) := by
  obtain ⟨look, hv, hd⟩ := dissect_no_answers hr hq hb han junk
  have hla : look.an.length = 0 := by rw [sec_length hv.an, han]; rfl
  have hk : answerKind inp query ⟨look, [], p.ns.map clean, p.ar.map cleanAr⟩ =
      .ok (2, ⟨look, [], p.ns.map clean, p.ar.map cleanAr⟩) := by
    unfold answerKind
    rw [hq.fetch]
    simp only [Res.ok_bind]
    rw [hla, hns]
    simp [clean, h6]
  rw [hd, hk]
  simp only [Res.ok_bind]
  rw [if_neg (by omega), if_neg (by omega), kind_byte hr hv]
  simp only [show ¬ (2 : Nat) = 17 by omega, show ¬ (2 : Nat) = 16 by omega, show ¬ ((2 : Nat) = 0 ∨ (2 : Nat) = 1) by omega,
    if_false, if_true]
  have X := remake_exact hr hv (an := []) (ns := p.ns.map clean) (ar := p.ar.map cleanAr) (by simp [han]) (by simp) (by simp)
    (if p.kind = 1 then 1 else 2) junk
  have he : Answers.kept p [] (p.ns.map clean) (p.ar.map cleanAr) (if p.kind = 1 then 1 else 2) = negative p := by
    unfold Answers.kept negative
    rw [keep_clean, keep_cleanAr, han]
    rfl
  rw [he] at X
  constructor
  · intro h1 h2
    rw [if_neg h1]
    exact X.1 h2
  · rintro (h | h)
    · rw [if_pos h]
    · split
      · rfl
      · exact X.2 h

/-- Where it begins with neither an SOA nor an NS record. -/
theorem dissect_empty {inp query b : DwStr} {p : Answers} (hr : Reply inp p) {qs : List (List UInt8)} {qtype : Nat}
    (hq : Asks query qs qtype) (hb : Usable b) (han : p.an = []) (hns : ∀ r rest, p.ns = r :: rest → r.type ≠ 6 ∧ r.type ≠ 2)
    (junk : List UInt8) : dissect inp query b junk = .err := by
  obtain ⟨look, hv, hd⟩ := dissect_no_answers hr hq hb han junk
  have hla : look.an.length = 0 := by rw [sec_length hv.an, han]; rfl
  have hk : answerKind inp query ⟨look, [], p.ns.map clean, p.ar.map cleanAr⟩ =
      .ok (19, ⟨look, [], p.ns.map clean, p.ar.map cleanAr⟩) := by
    unfold answerKind
    rw [hq.fetch]
    simp only [Res.ok_bind]
    rw [hla]
    cases h : p.ns with
    | nil => simp
    | cons r rest =>
      have := hns r rest h
      simp [clean, this]
  rw [hd, hk]
  simp only [Res.ok_bind]
  rw [if_neg (by omega), if_neg (by omega), kind_byte hr hv]
  simp

/-- Where it begins with an NS record. -/
theorem dissect_ns {inp query b : DwStr} {p : Answers} (hr : Reply inp p) {qs bs : List (List UInt8)} {qtype : Nat}
    (hq : Asks query qs qtype) (hb : Zone b bs) (han : p.an = []) {r : Rec} {rest : List Rec} (hns : p.ns = r :: rest)
    (h2 : r.type = 2) (junk : List UInt8) :
    (∃ pre x post, p.ar = pre ++ x :: post ∧ Right qs qtype x ∧ (∀ y ∈ pre, ¬ Right qs qtype y) ∧
      (inClass x → ∃ o, dissect inp query b junk = .ok o ∧ Usable o ∧
        o.contents = (⟨[x], [], [], 0⟩ : Answers).packed.enc) ∧
      (¬ inClass x → dissect inp query b junk = .err)) ∨
    ((∀ x ∈ p.ar, ¬ Right qs qtype x) ∧ ∃ look nsM arM T, Views inp p look ∧
      List.Forall₂ (NsMark bs qs p.ar) (tag 15 p.ns) nsM ∧ List.Forall₂ (ArMark T) p.ar arM ∧
      (∀ t, t ∈ T ↔ ∃ x ∈ tag 15 p.ns, Followed bs qs x ∧ t = x.1.target) ∧
      dissect inp query b junk = if p.kind = 2 then .err else nsRefer ⟨look, [], nsM, arM⟩ junk) := by
  obtain ⟨look, hv, hd⟩ := dissect_no_answers hr hq hb.usable han junk
  have hla : look.an.length = 0 := by rw [sec_length hv.an, han]; rfl
  have hk : ∀ x, arFind inp query qtype look.ar 0 = .ok x →
      answerKind inp query ⟨look, [], p.ns.map clean, p.ar.map cleanAr⟩ = match x with
      | some i => Res.ok (23, ⟨look, [], p.ns.map clean, (p.ar.map cleanAr).set i 38⟩)
      | none => Res.ok (16, ⟨look, [], p.ns.map clean, p.ar.map cleanAr⟩) := by
    intro x hx
    unfold answerKind
    rw [hq.fetch]
    simp only [Res.ok_bind]
    rw [hla, hns]
    simp only [List.map_cons, List.headD_cons, Nat.lt_irrefl, gt_iff_lt, if_false]
    rw [if_neg (by simp [clean, h2]), if_pos (by simp [clean, h2]), hx]
    cases x <;> rfl
  rcases arFind_exact hr.usable hq hv.ar 0 with ⟨pre, x, post, cpre, c, cpost, e1, e2, e3, e4, e5, e6, e7⟩ | ⟨e1, e2⟩
  · left
    refine ⟨pre, x, post, e1, e5, e6, ?_⟩
    have hp : arPick (look.ar.zip ((p.ar.map cleanAr).set pre.length 38)) = some c := by
      rw [e1, e2]; exact arPick_set x post c cpost pre cpre e3
    have X := answerInAr_exact hr.usable (an := []) (ns := p.ns.map clean) e4 hp (inp_len hr) junk
    rw [hd, hk _ e7]
    simp only [Res.ok_bind, Nat.zero_add, if_true]
    exact X
  · right
    obtain ⟨nsM, arM, T, l1, l2, l3, l4⟩ := linked hr hv hq hb
    refine ⟨e1, look, nsM, arM, T, hv, l2, l3, l4, ?_⟩
    rw [hd, hk _ e2]
    simp only [Res.ok_bind]
    rw [if_neg (by omega), if_pos trivial, l1]
    rw [kind_byte hr hv]
    simp

end Dissect
end Dw
