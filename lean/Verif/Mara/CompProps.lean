import Verif.Mara.CompAll
/-!
# Property C70: a compressed reply is the same message

For every message of sound records that is small enough, `compress_data` makes a message with the
same header, the same question and the same records in the same order; names are read through
pointers (which all go backwards) and may differ from the ones given in letter case only.
-/

namespace Mara
namespace Comp

open Spec
open Dw (Res)

theorem sameRecs_append : ∀ {a b r : List Rec}, SameRecs (a ++ b) r → ∃ a' b', r = a' ++ b' ∧ SameRecs a a' ∧ SameRecs b b'
  | [], _, r, h => ⟨[], r, rfl, trivial, h⟩
  | x :: a, b, [], h => by cases h
  | x :: a, b, y :: r, h => by
    obtain ⟨a', b', h1, h2, h3⟩ := sameRecs_append h.2
    exact ⟨y :: a', b', by rw [h1]; rfl, ⟨h.1, h2⟩, h3⟩

theorem sameRecs_length : ∀ {a b : List Rec}, SameRecs a b → a.length = b.length
  | [], [], _ => rfl
  | [], _ :: _, h => by cases h
  | _ :: _, [], h => by cases h
  | _ :: _, _ :: _, h => by
    have := sameRecs_length h.2
    simpa using this

theorem header_step {u : List UInt8} {h0 h1 h2 h3 : UInt8} {an ns ar : Nat} {rest : List UInt8} (han : an < 65536)
    (hns : ns < 65536) (har : ar < 65536)
    (hu : u = h0 :: h1 :: h2 :: h3 :: (be16 1 ++ be16 an ++ be16 ns ++ be16 ar ++ rest)) :
    header u ⟨0, [], []⟩ =
      .ok (⟨12, [h0, h1, h2, h3] ++ be16 1 ++ be16 an ++ be16 ns ++ be16 ar, []⟩, some (an + ns + ar)) := by
  have e0 : substrAppend u [] 0 4 = .ok [h0, h1, h2, h3] := by
    rw [hu]
    unfold substrAppend append
    simp [be16]
  have hul : u.length = 12 + rest.length := by rw [hu]; simp [be16]; omega
  have g : u[4]? = some (UInt8.ofNat (1 / 256)) ∧ u[5]? = some (UInt8.ofNat 1) ∧ u[6]? = some (UInt8.ofNat (an / 256)) ∧
      u[7]? = some (UInt8.ofNat an) ∧ u[8]? = some (UInt8.ofNat (ns / 256)) ∧ u[9]? = some (UInt8.ofNat ns) ∧
      u[10]? = some (UInt8.ofNat (ar / 256)) ∧ u[11]? = some (UInt8.ofNat ar) := by
    rw [hu]
    simp [be16]
  obtain ⟨g4, g5, g6, g7, g8, g9, g10, g11⟩ := g
  have step : ∀ (o : Nat) (out : List UInt8) (n : Nat), out.length < 100 → n < 65536 → u[o]? = some (UInt8.ofNat (n / 256)) →
      u[o + 1]? = some (UInt8.ofNat n) → uint16 u ⟨o, out, []⟩ = .ok (⟨o + 2, out ++ be16 n, []⟩, n) := by
    intro o out n h1 h2 h3 h4
    unfold uint16 append
    simp only [h3, h4, List.length_cons, List.length_nil]
    rw [if_neg (by omega), be16_val h2]
    rfl
  unfold header
  rw [e0]
  simp only [Res.ok_bind]
  rw [if_neg (by omega), step 4 _ 1 (by simp) (by omega) g4 g5]
  simp only [Res.ok_bind, Nat.reduceAdd]
  rw [step 6 _ an (by simp [be16]) han g6 g7]
  simp only [Res.ok_bind, Nat.reduceAdd]
  rw [step 8 _ ns (by simp [be16]) hns g8 g9]
  simp only [Res.ok_bind, Nat.reduceAdd]
  rw [step 10 _ ar (by simp [be16]) har g10 g11]
  simp only [Res.ok_bind, Nat.reduceAdd]
  rw [if_neg (by omega), if_neg (by omega), if_neg (by omega)]

theorem stop_plain : ∀ {ls : Name}, LabelsOk ls → ∀ (c t : List UInt8),
    Halts (memOf (c ++ (encName ls ++ t))) c.length (c.length + (encName ls).length)
  | [], _, c, t => .root (by simp [memOf, encName, encLabels])
  | l :: ls, h, c, t => by
    have h1 := labelAt_view (h := none) (c := c) (by intro a ha; cases ha) h.head (encName ls ++ t)
    have ih := stop_plain h.tail (c ++ UInt8.ofNat l.length :: l) t
    have e : c ++ (encName (l :: ls) ++ t) = c ++ UInt8.ofNat l.length :: l ++ (encName ls ++ t) := by
      rw [Lookup.encName_cons]; simp
    have e2 : (c ++ UInt8.ofNat l.length :: l).length = c.length + (l.length + 1) := by simp
    rw [e]
    refine .label (l := l) ?_ ?_
    · simpa [view] using h1
    · rw [e2] at ih
      rw [Lookup.encName_cons_length]
      have e3 : c.length + (l.length + 1) + (encName ls).length = c.length + (l.length + 1 + (encName ls).length) := by omega
      rw [e3] at ih
      convert ih using 1

/-- Compression of a reply. -/
theorem compress_step {p : Msg} (hp : p.Sound) {um om : Nat} (hum : p.bytes.length < um) :
    (compress p.bytes um om = .err ∧ (4100 ≤ p.bytes.length ∨ 150 < p.labels ∨ om ≤ p.bytes.length)) ∨
    ∃ c p', compress p.bytes um om = .ok c ∧ p.Same p' ∧ (p'.header ++ p'.question) <+: c ∧
      RecsVia (Firm (memOf c)) (memOf c) (p'.header ++ p'.question).length p'.all c.length ∧ c.length ≤ p.bytes.length ∧ c.length < om := by
  obtain ⟨h0, h1, h2, h3, hhead⟩ : ∃ a b c d, p.head = [a, b, c, d] := by
    have := hp.head
    match hh : p.head, this with
    | [a, b, c, d], _ => exact ⟨a, b, c, d, rfl⟩
  have hhl : p.header.length = 12 := by unfold Msg.header; rw [hhead]; simp [be16]
  have hbytes : p.bytes = h0 :: h1 :: h2 :: h3 :: (be16 1 ++ be16 p.an.length ++ be16 p.ns.length ++ be16 p.ar.length ++
      (p.question ++ (p.all.map Rec.toRR).flatMap RR.enc)) := by
    unfold Msg.bytes Msg.header
    rw [hhead]
    simp
  have hheader : [h0, h1, h2, h3] ++ be16 1 ++ be16 p.an.length ++ be16 p.ns.length ++ be16 p.ar.length = p.header := by
    unfold Msg.header
    rw [hhead]
  have hlab : p.labels = nameCount p.qname + (p.all.map recCount).sum := rfl
  have hb2 : p.bytes = p.header ++ (encName p.qname ++ (UInt8.ofNat (p.qtype / 256) :: UInt8.ofNat p.qtype ::
      (UInt8.ofNat (p.qclass / 256) :: UInt8.ofNat p.qclass :: (p.all.map Rec.toRR).flatMap RR.enc))) := by
    unfold Msg.bytes Msg.question
    simp [be16]
  have hb3 : p.bytes = (p.header ++ encName p.qname) ++ (UInt8.ofNat (p.qtype / 256) :: UInt8.ofNat p.qtype ::
      (UInt8.ofNat (p.qclass / 256) :: UInt8.ofNat p.qclass :: (p.all.map Rec.toRR).flatMap RR.enc)) := by
    rw [hb2, List.append_assoc]
  have hb4 : p.bytes = (p.header ++ encName p.qname ++ be16 p.qtype) ++ (UInt8.ofNat (p.qclass / 256) :: UInt8.ofNat p.qclass ::
      (p.all.map Rec.toRR).flatMap RR.enc) := by
    rw [hb2]; simp [be16]
  have hb5 : p.bytes = (p.header ++ p.question) ++ (p.all.map Rec.toRR).flatMap RR.enc := rfl
  have hbad : Bad p.bytes p.labels → (4100 ≤ p.bytes.length ∨ 150 < p.labels ∨ om ≤ p.bytes.length) := by
    rintro (h | h)
    · exact .inl h
    · exact .inr (.inl h)
  unfold compress
  rw [header_step hp.an hp.ns hp.ar hbytes, hheader]
  simp only [Res.ok_bind]
  have hi : Inv none p.labels ⟨12, p.header, []⟩ (nameCount p.qname + (p.all.map recCount).sum) :=
    ⟨(by simp only; omega), (by simp only; omega), (by intro q hq; cases hq), (by simp),
      (by simp only [List.length_nil]; omega), (by intro a ha; cases ha)⟩
  rcases dlabel_step hi (.inl hhl) hp.qname hb2 (by simp only; omega) hum with ⟨g1, g2⟩ | ⟨x, s1, ls', g1, g2, g3, g4, g5⟩
  · left; rw [g1]; exact ⟨rfl, hbad g2⟩
  have hx : x = encName p.qname := by
    cases g4 with
    | full => rfl
    | ptr _ _ hmem _ _ _ => cases hmem
  obtain ⟨off, out, pts⟩ := s1
  simp only at g2 g3
  subst hx
  subst g2
  subst g3
  rw [g1]
  simp only [Res.ok_bind]
  rcases uint16_step (N := p.labels) (s := ⟨12 + (encName p.qname).length, p.header ++ encName p.qname, pts⟩) hb3
    (by simp only [List.length_append]; omega) (by simp only [List.length_append]; omega) with ⟨k1, k2⟩ | k1
  · left; rw [k1]; exact ⟨rfl, hbad k2⟩
  rw [k1]
  simp only [Res.ok_bind]
  rcases uint16_step (N := p.labels) (s := ⟨12 + (encName p.qname).length + 2, p.header ++ encName p.qname ++ [UInt8.ofNat (p.qtype / 256), UInt8.ofNat p.qtype], pts⟩) hb4
    (by simp only [List.length_append, be16, List.length_cons, List.length_nil]; omega)
    (by simp only [List.length_append, List.length_cons, List.length_nil]; omega) with ⟨k1, k2⟩ | k1
  · left; rw [k1]; exact ⟨rfl, hbad k2⟩
  rw [k1]
  simp only [Res.ok_bind]
  have hq : p.header ++ encName p.qname ++ [UInt8.ofNat (p.qtype / 256), UInt8.ofNat p.qtype] ++
      [UInt8.ofNat (p.qclass / 256), UInt8.ofNat p.qclass] = p.header ++ p.question := by
    unfold Msg.question
    simp [be16]
  have hql : (p.header ++ p.question).length = 12 + (encName p.qname).length + 2 + 2 := by
    rw [← hq]
    simp only [List.length_append, List.length_cons, List.length_nil]
    omega
  rw [hq]
  have hi2 := g5.app 4 (be16 p.qtype ++ be16 p.qclass) (by simp [be16])
  have hq2 : p.header ++ encName p.qname ++ (be16 p.qtype ++ be16 p.qclass) = p.header ++ p.question := by
    unfold Msg.question; simp
  simp only at hi2
  rw [hq2] at hi2
  have hbase : Base none (p.header ++ p.question) := by
    refine ⟨12 + (encName p.qname).length, ?_, by omega⟩
    have := stop_plain hp.qname.1 p.header (be16 p.qtype ++ be16 p.qclass)
    rw [hhl] at this
    unfold Msg.question
    simpa [view] using this
  have hlen : p.an.length + p.ns.length + p.ar.length = p.all.length := by unfold Msg.all; simp [Nat.add_assoc]
  rw [hlen]
  rcases answers_step hum p.all hp.recs ⟨12 + (encName p.qname).length + 2 + 2, p.header ++ p.question, pts⟩ (p.header ++ p.question)
    hi2 hbase hb5 (by simp only; omega) with ⟨k1, k2⟩ | ⟨s', rs', k1, k2, k3, k4, k5⟩
  · left; rw [k1]; exact ⟨rfl, hbad k2⟩
  rw [k1]
  simp only [Res.ok_bind]
  by_cases hom : s'.out.length ≥ om
  · left
    rw [if_pos hom]
    exact ⟨rfl, .inr (.inr (by omega))⟩
  · right
    rw [if_neg hom]
    unfold Msg.all at k3
    obtain ⟨l1, ar', e1, s1, s2⟩ := sameRecs_append k3
    obtain ⟨an', ns', e2, s3, s4⟩ := sameRecs_append s1
    have hfront : (⟨p.head, p.qname, p.qtype, p.qclass, an', ns', ar'⟩ : Msg).header ++
        (⟨p.head, p.qname, p.qtype, p.qclass, an', ns', ar'⟩ : Msg).question = p.header ++ p.question := by
      unfold Msg.header Msg.question
      simp only [sameRecs_length s2, sameRecs_length s3, sameRecs_length s4]
    refine ⟨s'.out, ⟨p.head, p.qname, p.qtype, p.qclass, an', ns', ar'⟩, rfl, ⟨rfl, rfl, rfl, rfl, s3, s4, s2⟩, ?_, ?_, k5, by omega⟩
    · rw [hfront]; exact prefix_of_sub k4
    · rw [hfront]
      unfold Msg.all
      simp only
      rw [← e2, ← e1]
      exact k2

/-- **C70.** A message of sound records with at most 150 labels, of fewer than 4100 bytes (and small
enough for the strings it is kept in), is compressed to the same message: same header and question,
same records in the same order, names equal but for letter case. -/
theorem compress_carries {p : Msg} (hp : p.Sound) {um om : Nat} (hum : p.bytes.length < um) (hom : p.bytes.length < om)
    (hsize : p.bytes.length < 4100) (hlab : p.labels ≤ 150) :
    ∃ c p', compress p.bytes um om = .ok c ∧ p.Same p' ∧ p'.Is c ∧ c.length ≤ p.bytes.length := by
  rcases compress_step hp hum (om := om) with ⟨_, h⟩ | ⟨c, p', h1, h2, h3, h3', h4, _⟩
  · omega
  · exact ⟨c, p', h1, h2, ⟨h3, frecs_in h3'⟩, h4⟩

/-- **C70.** Whatever the number of labels and the size: what comes out, if anything does, is the
same message. -/
theorem compress_sound {p : Msg} (hp : p.Sound) {um om : Nat} (hum : p.bytes.length < um) :
    compress p.bytes um om = .err ∨ ∃ c p', compress p.bytes um om = .ok c ∧ p.Same p' ∧ p'.Is c ∧
      c.length ≤ p.bytes.length ∧ c.length < om := by
  rcases compress_step hp hum (om := om) with ⟨h, _⟩ | ⟨c, p', h1, h2, h3, h3', h4, h5⟩
  · exact .inl h
  · exact .inr ⟨c, p', h1, h2, ⟨h3, frecs_in h3'⟩, h4, h5⟩

end Comp
end Mara
