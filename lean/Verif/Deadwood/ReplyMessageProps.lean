import Verif.Deadwood.CompressFits
import Verif.Deadwood.ReplyMessage
import Verif.Deadwood.ReplyProps
/-!
# Replies from the cache are messages with the records of the cache
-/

namespace Dw
namespace Reply
open DwStr Spec

/-- ID and flags of a reply. -/
def head (id : Fin 65536) (rcode : Fin 16) : List UInt8 := (replyHeader id false rcode 0 0 0).enc.take 4

theorem header_split (id : Fin 65536) (rcode : Fin 16) (an ns ar : Fin 65536) :
    (replyHeader id false rcode an ns ar).enc =
      head id rcode ++ be16 1 ++ be16 an.val ++ be16 ns.val ++ be16 ar.val := by
  simp [head, replyHeader, Header.enc, be16, word]

theorem head_length (id : Fin 65536) (rcode : Fin 16) : (head id rcode).length = 4 := by
  simp [head, replyHeader, Header.enc, word]

/-- The places of a name and of the name in small letters. -/
theorem lower_places : ∀ (qn : List (List UInt8)) (rest : List UInt8) (i : Nat) (v : UInt8),
    (encName (qn.map (List.map lower)) ++ rest)[i]? = some v →
    ∃ v', (encName qn ++ rest)[i]? = some v' ∧ (v = v' ∨ v = lower v') := by
  intro qn
  induction qn with
  | nil => intro rest i v h; exact ⟨v, h, Or.inl rfl⟩
  | cons l ls ih =>
    intro rest i v h
    rw [List.map_cons, encName_cons] at h
    rw [encName_cons]
    simp only [List.length_map] at h
    cases i with
    | zero =>
      simp at h ⊢
      exact Or.inl h.symm
    | succ i =>
      simp only [List.cons_append, List.getElem?_cons_succ, List.append_assoc] at h ⊢
      by_cases hi : i < l.length
      · rw [List.getElem?_append_left (by simpa using hi), List.getElem?_map] at h
        rw [List.getElem?_append_left hi]
        cases hl : l[i]? with
        | none => rw [hl] at h; cases h
        | some x =>
          rw [hl] at h
          simp at h
          exact ⟨x, rfl, Or.inr h.symm⟩
      · rw [List.getElem?_append_right (by simpa using hi), List.length_map] at h
        rw [List.getElem?_append_right (by omega)]
        exact ih rest _ v h

theorem lower_length (qn : List (List UInt8)) : (encName (qn.map (List.map lower))).length = (encName qn).length := by
  induction qn with
  | nil => rfl
  | cons l ls ih => rw [List.map_cons, encName_cons, encName_cons]; simp [ih]

theorem sameNames_trans : ∀ {a b c : List (List (List UInt8))}, SameNames a b → SameNames b c → SameNames a c
  | [], [], [], _, _ => trivial
  | _ :: _, _ :: _, _ :: _, h, g => ⟨h.1.trans g.1, sameNames_trans h.2 g.2⟩

theorem sameRec_trans {a b c : Rec} (h : SameRec a b) (g : SameRec b c) : SameRec a c :=
  ⟨h.name.trans g.name, h.type.trans g.type, h.cls.trans g.cls, h.ttl.trans g.ttl, h.lead.trans g.lead,
    sameNames_trans h.names g.names, h.tail.trans g.tail⟩

theorem sameRecs_trans : ∀ {a b c : List Rec}, SameRecs a b → SameRecs b c → SameRecs a c
  | [], [], [], _, _ => trivial
  | _ :: _, _ :: _, _ :: _, h, g => ⟨sameRec_trans h.1 g.1, sameRecs_trans h.2 g.2⟩

/-- The message `m` is the reply with the ID `id` to the question `qn`, `t`, with the records of `p`. -/
structure Carries (m : Msg) (id : Fin 65536) (qn : List (List UInt8)) (t : Nat) (p : Answers) : Prop where
  head : m.head = head id (rcodeOf p.kind)
  qname : m.qname = qn
  qtype : m.qtype = t
  qclass : m.qclass = 1
  an : SameRecs p.an m.an
  ns : SameRecs p.ns m.ns
  ar : SameRecs p.ar m.ar

/-- What makes a question: the name, not in capital letters, and the type. -/
def keyOf (qn : List (List UInt8)) (t : Nat) : List UInt8 := encName (qn.map (List.map lower)) ++ be16 t

/-- The question as the client wrote it. -/
def asked (qn : List (List UInt8)) (t : Nat) : List UInt8 := encName qn ++ be16 t

/-- An answer that is compressed rightly. -/
structure AnsOk (p : Answers) : Prop where
  some : p.all ≠ []
  recs : ∀ r ∈ p.all, RecOk r
  kind : p.kind = 0 ∨ p.kind = 1 ∨ p.kind = 2
  size : sizes p.packed.all < 65536

theorem AnsOk.packed {p : Answers} (h : AnsOk p) : p.packed.Ok := ⟨by
  rw [packed_all]
  intro r hr
  obtain ⟨x, hx, rfl⟩ := List.mem_map.1 hr
  exact Rec.toRR_ok (h.recs x hx).ok, h.size, h.kind⟩

theorem holds_of {hd qs body c : List UInt8} {q : Mem} {n : Nat} (h1 : hd.length = 12) (h2 : qs.length = n)
    (hc : c = hd ++ qs ++ be16 1 ++ body)
    (hq : ∀ i v, q i = some v → ∃ v', qs[i]? = some v' ∧ (v = v' ∨ v = lower v')) :
    Holds (memOf c) (memOf body) q n := by
  subst hc
  constructor
  · intro i v hv
    simp only [memOf] at hv ⊢
    rw [List.getElem?_append_right (by simp only [List.length_append, be16_length]; omega), ← hv]
    congr 1
    simp only [List.length_append, be16_length]; omega
  · intro i v hv
    obtain ⟨v', g1, g2⟩ := hq i v hv
    have hi := (List.getElem?_eq_some_iff.1 g1).1
    refine ⟨v', ?_, g2⟩
    simp only [memOf]
    rw [List.append_assoc, List.append_assoc, List.getElem?_append_right (by omega),
      List.getElem?_append_left (by omega), ← g1]
    congr 1; omega

/-- A reply made from a compressed answer of at most 450 bytes is a message with the client's question
and the records of the answer; there is no reply if it would take 515 bytes or more. -/
theorem packet_message {q q' inp o : DwStr} (hq : Usable q) (hq' : Usable q') (hi : Usable inp)
    (junk : List UInt8) {qn : List (List UInt8)} {t : Nat} (hqn : LabelsOk qn) (hql : qn.length < 128)
    (hqc : q.contents = keyOf qn t) (hqc' : q'.contents = asked qn t) (hq2 : (encName qn).length ≤ 255)
    (id : Fin 65536) {p : Answers} (hp : AnsOk p) (hic : inp.contents = p.packed.enc)
    (hres : compress q inp junk = .ok o) (hroom : o.contents.length ≤ 457) :
    o.len ≠ 7 ∧ ∃ pk v, makePacket q' o id.val junk = .ok (pk, v) ∧
      (pk.isSome ↔ o.contents.length + (encName qn).length + 9 < 515) ∧
      ∀ c, pk = some c → ∃ m : Msg, m.Is c.contents ∧ Carries m id qn t p := by
  have hlowok : LabelsOk (qn.map (List.map lower)) := by
    intro l hl
    obtain ⟨x, hx, rfl⟩ := List.mem_map.1 hl
    simpa using hqn x hx
  have hkl : (keyOf qn t).length = (encName qn).length + 2 := by
    simp [keyOf, lower_length, be16_length]
  have hal : (asked qn t).length = (encName qn).length + 2 := by simp [asked, be16_length]
  obtain ⟨uo, p', body, h1, h2, h3⟩ := compress_back hq hi junk hlowok (by simpa using hql) hqc
    (by rw [hqc, hkl]; omega) p hp.some hp.recs hp.kind hic hp.size hres hroom
  have htl : p'.trailer.length = 7 := by simp [Answers.trailer, be16_length]
  have hol : o.contents.length = body.length + 7 := by rw [h2, List.length_append, htl]
  have hqcl : q.len = (encName qn).length + 2 := by rw [← hq.clen, hqc, hkl]
  -- not empty
  have hb0 : 0 < body.length := by
    have hne : p'.all ≠ [] := by
      intro h
      have e1 := sameRecs_length h1.an
      have e2 := sameRecs_length h1.ns
      have e3 := sameRecs_length h1.ar
      have := congrArg List.length h
      simp only [Answers.all, List.length_append, List.length_nil] at this
      apply hp.some
      apply List.eq_nil_of_length_eq_zero
      simp only [Answers.all, List.length_append]; omega
    cases h3' : p'.all with
    | nil => exact absurd h3' hne
    | cons r rs =>
      rw [h3'] at h3
      cases h3 with
      | cons h _ =>
        obtain ⟨n, a, k, -, -, -, hb, -⟩ := h.at_
        have := bytesAt_le hb (by simp only [List.length_append, be16_length]; omega)
        simp only [List.length_append, be16_length] at this
        omega
  have hcounts : p'.an.length < 65536 ∧ p'.ns.length < 65536 ∧ p'.ar.length < 65536 := by
    have hs : ∀ rs : List RR, rs.length ≤ sizes rs := by
      intro rs
      induction rs with
      | nil => simp [sizes]
      | cons r rs ih =>
        simp only [sizes, List.map_cons, List.sum_cons, List.length_cons, RR.size] at ih ⊢; omega
    have := hs p.packed.all
    have h0 := hp.size
    have e1 := sameRecs_length h1.an
    have e2 := sameRecs_length h1.ns
    have e3 := sameRecs_length h1.ar
    simp only [packed_all, List.length_map, Answers.all, List.length_append] at this
    rw [packed_all] at h0
    simp only [Answers.all] at h0 this
    omega
  obtain ⟨ha, hn, hr⟩ := hcounts
  obtain ⟨pk, v', e1, -, -, e4⟩ := makePacket_exact hq' uo id ⟨_, ha⟩ ⟨_, hn⟩ ⟨_, hr⟩ (kind := p'.kind)
    (by rw [← h1.kind]; exact hp.kind) (body := body) (by rw [h2]; simp [Answers.trailer]) junk
  refine ⟨by rw [← uo.clen]; omega, pk, v', e1, ?_, ?_⟩
  · rw [← Option.isSome_map (f := DwStr.contents), e4, hqc', hal]
    split <;> rename_i h
    · simp; omega
    · simp; omega
  · intro c hc
    rw [hc, hqc'] at e4
    split at e4
    swap
    · cases e4
    simp only [Option.map_some, Option.some.injEq] at e4
    rw [reply, header_split] at e4
    have H : Holds (memOf c.contents) (memOf body) q.mem q.len := by
      refine holds_of ?_ (by rw [hal, hqcl]) e4 (fun i v hv => ?_)
      · simp only [List.length_append, head_length, be16_length]
      · simp only [mem, hqc] at hv
        exact lower_places qn (be16 t) i v hv
    obtain ⟨rs', g1, g2⟩ := H.recs h3
    obtain ⟨ab, ar', e5, q3, q4⟩ := sameRecs_append (a := p'.an ++ p'.ns) (b := p'.ar) g1
    obtain ⟨an', ns', e6, q5, q6⟩ := sameRecs_append q3
    obtain ⟨M, hM⟩ : ∃ M : Msg, M = ⟨head id (rcodeOf p.kind), qn, t, 1, an', ns', ar'⟩ := ⟨_, rfl⟩
    have hfront : M.header ++ M.question ++ body = c.contents := by
      rw [hM, e4, h1.kind]
      simp only [Msg.header, Msg.question, asked, sameRecs_length q5, sameRecs_length q6, sameRecs_length q4,
        List.append_assoc]
    have hfl : (M.header ++ M.question).length = 14 + q.len + 0 := by
      rw [hM]
      simp only [Msg.header, Msg.question, List.length_append, head_length, be16_length, hqcl]; omega
    have hcl : c.contents.length = 14 + q.len + body.length := by
      rw [← hfront, List.length_append, hfl, Nat.add_zero]
    refine ⟨M, ⟨⟨body, hfront⟩, ?_⟩, ?_⟩
    · rw [hfl, hcl, hM]
      simp only [Msg.all]
      rw [← e6, ← e5]
      exact g2
    · rw [hM]
      exact ⟨rfl, rfl, rfl, rfl, sameRecs_trans h1.an q5, sameRecs_trans h1.ns q6, sameRecs_trans h1.ar q4⟩

/-- If the records of an answer take at most 450 bytes, with one more for each name, a question for it
is answered with them. -/
theorem answer_message {q q' inp : DwStr} (hq : Usable q) (hq' : Usable q') (hi : Usable inp)
    (junk : List UInt8) {qn : List (List UInt8)} {t : Nat} (hqn : LabelsOk qn) (hql : qn.length < 128)
    (hqc : q.contents = keyOf qn t) (hqc' : q'.contents = asked qn t) (hq2 : (encName qn).length ≤ 255)
    (id : Fin 65536) {p : Answers} (hp : AnsOk p) (hic : inp.contents = p.packed.enc)
    (hroom : (p.all.map Rec.room).sum ≤ 450) :
    ∃ o, compress q inp junk = .ok o ∧ o.len ≠ 7 ∧ ∃ pk v, makePacket q' o id.val junk = .ok (pk, v) ∧
      ((p.all.map Rec.room).sum + (encName qn).length + 16 < 515 → pk.isSome) ∧
      ∀ c, pk = some c → ∃ m : Msg, m.Is c.contents ∧ Carries m id qn t p := by
  have hlowok : LabelsOk (qn.map (List.map lower)) := by
    intro l hl
    obtain ⟨x, hx, rfl⟩ := List.mem_map.1 hl
    simpa using hqn x hx
  have hkl : (keyOf qn t).length = (encName qn).length + 2 := by
    simp [keyOf, lower_length, be16_length]
  obtain ⟨o, e1, e2⟩ := compress_fits hq hi junk hlowok (by simpa using hql) hqc
    (by rw [hqc, hkl]; omega) p hp.some hp.recs hp.kind hic hp.size hroom
  obtain ⟨h1, pk, v, h2, h3, h4⟩ := packet_message hq hq' hi junk hqn hql hqc hqc' hq2 id hp hic e1 (by omega)
  exact ⟨o, e1, h1, pk, v, h2, fun h => h3.2 (by omega), h4⟩

/-- For example: the client asks for `A.`, and the answer has an alias and an address. -/
example : ∃ o pk v, compress (ofBytes (keyOf [[65]] 1)) (ofBytes exAns.packed.enc) [] = .ok o ∧
    makePacket (ofBytes (asked [[65]] 1)) o 7 [] = .ok (some pk, v) ∧
    ∃ m : Msg, m.Is pk.contents ∧ Carries m 7 [[65]] 1 exAns := by
  obtain ⟨o, e, -, pk, v, g1, g2, g3⟩ := answer_message (q := ofBytes (keyOf [[65]] 1)) (q' := ofBytes (asked [[65]] 1))
    (inp := ofBytes exAns.packed.enc) (ofBytes_usable (by decide)) (ofBytes_usable (by decide))
    (ofBytes_usable (by decide +kernel)) [] (qn := [[65]]) (t := 1) (by intro l hl; simp at hl; subst hl; decide)
    (by decide) (ofBytes_contents _) (ofBytes_contents _) (by decide) 7
    (p := exAns) ⟨by decide, exAns_recOk, by decide, by decide +kernel⟩ (ofBytes_contents _) (by decide)
  obtain ⟨c, rfl⟩ := Option.isSome_iff_exists.1 (g2 (by decide))
  exact ⟨o, c, v, e, g1, g3 c rfl⟩

end Reply
end Dw
