import Verif.Co.ReplyLemmas
import Verif.Mara.CompUnique
/-!
# coLunacyDNS: replies are messages

Replies with an address and failures are whole messages.  The ones that say that there is nothing of the type, and the ones to
questions for all there is, have a byte too many: they are no messages.
-/

namespace Co
open Dw (Res)
open Spec (LabelsOk encName shown Header be16 be32 word memOf NameIn EndsAt BytesAt RecIn RecsIn NamesIn Msg)
open Spec.Script (Quest Body)

theorem bytesAt_pre {c pre l post : List UInt8} {n : Nat} (h : c = pre ++ (l ++ post)) (hn : n = pre.length) : BytesAt (memOf c) n l := by
  subst h hn
  exact Mara.Comp.bytesAt_view (h := none) (by intro a ha; cases ha) l post

theorem mem_pre {c pre post : List UInt8} {n : Nat} {x : UInt8} (h : c = pre ++ (x :: post)) (hn : n = pre.length) : memOf c n = some x := by
  subst h hn; simp [memOf]

/-- The pointer to the question. -/
theorem pointer_name {c pre post : List UInt8} {h : Header} {q : Quest} {rest : List UInt8} {n : Nat} (hl : LabelsOk q.name)
    (hq : c = h.enc ++ (q.question ++ rest)) (hc : c = pre ++ (192 :: 12 :: post)) (hn : n = pre.length) (hp : 12 < n) :
    NameIn (memOf c) n q.name ∧ EndsAt (memOf c) n (n + 2) := by
  have h1 := mem_pre hc hn
  have h2 : memOf c (n + 1) = some 12 := mem_pre (pre := pre ++ [192]) (post := post) (by simp [hc]) (by simp [hn])
  refine ⟨.pointer h1 (by decide) h2 (by simpa using hp) ?_, .pointer h1 (by decide)⟩
  have := Mara.Comp.nameIn_plain hl h.enc (be16 q.qtype ++ be16 q.qclass ++ rest)
  rw [enc_len] at this
  rw [hq]
  simpa [Quest.question] using this

theorem message_front (b : Body) (q : Quest) (hq : q.Ok) (aa ra : Bool) :
    (b.message q aa ra).header ++ (b.message q aa ra).question = (b.header q.header aa ra).enc ++ q.question := by
  have hs := hq.ns
  have h1 := hq.one
  unfold Msg.header Msg.question Body.message Quest.question
  simp only
  congr 1
  rw [enc_eq]
  cases b <;> simp only [Body.header, Body.answers, List.length_nil, List.length_cons] <;> rw [hs, h1] <;> rfl

theorem question_len (q : Quest) : q.question.length = (encName q.name).length + 4 := by simp [Quest.question, be16]

/-- A record of plain data behind the question. -/
theorem plain_rec {c : List UInt8} (h : Header) (q : Quest) (hl : LabelsOk q.name) (ty ttl n : Nat) (tail post : List UInt8) (hn : n = tail.length) (hs : n < 65536)
    (hc : c = h.enc ++ (q.question ++ ([192, 12] ++ be16 ty ++ be16 1 ++ be32 ttl ++ be16 n ++ tail ++ post))) :
    RecIn (memOf c) (12 + q.question.length) ⟨q.name, ty, [0, 1], ttl, [], [], tail⟩ (12 + q.question.length + 12 + n) := by
  have e : c = (h.enc ++ q.question) ++ (192 :: 12 :: (be16 ty ++ be16 1 ++ be32 ttl ++ be16 n ++ tail ++ post)) := by rw [hc]; simp
  obtain ⟨p1, p2⟩ := pointer_name hl hc e (n := 12 + q.question.length) (by simp [enc_len]) (by simp [question_len])
  refine ⟨12 + q.question.length + 2, 12 + q.question.length + 12, p1, p2, ?_, by omega, by omega, ?_, ?_, ?_, by simp [hn]⟩
  · rw [show 12 + q.question.length + 12 + n - (12 + q.question.length + 2 + 10) = n by omega]
    exact bytesAt_pre (pre := h.enc ++ q.question ++ [192, 12]) (post := tail ++ post) (by rw [hc, show be16 1 = [0, 1] from rfl]; simp) (by simp [enc_len] <;> omega)
  · intro j hj; simp at hj
  · exact .nil
  · exact bytesAt_pre (pre := h.enc ++ q.question ++ ([192, 12] ++ be16 ty ++ be16 1 ++ be32 ttl ++ be16 n)) (post := post) (by rw [hc]; simp)
      (by simp [enc_len, be16, be32] <;> omega)

/-- The record that says that there is nothing of the type. -/
theorem soa_rec {c : List UInt8} (h : Header) (q : Quest) (hl : LabelsOk q.name) (ttl : Nat) (post : List UInt8)
    (hc : c = h.enc ++ (q.question ++ ((Body.notThere ttl).record ++ post))) :
    RecIn (memOf c) (12 + q.question.length)
      ⟨q.name, 6, [0, 1], ttl, [], [[122] :: q.name, [121] :: q.name], be32 1 ++ be32 1 ++ be32 1 ++ be32 1 ++ be32 1⟩
      (12 + q.question.length + 40) := by
  have hp : 12 < 12 + q.question.length := by simp [question_len]
  have e0 : c = (h.enc ++ q.question) ++ (192 :: 12 :: ([0, 6, 0, 1] ++ be32 ttl ++ [0, 28] ++ [1, 122, 192, 12, 1, 121, 192, 12] ++ (be32 1 ++ be32 1 ++ be32 1 ++ be32 1 ++ be32 1) ++ post)) := by
    rw [hc]; simp [Body.record, be16]
  have e1 : c = (h.enc ++ q.question ++ ([192, 12, 0, 6, 0, 1] ++ be32 ttl ++ [0, 28, 1, 122])) ++ (192 :: 12 :: ([1, 121, 192, 12] ++ (be32 1 ++ be32 1 ++ be32 1 ++ be32 1 ++ be32 1) ++ post)) := by
    rw [e0]; simp
  have e2 : c = (h.enc ++ q.question ++ ([192, 12, 0, 6, 0, 1] ++ be32 ttl ++ [0, 28, 1, 122, 192, 12, 1, 121])) ++ (192 :: 12 :: ((be32 1 ++ be32 1 ++ be32 1 ++ be32 1 ++ be32 1) ++ post)) := by
    rw [e0]; simp
  obtain ⟨p1, p2⟩ := pointer_name hl hc e0 (n := 12 + q.question.length) (by simp [enc_len]) hp
  obtain ⟨n1, n2⟩ := pointer_name hl hc e1 (n := 12 + q.question.length + 12 + 2) (by simp [enc_len, be32, be16] <;> omega) (by omega)
  obtain ⟨m1, m2⟩ := pointer_name hl hc e2 (n := 12 + q.question.length + 16 + 2) (by simp [enc_len, be32, be16] <;> omega) (by omega)
  have lz : Spec.LabelAt (memOf c) (12 + q.question.length + 12) [122] := by
    refine ⟨by simp, by simp, mem_pre (pre := h.enc ++ q.question ++ ([192, 12, 0, 6, 0, 1] ++ be32 ttl ++ [0, 28])) (post := 122 :: ([192, 12, 1, 121, 192, 12] ++ (be32 1 ++ be32 1 ++ be32 1 ++ be32 1 ++ be32 1) ++ post)) (by rw [e0]; simp)
      (by simp [enc_len, be32, be16] <;> omega), ?_⟩
    intro j hj
    have : j = 0 := by simpa using hj
    subst this
    exact mem_pre (pre := h.enc ++ q.question ++ ([192, 12, 0, 6, 0, 1] ++ be32 ttl ++ [0, 28, 1])) (post := ([192, 12, 1, 121, 192, 12] ++ (be32 1 ++ be32 1 ++ be32 1 ++ be32 1 ++ be32 1) ++ post)) (by rw [e0]; simp)
      (by simp [enc_len, be32, be16] <;> omega)
  have ly : Spec.LabelAt (memOf c) (12 + q.question.length + 16) [121] := by
    refine ⟨by simp, by simp, mem_pre (pre := h.enc ++ q.question ++ ([192, 12, 0, 6, 0, 1] ++ be32 ttl ++ [0, 28, 1, 122, 192, 12])) (post := 121 :: ([192, 12] ++ (be32 1 ++ be32 1 ++ be32 1 ++ be32 1 ++ be32 1) ++ post)) (by rw [e0]; simp)
      (by simp [enc_len, be32, be16] <;> omega), ?_⟩
    intro j hj
    have : j = 0 := by simpa using hj
    subst this
    exact mem_pre (pre := h.enc ++ q.question ++ ([192, 12, 0, 6, 0, 1] ++ be32 ttl ++ [0, 28, 1, 122, 192, 12, 1])) (post := ([192, 12] ++ (be32 1 ++ be32 1 ++ be32 1 ++ be32 1 ++ be32 1) ++ post)) (by rw [e0]; simp)
      (by simp [enc_len, be32, be16] <;> omega)
  refine ⟨12 + q.question.length + 2, 12 + q.question.length + 20, p1, p2, ?_, by omega, by omega, ?_, ?_, ?_, by simp [be32, be16]⟩
  · rw [show 12 + q.question.length + 40 - (12 + q.question.length + 2 + 10) = 28 by omega]
    exact bytesAt_pre (pre := h.enc ++ q.question ++ [192, 12]) (post := [1, 122, 192, 12, 1, 121, 192, 12] ++ (be32 1 ++ be32 1 ++ be32 1 ++ be32 1 ++ be32 1) ++ post)
      (by rw [e0]; simp [be16]) (by simp [enc_len] <;> omega)
  · intro j hj; simp at hj
  · exact .cons (e := 12 + q.question.length + 16) (.label lz n1) (.label lz n2) (.cons (e := 12 + q.question.length + 20) (.label ly m1) (.label ly m2) .nil)
  · exact bytesAt_pre (pre := h.enc ++ q.question ++ ([192, 12, 0, 6, 0, 1] ++ be32 ttl ++ [0, 28, 1, 122, 192, 12, 1, 121, 192, 12])) (post := post) (by rw [e0]; simp)
      (by simp [enc_len, be32, be16] <;> omega)

/-- The replies, without a byte too many, are whole messages. -/
theorem reply_is_message (b : Body) (hb : b.Ok) (q : Quest) (hq : q.Ok) (aa ra : Bool) : (b.message q aa ra).Is (b.reply q aa ra) := by
  have hf := message_front b q hq aa ra
  refine ⟨⟨b.record, by rw [hf]; rfl⟩, ?_⟩
  rw [hf, List.length_append, enc_len]
  have pl (ty ttl : Nat) (tail : List UInt8) (hl : tail.length < 65536)
      (hr : b.record = [192, 12] ++ be16 ty ++ be16 1 ++ be32 ttl ++ be16 tail.length ++ tail) :=
    plain_rec (c := b.reply q aa ra) (b.header q.header aa ra) q hq.labels ty ttl tail.length tail [] rfl hl
      (by unfold Body.reply; rw [hr]; simp)
  cases b with
  | fail =>
    simp only [Body.message, Msg.all, Body.answers, Body.reply, Body.record, List.append_nil, List.length_append, enc_len]
    exact .nil
  | a ip ttl =>
    have hi : ip.length = 4 := hb
    refine .cons (pl 1 ttl ip (by omega) (by rw [hi]; rfl)) ?_
    simp [Body.reply, Body.record, enc_len, be16, be32, hi]
    exact .nil
  | aaaa ip ttl =>
    have hi : ip.length = 16 := hb
    refine .cons (pl 28 ttl ip (by omega) (by rw [hi]; rfl)) ?_
    simp [Body.reply, Body.record, enc_len, be16, be32, hi]
    exact .nil
  | any =>
    refine .cons (pl 13 0 [7, 82, 70, 67, 56, 52, 56, 50, 0] (by decide) rfl) ?_
    simp [Body.reply, Body.record, enc_len, be16, be32]
    exact .nil
  | notThere ttl =>
    refine .cons (soa_rec (c := Body.reply (.notThere ttl) q aa ra) (Body.header q.header aa ra (.notThere ttl)) q hq.labels ttl [] (by simp [Body.reply])) ?_
    simp [Body.reply, Body.record, enc_len, be16, be32]
    exact .nil

theorem be16_of (n : Nat) (h : n < 65536) (a b : UInt8) (e : be16 n = [a, b]) : n = a.toNat * 256 + b.toNat := by
  unfold be16 at e
  have h1 := congrArg UInt8.toNat (List.cons.inj e).1
  have h2 := congrArg UInt8.toNat (List.cons.inj (List.cons.inj e).2).1
  rw [UInt8.toNat_ofNat'] at h1 h2
  omega

/-- Replies that say that there is nothing of the type, and those to questions for all there is, are no messages: after the record there is
a byte that belongs to nothing. -/
theorem special_is_no_message (b : Body) (hb : b.Special) (q : Quest) (hq : q.Ok) (aa ra : Bool) :
    ¬ ∃ m : Msg, m.head.length = 4 ∧ LabelsOk m.qname ∧ m.an.length < 65536 ∧ m.ns.length < 65536 ∧ m.ar.length < 65536 ∧
      (∀ r ∈ m.an, r.cls.length = 2) ∧ m.Is (sent b q aa ra) := by
  rintro ⟨m, hh, hl, ha, hn, hr, hcl, hi⟩
  -- the end of the record
  have key : ∃ r : Spec.Rec, r.cls.length = 2 ∧ RecIn (memOf (sent b q aa ra)) (12 + q.question.length) r (12 + q.question.length + b.record.length) := by
    cases b with
    | notThere ttl =>
      exact ⟨_, rfl, by
        simpa [Body.record, be16, be32] using
          soa_rec (c := sent (.notThere ttl) q aa ra) (Body.header q.header aa ra (.notThere ttl)) q hq.labels ttl [0] (by simp [sent, Body.reply, Body.Special])⟩
    | any =>
      exact ⟨_, rfl, by
        simpa [Body.record, be16, be32] using
          plain_rec (c := sent .any q aa ra) (Body.header q.header aa ra .any) q hq.labels 13 0 9 [7, 82, 70, 67, 56, 52, 56, 50, 0] [0] rfl (by decide)
            (by simp [sent, Body.reply, Body.Special, Body.record])⟩
    | fail => cases hb
    | a _ _ => cases hb
    | aaaa _ _ => cases hb
  obtain ⟨r, hcr, hrec⟩ := key
  have hs : sent b q aa ra = (b.header q.header aa ra).enc ++ (q.question ++ (b.record ++ [0])) := by
    simp [sent, Body.reply, hb]
  have hcnt : (b.header q.header aa ra).ancount = 1 ∧ (b.header q.header aa ra).nscount = 0 ∧ (b.header q.header aa ra).arcount = 0 := by
    cases b <;> first | exact ⟨rfl, hq.ns, rfl⟩ | cases hb
  obtain ⟨t, ht⟩ := hi.front
  rw [hs] at ht
  unfold Msg.header Msg.question at ht
  obtain ⟨x, y, z, w, hd⟩ : ∃ x y z w, m.head = [x, y, z, w] := by
    match h : m.head, hh with
    | [x, y, z, w], _ => exact ⟨x, y, z, w, rfl⟩
  rw [hd, enc_eq, hcnt.1, hcnt.2.1, hcnt.2.2] at ht
  simp only [show word 1 = [0, 1] from rfl, show word 0 = [0, 0] from rfl, word, List.cons_append, List.nil_append, List.append_assoc] at ht
  have han : be16 m.an.length = [0, 1] := by
    simp only [be16, List.cons_append, List.nil_append, List.cons.injEq] at ht ⊢
    exact ⟨ht.2.2.2.2.2.2.1, ht.2.2.2.2.2.2.2.1, trivial⟩
  have hns : be16 m.ns.length = [0, 0] := by
    simp only [be16, List.cons_append, List.nil_append, List.cons.injEq] at ht ⊢
    exact ⟨ht.2.2.2.2.2.2.2.2.1, ht.2.2.2.2.2.2.2.2.2.1, trivial⟩
  have har : be16 m.ar.length = [0, 0] := by
    simp only [be16, List.cons_append, List.nil_append, List.cons.injEq] at ht ⊢
    exact ⟨ht.2.2.2.2.2.2.2.2.2.2.1, ht.2.2.2.2.2.2.2.2.2.2.2.1, trivial⟩
  have hname : m.qname = q.name := by
    simp only [be16, List.cons_append, List.nil_append, List.cons.injEq, Quest.question, List.append_assoc] at ht
    exact (Mara.Big.encName_inj hl hq.labels ht.2.2.2.2.2.2.2.2.2.2.2.2).1
  have l1 := be16_of _ ha _ _ han
  have l2 := be16_of _ hn _ _ hns
  have l3 := be16_of _ hr _ _ har
  have e2 : m.ns = [] := List.eq_nil_of_length_eq_zero (by simpa using l2)
  have e3 : m.ar = [] := List.eq_nil_of_length_eq_zero (by simpa using l3)
  obtain ⟨r', e1⟩ : ∃ r', m.an = [r'] := List.length_eq_one_iff.mp (by simpa using l1)
  have hrecs := hi.recs
  rw [show m.all = [r'] by simp [Msg.all, e1, e2, e3]] at hrecs
  have hlen : (m.header ++ m.question).length = 12 + q.question.length := by
    simp [Msg.header, Msg.question, hd, be16, hname, question_len]; omega
  rw [hlen] at hrecs
  obtain ⟨e, he, hnil⟩ : ∃ e, RecIn (memOf (sent b q aa ra)) (12 + q.question.length) r' e ∧ e = (sent b q aa ra).length := by
    cases hrecs with
    | cons h1 h2 => cases h2 with | nil => exact ⟨_, h1, rfl⟩
  obtain ⟨a1, k1, _, p1, p2, p3, p4, _⟩ := he.at_
  obtain ⟨a2, k2, _, g1, g2, g3, g4, _⟩ := hrec.at_
  have ea := Mara.Comp.endsAt_unique p1 g1
  subst ea
  have hc' := hcl r' (by simp [e1])
  have eb := Mara.Comp.bytesAt_unique p2 g2 (by simp [hc', hcr, be16, be32])
  have ec := List.append_inj_right' eb (by simp [be16])
  have ed := Mara.Comp.be16_inj p3 g3 ec
  have hsl : (sent b q aa ra).length = 12 + q.question.length + b.record.length + 1 := by
    rw [hs]; simp [enc_len]; omega
  omega

end Co
