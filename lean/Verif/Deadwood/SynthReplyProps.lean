import Verif.Deadwood.SynthReplyLemmas
/-!
# C42: what made-up answers send
-/

namespace Dw
namespace SR
open Acl (rd wr)
open Spec

theorem refuse_cases (h : Header) (p : List UInt8) (len qtype : Nat) (hl : 12 ≤ len) (ha : len ≤ (h.enc ++ p).length)
    (hq : ¬ (qtype = 255 ∨ qtype = 13)) :
    (refuse (h.enc ++ p) len qtype = .err ∧ ¬ ∃ k, FirstZero (h.enc ++ p) 12 k ∧ k + 5 ≤ len ∧ k ≤ 512) ∨
    (∃ k, FirstZero (h.enc ++ p) 12 k ∧ k + 5 ≤ len ∧ k ≤ 512 ∧
      refuse (h.enc ++ p) len qtype = .ok ((h.refusal.enc ++ p.take (k + 5 - 12) ++ soaNone).map some)) := by
  have h12 := enc_length h
  unfold refuse
  simp only [if_neg hq]
  rcases makeSynth_cases (h.enc ++ p) len notThere ha hl with ⟨h1, h2⟩ | ⟨k, h1, h2, h3, h4⟩
  · exact Or.inl ⟨by rw [h1]; rfl, h2⟩
  · refine Or.inr ⟨k, h1, h2, h3, ?_⟩
    have hk := h1.1
    rw [h4]
    simp only [Res.ok_bind]
    have e : (h.enc ++ p).take (k + 5) = h.enc ++ p.take (k + 5 - 12) := by
      rw [List.take_append, List.take_of_length_le (by omega), h12]
    rw [e, List.append_assoc, finish_exact]
    simp only [Res.ok_bind]
    have hlen : (h.refusal.enc ++ (p.take (k + 5 - 12) ++ notThere)).length = k + 5 + 40 := by
      rw [List.length_append, enc_length, List.length_append, List.length_take]
      rw [List.length_append, h12] at ha
      have : notThere.length = 40 := rfl
      omega
    rw [send, if_pos (by simp only [List.length_append, List.length_map, ← hlen]; omega),
      List.take_append_of_le_length (by rw [List.length_map, hlen]; exact Nat.le_refl _),
      List.take_of_length_le (by rw [List.length_map, hlen]; exact Nat.le_refl _), notThere_soa, List.append_assoc]

/-- **C42.** A query that is refused is answered with its own header (QR and RA set, one
authority record), its own question, and the SOA record; every byte of the answer was
written.  `extra` is whatever follows the question in the packet, `junk` what the array
holds after the packet. -/
theorem refuse_exact (h : Header) {ls : List (List UInt8)} (hok : LabelsOk ls) (hc : NoCtl ls)
    (hlen : (encName ls).length ≤ 256) (t0 t1 c0 c1 : UInt8) (extra junk : List UInt8) (qtype : Nat)
    (hq : ¬ (qtype = 255 ∨ qtype = 13)) :
    refuse (h.enc ++ (encName ls ++ ([t0, t1, c0, c1] ++ (extra ++ junk))))
        (12 + (encName ls).length + 4 + extra.length) qtype =
      .ok ((h.refusal.enc ++ encName ls ++ [t0, t1, c0, c1] ++ soaNone).map some) := by
  have fz := firstZero_name h hok hc ([t0, t1, c0, c1] ++ (extra ++ junk))
  have hn : (encName ls).length = (encLabels ls).length + 1 := by simp [encName]
  have hl := enc_length h
  rcases refuse_cases h (encName ls ++ ([t0, t1, c0, c1] ++ (extra ++ junk)))
    (12 + (encName ls).length + 4 + extra.length) qtype (by omega)
    (by simp only [List.length_append, List.length_cons, List.length_nil, hl]; omega) hq with ⟨-, g⟩ | ⟨k, g1, -, -, g4⟩
  · exact absurd ⟨_, fz, by omega, by omega⟩ g
  · rw [g4, g1.unique fz]
    have e : 12 + (encLabels ls).length + 5 - 12 = (encName ls ++ [t0, t1, c0, c1]).length := by simp [hn]; omega
    rw [e, ← List.append_assoc (encName ls), List.take_left', ← List.append_assoc]
    rfl

/-- The question `a. AAAA IN` refused: nothing follows the question. -/
example : refuse ([1, 2, 1, 0, 0, 1, 0, 0, 0, 0, 0, 0] ++ [1, 97, 0, 0, 28, 0, 1]) 19 28 =
    .ok (([1, 2, 0x81, 0x80, 0, 1, 0, 0, 0, 1, 0, 0] ++ [1, 97, 0, 0, 28, 0, 1] ++ soaNone).map some) := by decide +kernel

theorem refuse_any_cases (h : Header) (p : List UInt8) (len qtype k : Nat) (ha : len ≤ (h.enc ++ p).length)
    (hq : qtype = 255 ∨ qtype = 13) (h1 : FirstZero (h.enc ++ p) 12 k) (h2 : k + 5 ≤ len) (h3 : k ≤ 512) :
    refuse (h.enc ++ p) len qtype =
      if len - (k + 5) < 16 then .ub
      else .ok ((h.refusal.enc ++ p.take (k + 5 - 12) ++ anyAnswer).map some ++ List.replicate 19 none) := by
  have h12 := enc_length h
  have hk := h1.1
  unfold refuse
  simp only [if_pos hq]
  rcases makeSynth_cases (h.enc ++ p) len anyAnswer ha (by omega) with ⟨-, g⟩ | ⟨k', g1, g2, g3, g4⟩
  · exact absurd ⟨k, h1, h2, h3⟩ g
  · rw [g1.unique h1] at g4
    rw [g4]
    simp only [Res.ok_bind]
    have e : (h.enc ++ p).take (k + 5) = h.enc ++ p.take (k + 5 - 12) := by
      rw [List.take_append, List.take_of_length_le (by omega), h12]
    rw [e, List.append_assoc, finish_exact]
    simp only [Res.ok_bind]
    have hlen : (h.refusal.enc ++ (p.take (k + 5 - 12) ++ anyAnswer)).length = k + 5 + 21 := by
      rw [List.length_append, enc_length, List.length_append, List.length_take]
      rw [List.length_append, h12] at ha
      have : anyAnswer.length = 21 := rfl
      omega
    rw [send]
    by_cases hs : len - (k + 5) < 16
    · rw [if_neg (by simp only [List.length_append, List.length_map, List.length_replicate] at hlen ⊢; omega), if_pos hs]
    · rw [if_pos (by simp only [List.length_append, List.length_map, List.length_replicate] at hlen ⊢; omega), if_neg hs,
        List.take_append, List.take_of_length_le (by rw [List.length_map, hlen]; omega), List.length_map, hlen,
        List.take_replicate, List.append_assoc, Nat.min_eq_left (by omega)]
      congr 3
      omega

/-- C42 fails for ANY and HINFO questions: when fewer than 16 bytes follow the question
(always, unless the packet has junk at its end), the answer is sent with a length that
passes the end of the memory block. -/
theorem any_reply_overreads (h : Header) {ls : List (List UInt8)} (hok : LabelsOk ls) (hc : NoCtl ls)
    (hlen : (encName ls).length ≤ 256) (t0 t1 c0 c1 : UInt8) (extra junk : List UInt8) (he : extra.length < 16) (qtype : Nat)
    (hq : qtype = 255 ∨ qtype = 13) :
    refuse (h.enc ++ (encName ls ++ ([t0, t1, c0, c1] ++ (extra ++ junk))))
        (12 + (encName ls).length + 4 + extra.length) qtype = .ub := by
  have fz := firstZero_name h hok hc ([t0, t1, c0, c1] ++ (extra ++ junk))
  have hn : (encName ls).length = (encLabels ls).length + 1 := by simp [encName]
  have hl := enc_length h
  rw [refuse_any_cases h _ _ qtype _
    (by simp only [List.length_append, List.length_cons, List.length_nil, hl]; omega) hq fz (by omega) (by omega),
    if_pos (by omega)]

/-- C42 fails for ANY and HINFO questions also with a long tail: then 19 bytes that were
never written are sent. -/
theorem any_reply_uninitialised (h : Header) {ls : List (List UInt8)} (hok : LabelsOk ls) (hc : NoCtl ls)
    (hlen : (encName ls).length ≤ 256) (t0 t1 c0 c1 : UInt8) (extra junk : List UInt8) (he : 16 ≤ extra.length) (qtype : Nat)
    (hq : qtype = 255 ∨ qtype = 13) :
    refuse (h.enc ++ (encName ls ++ ([t0, t1, c0, c1] ++ (extra ++ junk))))
        (12 + (encName ls).length + 4 + extra.length) qtype =
      .ok ((h.refusal.enc ++ encName ls ++ [t0, t1, c0, c1] ++ anyAnswer).map some ++ List.replicate 19 none) := by
  have fz := firstZero_name h hok hc ([t0, t1, c0, c1] ++ (extra ++ junk))
  have hn : (encName ls).length = (encLabels ls).length + 1 := by simp [encName]
  have hl := enc_length h
  rw [refuse_any_cases h _ _ qtype _
    (by simp only [List.length_append, List.length_cons, List.length_nil, hl]; omega) hq fz (by omega) (by omega),
    if_neg (by omega)]
  have e : 12 + (encLabels ls).length + 5 - 12 = (encName ls ++ [t0, t1, c0, c1]).length := by simp [hn]; omega
  rw [e, ← List.append_assoc (encName ls), List.take_left', ← List.append_assoc]
  rfl

/-- `a. ANY IN` with nothing after it. -/
example : refuse ([1, 2, 1, 0, 0, 1, 0, 0, 0, 0, 0, 0] ++ [1, 97, 0, 0, 255, 0, 1]) 19 255 = .ub := by decide +kernel

/-! ## The whole way from a client's packet -/

/-- Is a question of this type, with this verdict of the block file, refused? -/
def Refuses (c : Cfg) (qtype : Nat) (inFile : Bool) : Prop :=
  (qtype = 28 ∧ c.rejectAaaa = true) ∨ (qtype = 12 ∧ c.rejectPtr = true) ∨
    ((qtype = 255 ∨ qtype = 13) ∧ c.rfc8482 = true) ∨ inFile = true

instance (c : Cfg) (q : Nat) (b : Bool) : Decidable (Refuses c q b) := by unfold Refuses; infer_instance

theorem ask_eq (c : Cfg) (packet : List UInt8) (len : Nat) {ls : List (List UInt8)} {t0 t1 : UInt8}
    (hg : Dw.getDnameType packet 12 len = .ok (encName ls ++ [t0, t1])) {b : Bool}
    (hb : c.blocked (encName ls ++ [t0, t1]) = .ok b) :
    ask c packet len =
      if Refuses c (t0.toNat * 256 + t1.toNat) b then
        fateOf (refuse packet len (t0.toNat * 256 + t1.toNat))
      else .ok (.lookup (encName ls ++ [t0, t1]) packet len) := by
  unfold ask
  rw [hg]
  simp only
  have e : (encName ls ++ [t0, t1]).length = (encName ls).length + 2 := by simp
  have r0 : rd (encName ls ++ [t0, t1]) ((encName ls ++ [t0, t1]).length - 2) = .ok t0 := by
    rw [rd_ok (by omega)]; simp
  have r1 : rd (encName ls ++ [t0, t1]) ((encName ls ++ [t0, t1]).length - 1) = .ok t1 := by
    rw [rd_ok (by omega)]; simp
  rw [r0, r1]
  simp only [Res.ok_bind]
  rw [hb]
  simp only [Res.ok_bind]
  by_cases hr : Refuses c (t0.toNat * 256 + t1.toNat) b
  · rw [if_pos hr]
    exact if_pos hr
  · rw [if_neg hr]
    exact if_neg hr

theorem encName_inj {a b : List (List UInt8)} (ha : LabelsOk a) (hb : LabelsOk b) {r s : List UInt8}
    (h : encName a ++ r = encName b ++ s) : a = b := by
  induction a generalizing b with
  | nil =>
    match b, hb with
    | [], _ => rfl
    | l :: b, hb =>
      rw [encName_cons] at h
      simp only [encName, encLabels, List.flatMap_nil, List.nil_append, List.cons_append, List.cons.injEq] at h
      exact absurd h.1.symm (ofLen_ne hb.head.1 hb.head.2)
  | cons l a ih =>
    match b, hb with
    | [], _ =>
      rw [encName_cons] at h
      simp only [encName, encLabels, List.flatMap_nil, List.nil_append, List.cons_append, List.cons.injEq] at h
      exact absurd h.1 (ofLen_ne ha.head.1 ha.head.2)
    | m :: b, hb =>
      rw [encName_cons, encName_cons] at h
      simp only [List.cons_append, List.cons.injEq, List.append_assoc] at h
      have hl : l.length = m.length := by
        have e := congrArg UInt8.toNat h.1
        rw [UInt8.toNat_ofNat', UInt8.toNat_ofNat'] at e
        have := ha.head.2
        have := hb.head.2
        omega
      obtain ⟨e1, e2⟩ := List.append_inj h.2 hl
      rw [e1, ih ha.tail hb.tail e2]

/-- The question of a well-formed query is found. -/
theorem question_found (h : Header) {ls : List (List UInt8)} (hok : LabelsOk ls) (hc : NoCtl ls)
    (hlen : (encName ls).length ≤ 256) (t0 t1 : UInt8) (ht : ¬ (t0 = 0xff ∧ 0x70 ≤ t1.toNat ∧ t1.toNat ≤ 0x7f))
    (rest : List UInt8) (len : Nat) (h1 : 12 + (encName ls).length + 2 ≤ len)
    (h2 : len ≤ (h.enc ++ (encName ls ++ ([t0, t1] ++ rest))).length) (h3 : len < 134217728) :
    Dw.getDnameType (h.enc ++ (encName ls ++ ([t0, t1] ++ rest))) 12 len = .ok (encName ls ++ [t0, t1]) := by
  have hd : (h.enc ++ (encName ls ++ ([t0, t1] ++ rest))).drop 12 = encName ls ++ t0 :: t1 :: rest := by
    rw [List.drop_append, List.drop_of_length_le (by rw [enc_length]; omega), enc_length]; rfl
  rcases getDnameType_exact _ 12 len h2 h3 with ⟨ls', u0, u1, r, g1, g2, -, g4⟩ | ⟨-, g⟩
  · rw [g4]
    have e := g2.symm.trans hd
    have hn : ls' = ls := encName_inj g1.2.1 hok e
    subst hn
    have := List.append_cancel_left e
    simp only [List.cons.injEq] at this
    rw [this.1, this.2.1]
  · exact absurd ⟨ls, t0, t1, rest, ⟨⟨_, hd⟩, hok, hc, hlen, h1⟩, hd, ht⟩ g

/-- The header without the additional record. -/
def bare (h : Header) : Header := { h with arcount := 0 }

theorem wr_11 (h : Header) (p : List UInt8) (ha : h.arcount.val ≤ 1) :
    wr (h.enc ++ p) 11 0 = .ok ((bare h).enc ++ p) := by
  have e : UInt8.ofNat (h.arcount.val / 256) = 0 := by
    have : h.arcount.val / 256 = 0 := by omega
    rw [this]; rfl
  simp [wr, Header.enc, word, bare, e]

theorem bare_query {h : Header} (hq : h.Query) : (bare h).Query := by
  obtain ⟨q1, q2, q3, q4, q5, q6, q7, q8, q9⟩ := hq
  exact ⟨q1, q2, q3, q4, q5, q6, q7, q8, by simp [bare]⟩

/-- A well-formed query is looked at with everything after its question taken away when
it has an additional record. -/
theorem getLocal_ask (c : Cfg) {h : Header} (hq : h.Query) {ls : List (List UInt8)} (hok : LabelsOk ls) (hc : NoCtl ls)
    (hlen : (encName ls).length ≤ 256) (t0 t1 : UInt8) (ht : ¬ (t0 = 0xff ∧ 0x70 ≤ t1.toNat ∧ t1.toNat ≤ 0x7f))
    (rest : List UInt8) (len : Nat) (h1 : 12 + (encName ls).length + 2 ≤ len)
    (h2 : len ≤ (h.enc ++ (encName ls ++ ([t0, t1] ++ rest))).length) (h3 : len < 134217728) :
    getLocal c (h.enc ++ (encName ls ++ ([t0, t1] ++ rest))) len =
      ask c ((bare h).enc ++ (encName ls ++ ([t0, t1] ++ rest)))
        (if h.arcount.val = 0 then len else 12 + (encName ls).length + 4) := by
  have hne : 1 ≤ (encName ls).length := by simp [encName]
  unfold getLocal
  rw [if_neg (by omega), Hdr.getDnsQid_client h _ len (by omega)]
  have hq' := hq
  unfold Header.Query at hq'
  rw [if_pos hq']
  simp only [Res.ok_bind]
  by_cases ha : h.arcount.val = 0
  · have hb : bare h = h := by
      have : h.arcount = 0 := Fin.ext ha
      cases h; simp only [bare]; simp only at this; rw [this]
    rw [if_pos ha, if_pos ha, hb, if_neg (by omega), if_neg (by omega)]
  · rw [if_neg ha, if_neg ha, if_pos rfl, question_found h hok hc hlen t0 t1 ht rest len h1 h2 h3]
    simp only
    rw [wr_11 h _ hq.2.2.2.2.2.2.2.2]
    simp only [Res.ok_bind]
    have e : (encName ls ++ [t0, t1]).length + 14 = 12 + (encName ls).length + 4 := by simp; omega
    have hb := bare_query hq
    unfold Header.Query at hb
    rw [e, Hdr.getDnsQid_client (bare h) _ _ (by omega), if_pos hb]
    simp only [Res.ok_bind]
    rw [if_pos (show (bare h).arcount.val = 0 from rfl), if_neg (by omega)]

theorem refusal_bare (h : Header) : (bare h).refusal = h.refusal := rfl

/-- **C42.** What a client gets back for a well-formed query of a type other than ANY and
HINFO, for every setting of the parameters and every verdict `b` of the block file: a
refused query is answered at once with its own question and the SOA record, all bytes
written, whatever follows the question in the packet or in memory; any other query is
looked up with an unchanged question. -/
theorem getLocal_exact (c : Cfg) {h : Header} (hq : h.Query) {ls : List (List UInt8)} (hok : LabelsOk ls) (hc : NoCtl ls)
    (hlen : (encName ls).length ≤ 256) (t0 t1 c0 c1 : UInt8) (ht : ¬ (t0 = 0xff ∧ 0x70 ≤ t1.toNat ∧ t1.toNat ≤ 0x7f))
    (extra junk : List UInt8) (hx : extra.length ≤ 1000) (b : Bool) (hb : c.blocked (encName ls ++ [t0, t1]) = .ok b)
    (hany : ¬ (t0.toNat * 256 + t1.toNat = 255 ∨ t0.toNat * 256 + t1.toNat = 13)) :
    getLocal c (h.enc ++ (encName ls ++ ([t0, t1, c0, c1] ++ (extra ++ junk)))) (12 + (encName ls).length + 4 + extra.length) =
      .ok (if Refuses c (t0.toNat * 256 + t1.toNat) b then
        .reply ((h.refusal.enc ++ encName ls ++ [t0, t1, c0, c1] ++ soaNone).map some)
      else
        .lookup (encName ls ++ [t0, t1]) ((bare h).enc ++ (encName ls ++ ([t0, t1, c0, c1] ++ (extra ++ junk))))
          (12 + (encName ls).length + 4 + (if h.arcount.val = 0 then extra.length else 0))) := by
  have hl := enc_length h
  have hl' := enc_length (bare h)
  have hne : 1 ≤ (encName ls).length := by simp [encName]
  have key := getLocal_ask c hq hok hc hlen t0 t1 ht ([c0, c1] ++ (extra ++ junk))
    (12 + (encName ls).length + 4 + extra.length) (by omega)
    (by simp only [List.length_append, List.length_cons, List.length_nil, hl]; omega) (by omega)
  have e : ∀ x : List UInt8, [t0, t1] ++ ([c0, c1] ++ x) = [t0, t1, c0, c1] ++ x := fun _ => rfl
  have e2 : (if h.arcount.val = 0 then 12 + (encName ls).length + 4 + extra.length else 12 + (encName ls).length + 4) =
      12 + (encName ls).length + 4 + (if h.arcount.val = 0 then extra.length else 0) := by split <;> rfl
  rw [e2] at key
  generalize hm : (if h.arcount.val = 0 then extra.length else 0) = m at key ⊢
  have hmle : m ≤ extra.length := by rw [← hm]; split <;> omega
  have hf := question_found (bare h) hok hc hlen t0 t1 ht ([c0, c1] ++ (extra ++ junk)) (12 + (encName ls).length + 4 + m)
    (by omega) (by simp only [List.length_append, List.length_cons, List.length_nil, hl']; omega) (by omega)
  rw [e] at key hf
  rw [key, ask_eq c _ _ hf hb]
  by_cases hr : Refuses c (t0.toNat * 256 + t1.toNat) b
  · rw [if_pos hr, if_pos hr]
    have := refuse_exact (bare h) hok hc hlen t0 t1 c0 c1 (extra.take m) (extra.drop m ++ junk) _ hany
    rw [List.length_take, Nat.min_eq_left hmle, ← List.append_assoc (extra.take m), List.take_append_drop] at this
    rw [this, refusal_bare]
    rfl
  · rw [if_neg hr, if_neg hr]

/-- `a. AAAA` with AAAA questions refused and an EDNS record at the end. -/
example : getLocal ⟨true, false, true, fun _ => .ok false⟩
    (([1, 2, 1, 0, 0, 1, 0, 0, 0, 0, 0, 1] ++ [1, 97, 0, 0, 28, 0, 1] ++ [0, 0, 41, 4, 0, 0, 0, 0, 0, 0, 0]) ++ [7, 7]) 30 =
    .ok (.reply (([1, 2, 0x81, 0x80, 0, 1, 0, 0, 0, 1, 0, 0] ++ [1, 97, 0, 0, 28, 0, 1] ++ soaNone).map some)) := by
  decide +kernel

/-- C42, the negation for ANY and HINFO questions (refused by default): an ordinary query,
with or without EDNS, makes Deadwood send memory from beyond the end of a heap block. -/
theorem getLocal_any_overreads (c : Cfg) {h : Header} (hq : h.Query) {ls : List (List UInt8)} (hok : LabelsOk ls) (hc : NoCtl ls)
    (hlen : (encName ls).length ≤ 256) (t0 t1 c0 c1 : UInt8) (ht : ¬ (t0 = 0xff ∧ 0x70 ≤ t1.toNat ∧ t1.toNat ≤ 0x7f))
    (extra junk : List UInt8) (hx : extra.length ≤ 1000) (b : Bool) (hb : c.blocked (encName ls ++ [t0, t1]) = .ok b)
    (hany : t0.toNat * 256 + t1.toNat = 255 ∨ t0.toNat * 256 + t1.toNat = 13) (hr : Refuses c (t0.toNat * 256 + t1.toNat) b)
    (hs : h.arcount.val = 1 ∨ extra.length < 16) :
    getLocal c (h.enc ++ (encName ls ++ ([t0, t1, c0, c1] ++ (extra ++ junk)))) (12 + (encName ls).length + 4 + extra.length) = .ub := by
  have hl := enc_length h
  have hl' := enc_length (bare h)
  have hne : 1 ≤ (encName ls).length := by simp [encName]
  have key := getLocal_ask c hq hok hc hlen t0 t1 ht ([c0, c1] ++ (extra ++ junk))
    (12 + (encName ls).length + 4 + extra.length) (by omega)
    (by simp only [List.length_append, List.length_cons, List.length_nil, hl]; omega) (by omega)
  have e : ∀ x : List UInt8, [t0, t1] ++ ([c0, c1] ++ x) = [t0, t1, c0, c1] ++ x := fun _ => rfl
  have e2 : (if h.arcount.val = 0 then 12 + (encName ls).length + 4 + extra.length else 12 + (encName ls).length + 4) =
      12 + (encName ls).length + 4 + (if h.arcount.val = 0 then extra.length else 0) := by split <;> rfl
  rw [e2] at key
  have hm16 : (if h.arcount.val = 0 then extra.length else 0) < 16 := by split <;> omega
  generalize hm : (if h.arcount.val = 0 then extra.length else 0) = m at key hm16
  have hmle : m ≤ extra.length := by rw [← hm]; split <;> omega
  have hf := question_found (bare h) hok hc hlen t0 t1 ht ([c0, c1] ++ (extra ++ junk)) (12 + (encName ls).length + 4 + m)
    (by omega) (by simp only [List.length_append, List.length_cons, List.length_nil, hl']; omega) (by omega)
  rw [e] at key hf
  rw [key, ask_eq c _ _ hf hb, if_pos hr]
  have := any_reply_overreads (bare h) hok hc hlen t0 t1 c0 c1 (extra.take m) (extra.drop m ++ junk)
    (by rw [List.length_take, Nat.min_eq_left hmle]; exact hm16) _ hany
  rw [List.length_take, Nat.min_eq_left hmle, ← List.append_assoc (extra.take m), List.take_append_drop] at this
  rw [this]
  rfl

/-- `a. ANY IN`, with the default parameters. -/
example : getLocal ⟨false, false, true, fun _ => .ok false⟩
    ([1, 2, 1, 0, 0, 1, 0, 0, 0, 0, 0, 0] ++ [1, 97, 0, 0, 255, 0, 1] ++ List.replicate 20 0) 19 = .ub := by decide +kernel

/-- C42 for every packet whatsoever whose question is not of type ANY or HINFO: nothing
outside the array or the block is touched, and every byte sent was written.  The array
is two bytes longer than the longest packet. -/
theorem getLocal_safe_partial (c : Cfg) (packet : List UInt8) (len : Nat) (hl : len + 2 ≤ packet.length) (hlen : len ≤ 520)
    (hb : ∀ q, ∃ b, c.blocked q = .ok b)
    (hany : ∀ q t0 t1, Dw.getDnameType packet 12 len = .ok (q ++ [t0, t1]) →
      ¬ (t0.toNat * 256 + t1.toNat = 255 ∨ t0.toNat * 256 + t1.toNat = 13)) :
    ∃ fate, getLocal c packet len = .ok fate ∧ ∀ cells, fate = .reply cells → ∀ x ∈ cells, x ≠ none := by
  by_cases h12 : len < 12
  · exact ⟨.drop, by rw [getLocal, if_pos h12], by simp⟩
  obtain ⟨h, p, hp⟩ := Hdr.header_of_bytes packet (by omega)
  by_cases hq : h.Query
  · rcases getDnameType_exact packet 12 len (by omega) (by omega) with ⟨ls, t0, t1, rest, g1, g2, g3, g4⟩ | ⟨g1, -⟩
    · have hty := hany _ _ _ g4
      have hd : p = encName ls ++ ([t0, t1] ++ rest) := by
        have : packet.drop 12 = p := by
          rw [hp, List.drop_append, List.drop_of_length_le (by rw [enc_length]; omega), enc_length]; rfl
        rw [← this, g2]; rfl
      subst hd
      subst hp
      obtain ⟨-, hok, hc, h256, hin⟩ := g1
      rw [getLocal_ask c hq hok hc h256 t0 t1 g3 rest len hin (by omega) (by omega)]
      have hl' : ((bare h).enc ++ (encName ls ++ ([t0, t1] ++ rest))).length =
          (h.enc ++ (encName ls ++ ([t0, t1] ++ rest))).length := by
        simp only [List.length_append, enc_length]
      generalize hm : (if h.arcount.val = 0 then len else 12 + (encName ls).length + 4) = m
      have hm1 : m ≤ len + 2 := by rw [← hm]; split <;> omega
      have hm2 : 12 + (encName ls).length + 2 ≤ m := by rw [← hm]; split <;> omega
      obtain ⟨b, hb⟩ := hb (encName ls ++ [t0, t1])
      rw [ask_eq c _ _ (question_found (bare h) hok hc h256 t0 t1 g3 rest m hm2 (by omega) (by omega)) hb]
      by_cases hr : Refuses c (t0.toNat * 256 + t1.toNat) b
      · rw [if_pos hr]
        rcases refuse_cases (bare h) (encName ls ++ ([t0, t1] ++ rest)) m _ (by omega) (by omega) hty with
          ⟨g, -⟩ | ⟨k, -, -, -, g⟩
        · exact ⟨.drop, by rw [g]; rfl, by simp⟩
        · refine ⟨_, by rw [g]; rfl, fun cells hcells x hx => ?_⟩
          cases hcells
          obtain ⟨y, -, rfl⟩ := List.mem_map.1 hx
          simp
      · exact ⟨_, by rw [if_neg hr], by simp⟩
    · refine ⟨.drop, ?_, by simp⟩
      unfold getLocal
      rw [if_neg h12]
      rw [hp, Hdr.getDnsQid_client h p len (by omega), ← hp]
      unfold Header.Query at hq
      rw [if_pos hq]
      simp only [Res.ok_bind]
      rw [g1]
      by_cases ha : h.arcount.val = 0
      · rw [if_pos ha, if_neg (by omega)]
        split
        · rfl
        · simp only [ask, g1]
      · rw [if_neg ha, if_pos rfl]
  · refine ⟨.drop, ?_, by simp⟩
    unfold getLocal
    rw [if_neg h12]
    rw [hp, Hdr.getDnsQid_client h p len (by omega)]
    unfold Header.Query at hq
    rw [if_neg hq]
    simp only [Res.ok_bind]
    rw [if_neg (by decide), if_pos (by left; decide)]

/-- C42, what the theorem above leaves open: the bytes sent were written, but not always
by this packet.  A packet that announces an additional record and ends right after the
type has its length raised past its end, and the two bytes the array happens to hold
there (left from an earlier packet) are sent to the client as the class. -/
theorem edns_without_class_leaks :
    ∃ (c : Cfg) (received : List UInt8), ∀ x y z w : UInt8,
      getLocal c (received ++ [x, y, z, w]) received.length =
        .ok (.reply (([1, 2, 0x81, 0x80, 0, 1, 0, 0, 0, 1, 0, 0] ++ [1, 97, 0, 0, 28, x, y] ++ soaNone).map some)) := by
  refine ⟨⟨true, false, true, fun _ => .ok false⟩, [1, 2, 1, 0, 0, 1, 0, 0, 0, 0, 0, 1] ++ [1, 97, 0, 0, 28], fun x y z w => ?_⟩
  have hh : ([1, 2, 1, 0, 0, 1, 0, 0, 0, 0, 0, 1] : List UInt8) =
      (⟨258, false, 0, false, false, true, false, false, false, false, 0, 1, 0, 0, 1⟩ : Header).enc := by decide +kernel
  have hn : ([1, 97, 0, 0, 28] : List UInt8) = encName [[97]] ++ [0, 28] := by decide +kernel
  have hq : (⟨258, false, 0, false, false, true, false, false, false, false, 0, 1, 0, 0, 1⟩ : Header).Query := by
    refine ⟨rfl, rfl, rfl, rfl, rfl, rfl, rfl, rfl, by decide⟩
  have hok : LabelsOk [[97]] := by simp [LabelsOk]
  have hc : NoCtl [[97]] := by simp [NoCtl]
  rw [hh, hn]
  have e : ∀ h : List UInt8, h ++ (encName [[97]] ++ [0, 28]) ++ [x, y, z, w] =
      h ++ (encName [[97]] ++ ([0, 28] ++ ([x, y, z, w]))) := by intro h; simp
  rw [e]
  have e1 := getLocal_ask ⟨true, false, true, fun _ => .ok false⟩ hq hok hc (by decide) 0 28 (by decide) [x, y, z, w] 17
    (by decide) (by simp [enc_length, encName, encLabels]) (by decide)
  have e0 : ((⟨258, false, 0, false, false, true, false, false, false, false, 0, 1, 0, 0, 1⟩ : Header).enc ++
    (encName [[97]] ++ [0, 28])).length = 17 := by decide +kernel
  rw [e0, e1]
  have hf := question_found (bare ⟨258, false, 0, false, false, true, false, false, false, false, 0, 1, 0, 0, 1⟩) hok hc
    (by decide) 0 28 (by decide) [x, y, z, w] 19 (by decide) (by simp [enc_length, encName, encLabels]) (by decide)
  have hi : (if (⟨258, false, 0, false, false, true, false, false, false, false, 0, 1, 0, 0, 1⟩ : Header).arcount.val = 0
    then 17 else 12 + (encName [[97]]).length + 4) = 19 := by decide
  rw [hi, ask_eq _ _ _ hf rfl, if_pos (by decide)]
  have := refuse_exact (bare ⟨258, false, 0, false, false, true, false, false, false, false, 0, 1, 0, 0, 1⟩) hok hc
    (by decide) 0 28 x y [] [z, w] 28 (by decide)
  have e3 : 12 + (encName [[97]]).length + 4 + ([] : List UInt8).length = 19 := by decide
  rw [e3] at this
  have e4 : (0 : UInt8).toNat * 256 + (28 : UInt8).toNat = 28 := by decide
  rw [e4]
  have e5 : ([0, 28] ++ [x, y, z, w] : List UInt8) = [0, 28, x, y] ++ ([] ++ [z, w]) := rfl
  rw [e5, this]
  rfl

/-! ## Names on the block list in the cache -/

theorem blocklist_cases (h : Header) (p : List UInt8) (len : Nat) (hl : 12 ≤ len) (ha : len ≤ (h.enc ++ p).length) :
    (blocklist (h.enc ++ p) len = .ub ∧ ¬ ∃ k, FirstZero (h.enc ++ p) 12 k ∧ k + 5 ≤ len ∧ k ≤ 512) ∨
    (∃ k, FirstZero (h.enc ++ p) 12 k ∧ k + 5 ≤ len ∧ k ≤ 512 ∧
      blocklist (h.enc ++ p) len = .ok ((h.refusal.enc ++ p.take (k + 5 - 12) ++ soaNone).map some)) := by
  have key : (makeSynth (h.enc ++ p) len false notThere = .err → blocklist (h.enc ++ p) len = .ub) ∧
      (∀ r, makeSynth (h.enc ++ p) len false notThere = .ok r → blocklist (h.enc ++ p) len = refuse (h.enc ++ p) len 0) := by
    constructor
    · intro e; rw [blocklist, e]
    · rintro ⟨b, n⟩ e
      unfold refuse
      simp only [blocklist, e, show ¬ ((0 : Nat) = 255 ∨ (0 : Nat) = 13) from by decide, if_false, Res.ok_bind]
  rcases refuse_cases h p len 0 hl ha (by decide) with ⟨g1, g2⟩ | ⟨k, g1, g2, g3, g4⟩
  · left
    refine ⟨key.1 ?_, g2⟩
    rcases makeSynth_cases (h.enc ++ p) len notThere ha hl with ⟨e, -⟩ | ⟨k, e1, e2, e3, -⟩
    · exact e
    · exact absurd ⟨k, e1, e2, e3⟩ g2
  · right
    refine ⟨k, g1, g2, g3, ?_⟩
    rcases makeSynth_cases (h.enc ++ p) len notThere ha hl with ⟨-, e⟩ | ⟨k', -, -, -, e⟩
    · exact absurd ⟨k, g1, g2, g3⟩ e
    · rw [key.2 _ e, g4]

/-- C42.  A query for a name on the block list is answered like a refused one. -/
theorem blocklist_exact (h : Header) {ls : List (List UInt8)} (hok : LabelsOk ls) (hc : NoCtl ls)
    (hlen : (encName ls).length ≤ 256) (t0 t1 c0 c1 : UInt8) (extra junk : List UInt8) :
    blocklist (h.enc ++ (encName ls ++ ([t0, t1, c0, c1] ++ (extra ++ junk)))) (12 + (encName ls).length + 4 + extra.length) =
      .ok ((h.refusal.enc ++ encName ls ++ [t0, t1, c0, c1] ++ soaNone).map some) := by
  have hn : (encName ls).length = (encLabels ls).length + 1 := by simp [encName]
  rcases blocklist_cases h (encName ls ++ ([t0, t1, c0, c1] ++ (extra ++ junk))) (12 + (encName ls).length + 4 + extra.length)
    (by omega) (by simp only [List.length_append, List.length_cons, List.length_nil, enc_length]; omega) with
    ⟨-, g⟩ | ⟨k, g1, -, -, g4⟩
  · exact absurd ⟨_, firstZero_name h hok hc _, by omega, by omega⟩ g
  · rw [g4, g1.unique (firstZero_name h hok hc _)]
    have e : 12 + (encLabels ls).length + 5 - 12 = (encName ls ++ [t0, t1, c0, c1]).length := by simp [hn]; omega
    rw [e, ← List.append_assoc (encName ls), List.take_left', ← List.append_assoc]
    rfl

/-- ... except that a query that ends before its class makes Deadwood use a null pointer.
Such a query is not stopped before (`question_found` needs no class). -/
theorem blocklist_null_pointer (h : Header) {ls : List (List UInt8)} (hok : LabelsOk ls) (hc : NoCtl ls)
    (t0 t1 : UInt8) (extra junk : List UInt8) (hx : extra.length < 2) :
    blocklist (h.enc ++ (encName ls ++ ([t0, t1] ++ (extra ++ junk)))) (12 + (encName ls).length + 2 + extra.length) = .ub := by
  have hn : (encName ls).length = (encLabels ls).length + 1 := by simp [encName]
  rcases blocklist_cases h (encName ls ++ ([t0, t1] ++ (extra ++ junk))) (12 + (encName ls).length + 2 + extra.length)
    (by omega) (by simp only [List.length_append, List.length_cons, List.length_nil, enc_length]; omega) with
    ⟨g, -⟩ | ⟨k, g1, g2, -, -⟩
  · exact g
  · rw [g1.unique (firstZero_name h hok hc _)] at g2
    omega

example : blocklist ([1, 2, 1, 0, 0, 1, 0, 0, 0, 0, 0, 0] ++ [1, 97, 0, 0, 1] ++ [9, 9]) 17 = .ub := by decide +kernel

/-! ## Many clients waiting for an answer that was blocked -/

/-- What the waiting clients should get: `soa` for UDP. -/
def replies (h : Header) (q : List UInt8) : List Waiter → List (List UInt8)
  | [] => []
  | .glueless :: ws => replies h q ws
  | .udp id :: ws => ((h.oneAuthority.withId id).enc ++ q ++ soaNone) :: replies h q ws
  | .tcp id :: ws => ((h.oneAuthority.withId id).enc ++ q) :: replies h q ws

theorem putId_exact (h : Header) (p : List UInt8) (t : Cells) (id : Nat) :
    putId ((h.enc ++ p).map some ++ t) id = .ok (((h.withId id).enc ++ p).map some ++ t) := by
  have e1 : UInt8.ofNat (id % 65536 / 256) = UInt8.ofNat (id / 256) := by
    apply UInt8.toNat_inj.1; simp only [UInt8.toNat_ofNat']; omega
  have e2 : UInt8.ofNat (id % 65536) = UInt8.ofNat id := by
    apply UInt8.toNat_inj.1; simp only [UInt8.toNat_ofNat']; omega
  simp [putId, Header.withId, Header.enc, word, wrC, e1, e2]

theorem send_prefix (p : List UInt8) (t : Cells) {n : Nat} (h : n = p.length) : send (p.map some ++ t) n = .ok (p.map some) := by
  subst h
  rw [send, if_pos (by simp), List.take_left' (by simp)]

theorem replies_withId (h : Header) (id : Nat) (q : List UInt8) (ws : List Waiter) :
    replies (h.withId id) q ws = replies h q ws := by
  induction ws with
  | nil => rfl
  | cons w ws ih => cases w <;> simp only [replies, ih] <;> rfl

theorem notThereAll_exact (h : Header) (q : List UInt8) (t : Cells) (ws : List Waiter) :
    notThereAll ((h.oneAuthority.enc ++ (q ++ soaNone)).map some ++ t) (12 + q.length) ws =
      .ok ((replies h q ws).map (List.map some)) := by
  have hs : soaNone.length = 40 := rfl
  induction ws generalizing h with
  | nil => rfl
  | cons w ws ih =>
    have hid : ∀ id, notThereAll ((((h.oneAuthority.withId id).enc ++ (q ++ soaNone)).map some) ++ t) (12 + q.length) ws =
        .ok ((replies h q ws).map (List.map some)) := by
      intro id
      have := ih (h.withId id)
      rwa [replies_withId] at this
    cases w with
    | glueless => simp only [notThereAll, replies]; exact ih h
    | udp id =>
      simp only [notThereAll]
      rw [putId_exact]
      simp only [Res.ok_bind]
      rw [hid id, send_prefix _ _ (by simp only [List.length_append, enc_length, hs]; omega)]
      simp only [Res.ok_bind, replies, List.map_cons, List.append_assoc]
    | tcp id =>
      simp only [notThereAll]
      rw [putId_exact]
      simp only [Res.ok_bind]
      have e : ((h.oneAuthority.withId id).enc ++ (q ++ soaNone)).map some ++ t =
          ((h.oneAuthority.withId id).enc ++ q).map some ++ (soaNone.map some ++ t) := by simp
      rw [hid id, e, send_prefix _ _ (by simp only [List.length_append, enc_length])]
      simp only [Res.ok_bind, replies, List.map_cons]

/-- C42.  The answer made up when an upstream reply was refused (a blocked address): every
waiting UDP client gets its own ID, the question and the SOA record, and only written
bytes; a TCP client gets the same cut off before the SOA record that the header
announces. -/
theorem synthNotThere_exact (h : Header) {ls : List (List UInt8)} (hok : LabelsOk ls) (hc : NoCtl ls)
    (hlen : (encName ls).length ≤ 256) (t0 t1 c0 c1 : UInt8) (extra : List UInt8) (ws : List Waiter) :
    synthNotThere (h.enc ++ (encName ls ++ ([t0, t1, c0, c1] ++ extra))) (12 + (encName ls).length + 4 + extra.length) ws =
      .ok ((replies h (encName ls ++ [t0, t1, c0, c1]) ws).map (List.map some)) := by
  have hn : (encName ls).length = (encLabels ls).length + 1 := by simp [encName]
  have fz := firstZero_name h hok hc ([t0, t1, c0, c1] ++ extra)
  unfold synthNotThere
  rw [if_neg (by omega)]
  rcases makeSynth_cases (h.enc ++ (encName ls ++ ([t0, t1, c0, c1] ++ extra))) (12 + (encName ls).length + 4 + extra.length)
    notThere (by simp only [List.length_append, List.length_cons, List.length_nil, enc_length]; omega) (by omega) with
    ⟨-, g⟩ | ⟨k, g1, -, -, g4⟩
  · exact absurd ⟨_, fz, by omega, by omega⟩ g
  · rw [g1.unique fz] at g4
    rw [g4]
    simp only
    have hq : (encName ls ++ [t0, t1, c0, c1]).length = (encLabels ls).length + 5 := by simp [hn]
    have e : (h.enc ++ (encName ls ++ ([t0, t1, c0, c1] ++ extra))).take (12 + (encLabels ls).length + 5) =
        h.enc ++ (encName ls ++ [t0, t1, c0, c1]) := by
      rw [← List.append_assoc (encName ls), ← List.append_assoc, List.take_left']
      rw [List.length_append, enc_length, hq]; omega
    rw [e, List.append_assoc, finish_exact']
    simp only [Res.ok_bind]
    have e2 : 12 + (encLabels ls).length + 5 = 12 + (encName ls ++ [t0, t1, c0, c1]).length := by omega
    rw [e2, notThere_soa]
    exact notThereAll_exact h (encName ls ++ [t0, t1, c0, c1]) _ ws

/-- A UDP client with ID 5 and a TCP client with ID 7. -/
example : synthNotThere ([1, 2, 0x81, 0x80, 0, 1, 0, 1, 0, 0, 0, 0] ++ ([1, 97, 0, 0, 1, 0, 1] ++ [1, 2, 3])) 22
    [.udp 5, .glueless, .tcp 7] =
    .ok [([0, 5, 0x81, 0x80, 0, 1, 0, 0, 0, 1, 0, 0] ++ [1, 97, 0, 0, 1, 0, 1] ++ soaNone).map some,
      ([0, 7, 0x81, 0x80, 0, 1, 0, 0, 0, 1, 0, 0] ++ [1, 97, 0, 0, 1, 0, 1] : List UInt8).map some] := by decide +kernel

end SR
end Dw
