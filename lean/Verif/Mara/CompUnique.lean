import Verif.Mara.CompProps
/-!
# Reading a message has one outcome

The relation `Msg.Is` used in C70 leaves no choice: bytes are at most one message.
-/

namespace Mara
namespace Comp

open Spec

theorem ofNat_len_inj {a b : List UInt8} (ha : a.length ≤ 63) (hb : b.length ≤ 63)
    (h : UInt8.ofNat a.length = UInt8.ofNat b.length) : a.length = b.length := by
  have := congrArg UInt8.toNat h
  rw [UInt8.toNat_ofNat', UInt8.toNat_ofNat'] at this
  omega

theorem label_zero {m : Mem} {i : Nat} {l : List UInt8} (h : LabelAt m i l) (h0 : m i = some 0) : False := by
  have := h.len
  rw [h0] at this
  have h1 := congrArg UInt8.toNat (Option.some.inj this)
  rw [UInt8.toNat_ofNat'] at h1
  have := h.pos
  have := h.le
  have e : (0 : UInt8).toNat = 0 := rfl
  omega

theorem label_ptr {m : Mem} {i : Nat} {l : List UInt8} {x : UInt8} (h : LabelAt m i l) (h0 : m i = some x) (hx : 192 ≤ x) : False := by
  have := h.len
  rw [h0] at this
  have h1 := congrArg UInt8.toNat (Option.some.inj this)
  rw [UInt8.toNat_ofNat'] at h1
  have := h.pos
  have := h.le
  have := UInt8.le_iff_toNat_le.1 hx
  have e : (192 : UInt8).toNat = 192 := rfl
  omega

theorem ptr_zero {m : Mem} {i : Nat} {x : UInt8} (h0 : m i = some 0) (h1 : m i = some x) (hx : 192 ≤ x) : False := by
  rw [h0] at h1
  have := Option.some.inj h1
  subst this
  exact absurd hx (by decide)

theorem label_unique {m : Mem} {i : Nat} {a b : List UInt8} (ha : LabelAt m i a) (hb : LabelAt m i b) : a = b := by
  have hl := ofNat_len_inj ha.le hb.le (Option.some.inj (ha.len.symm.trans hb.len))
  apply List.ext_getElem hl
  intro j h1 h2
  exact Option.some.inj ((ha.bytes j h1).symm.trans (hb.bytes j h2))

theorem nameIn_unique {m : Mem} {i : Nat} {a : Name} (ha : NameIn m i a) : ∀ {b : Name}, NameIn m i b → a = b := by
  induction ha with
  | root h0 =>
    intro b hb
    cases hb with
    | root _ => rfl
    | label hl _ => exact (label_zero hl h0).elim
    | pointer hx h1 _ _ _ => exact (ptr_zero h0 hx h1).elim
  | label hl _ ih =>
    intro b hb
    cases hb with
    | root h0 => exact (label_zero hl h0).elim
    | label hl' hn =>
      have := label_unique hl hl'
      subst this
      rw [ih hn]
    | pointer hx h1 _ _ _ => exact (label_ptr hl hx h1).elim
  | pointer hx h1 hy _ _ ih =>
    intro b hb
    cases hb with
    | root h0 => exact (ptr_zero h0 hx h1).elim
    | label hl _ => exact (label_ptr hl hx h1).elim
    | pointer hx' _ hy' _ hn =>
      have e1 := Option.some.inj (hx.symm.trans hx')
      have e2 := Option.some.inj (hy.symm.trans hy')
      subst e1
      subst e2
      exact ih hn

theorem endsAt_unique {m : Mem} {i a : Nat} (ha : EndsAt m i a) : ∀ {b : Nat}, EndsAt m i b → a = b := by
  induction ha with
  | root h0 =>
    intro b hb
    cases hb with
    | root _ => rfl
    | label hl _ => exact (label_zero hl h0).elim
    | pointer hx h1 => exact (ptr_zero h0 hx h1).elim
  | label hl _ ih =>
    intro b hb
    cases hb with
    | root h0 => exact (label_zero hl h0).elim
    | label hl' hn =>
      have := label_unique hl hl'
      subst this
      exact ih hn
    | pointer hx h1 => exact (label_ptr hl hx h1).elim
  | pointer hx h1 =>
    intro b hb
    cases hb with
    | root h0 => exact (ptr_zero h0 hx h1).elim
    | label hl _ => exact (label_ptr hl hx h1).elim
    | pointer _ _ => rfl

theorem namesIn_unique {m : Mem} {i k : Nat} {a : List Name} (ha : NamesIn m i a k) : ∀ {b : List Name} {k' : Nat}, NamesIn m i b k' →
    a.length = b.length → a = b ∧ k = k' := by
  induction ha with
  | nil =>
    intro b k' hb hl
    cases hb with
    | nil => exact ⟨rfl, rfl⟩
    | cons _ _ _ => simp at hl
  | cons h1 h2 _ ih =>
    intro b k' hb hl
    cases hb with
    | nil => simp at hl
    | cons g1 g2 g3 =>
      have e1 := nameIn_unique h1 g1
      have e2 := endsAt_unique h2 g2
      subst e1
      subst e2
      obtain ⟨e3, e4⟩ := ih g3 (by simpa using hl)
      exact ⟨by rw [e3], e4⟩

theorem bytesAt_unique {m : Mem} {i : Nat} {a b : List UInt8} (ha : BytesAt m i a) (hb : BytesAt m i b) (hl : a.length = b.length) :
    a = b := by
  apply List.ext_getElem hl
  intro j h1 h2
  exact Option.some.inj ((ha j h1).symm.trans (hb j h2))

theorem be16_inj {a b : Nat} (ha : a < 65536) (hb : b < 65536) (h : be16 a = be16 b) : a = b := by
  unfold be16 at h
  have h1 := congrArg UInt8.toNat (List.cons.inj h).1
  have h2 := congrArg UInt8.toNat (List.cons.inj (List.cons.inj h).2).1
  rw [UInt8.toNat_ofNat', UInt8.toNat_ofNat'] at h1 h2
  omega

theorem be32_inj {a b : Nat} (ha : a < 4294967296) (hb : b < 4294967296) (h : be32 a = be32 b) : a = b := by
  unfold be32 at h
  obtain ⟨h1, h2⟩ := List.append_inj h rfl
  have := be16_inj (by omega) (by omega) h1
  have := be16_inj (by omega) (by omega) h2
  omega

theorem recIn_unique {m : Mem} {i e e' : Nat} {r r' : Rec} (h : RecIn m i r e) (h' : RecIn m i r' e') (ho : r.Ok) (ho' : r'.Ok) :
    r = r' ∧ e = e' := by
  obtain ⟨a, k, h1, h2, h3, h4, h5, h6, h7, h8, h9⟩ := h.at_
  obtain ⟨a', k', g1, g2, g3, g4, g5, g6, g7, g8, g9⟩ := h'.at_
  have e1 := nameIn_unique h1 g1
  have e2 := endsAt_unique h2 g2
  subst e2
  have b0 := bytesAt_unique h3 g3 (by simp [be16, be32, ho.cls, ho'.cls])
  obtain ⟨b1, b4⟩ := List.append_inj b0 (by simp [be16, be32, ho.cls, ho'.cls])
  obtain ⟨b2, b5⟩ := List.append_inj b1 (by simp [be16, ho.cls, ho'.cls])
  obtain ⟨b3, e6⟩ := List.append_inj b2 rfl
  have e3 := be16_inj ho.type ho'.type b3
  have e4 := be16_inj h4 g4 b4
  have e5 := be32_inj ho.ttl ho'.ttl b5
  clear b0 b1 b2 b3 b4 b5
  have hee : e = e' := by omega
  subst hee
  have f := ho.form
  have f' := ho'.form
  rw [← e3] at f'
  have fl : r.lead.length = r'.lead.length ∧ r.names.length = r'.names.length := by
    cases hq : rdLayout r.type with
    | none =>
      rw [hq] at f f'
      simp only [Option.getD_none, Prod.mk.injEq] at f f'
      omega
    | some v =>
      obtain ⟨l, n, t⟩ := v
      rw [hq] at f f'
      simp only [Option.getD_some, Prod.mk.injEq] at f f'
      omega
  have e7 := bytesAt_unique h6 g6 fl.1
  rw [← fl.1] at g7
  obtain ⟨e8, e9⟩ := namesIn_unique h7 g7 fl.2
  subst e9
  have e10 := bytesAt_unique h8 g8 (by omega)
  refine ⟨?_, rfl⟩
  obtain ⟨n1, t1, c1, tt1, l1, ns1, tl1⟩ := r
  obtain ⟨n2, t2, c2, tt2, l2, ns2, tl2⟩ := r'
  simp only at e1 e3 e6 e5 e7 e8 e10
  subst e1 e3 e6 e5 e7 e8 e10
  rfl

theorem recsIn_unique {m : Mem} {i e : Nat} {a : List Rec} (ha : RecsIn m i a e) : ∀ {b : List Rec} {e' : Nat}, RecsIn m i b e' →
    a.length = b.length → (∀ r ∈ a, r.Ok) → (∀ r ∈ b, r.Ok) → a = b ∧ e = e' := by
  induction ha with
  | nil =>
    intro b e' hb hl _ _
    cases hb with
    | nil => exact ⟨rfl, rfl⟩
    | cons _ _ => simp at hl
  | cons h1 _ ih =>
    intro b e' hb hl ho ho'
    cases hb with
    | nil => simp at hl
    | cons g1 g2 =>
      obtain ⟨e1, e2⟩ := recIn_unique h1 g1 (ho _ (by simp)) (ho' _ (by simp))
      subst e1
      subst e2
      obtain ⟨e3, e4⟩ := ih g2 (by simpa using hl) (fun r hr => ho r (by simp [hr])) (fun r hr => ho' r (by simp [hr]))
      exact ⟨by rw [e3], e4⟩

/-- Bytes are at most one message. -/
theorem is_unique {p q : Msg} {c : List UInt8} (hp : p.Sound) (hq : q.Sound) (h : p.Is c) (h' : q.Is c) : p = q := by
  have hpre := List.prefix_or_prefix_of_prefix h.front h'.front
  -- the header
  have hhl : p.header.length = 12 := by unfold Msg.header; simp [be16, hp.head]
  have hhl' : q.header.length = 12 := by unfold Msg.header; simp [be16, hq.head]
  have htake : ∀ (x : Msg), x.Is c → x.header.length = 12 → c.take 12 = x.header := by
    intro x hx hl
    obtain ⟨t, ht⟩ := hx.front
    rw [← ht, List.append_assoc, ← hl, List.take_left]
  have e0 : p.header = q.header := (htake p h hhl).symm.trans (htake q h' hhl')
  unfold Msg.header at e0
  obtain ⟨e0, ear⟩ := List.append_inj e0 (by simp [be16, hp.head, hq.head])
  obtain ⟨e0, ens⟩ := List.append_inj e0 (by simp [be16, hp.head, hq.head])
  obtain ⟨e0, ean⟩ := List.append_inj e0 (by simp [be16, hp.head, hq.head])
  obtain ⟨ehd, _⟩ := List.append_inj e0 (by simp [hp.head, hq.head])
  have ear := be16_inj hp.ar hq.ar ear
  have ens := be16_inj hp.ns hq.ns ens
  have ean := be16_inj hp.an hq.an ean
  -- the question
  have hdrop : ∀ (x : Msg), x.Is c → x.header.length = 12 → ∃ t, c.drop 12 = encName x.qname ++ (be16 x.qtype ++ (be16 x.qclass ++ t)) := by
    intro x hx hl
    obtain ⟨t, ht⟩ := hx.front
    refine ⟨t, ?_⟩
    rw [← ht, List.append_assoc, ← hl, List.drop_left]
    unfold Msg.question
    simp
  obtain ⟨t, ht⟩ := hdrop p h hhl
  obtain ⟨t', ht'⟩ := hdrop q h' hhl'
  obtain ⟨eq1, e1⟩ := Big.encName_inj hp.qname.1 hq.qname.1 (ht.symm.trans ht')
  obtain ⟨b2, e1'⟩ := List.append_inj e1 rfl
  obtain ⟨b3, _⟩ := List.append_inj e1' rfl
  have eq2 := be16_inj hp.qtype hq.qtype b2
  have eq3 := be16_inj hp.qclass hq.qclass b3
  -- the records
  have efl : (p.header ++ p.question).length = (q.header ++ q.question).length := by
    unfold Msg.question
    simp [hhl, hhl', eq1, be16]
  have hr := h.recs
  have hr' := h'.recs
  rw [← efl] at hr'
  obtain ⟨e2, _⟩ := recsIn_unique hr hr' (by unfold Msg.all; simp only [List.length_append]; omega) (fun r hr => (hp.recs r hr).ok)
    (fun r hr => (hq.recs r hr).ok)
  unfold Msg.all at e2
  obtain ⟨e2, e3⟩ := List.append_inj e2 (by simp only [List.length_append]; omega)
  obtain ⟨e4, e5⟩ := List.append_inj e2 ean
  obtain ⟨a1, a2, a3, a4, a5, a6, a7⟩ := p
  obtain ⟨b1, b2, b3, b4, b5, b6, b7⟩ := q
  simp only at ehd eq1 eq2 eq3 e4 e5 e3
  subst ehd eq1 eq2 eq3 e4 e5 e3
  rfl

theorem sameName_enc_length {a b : Name} (ha : LabelsOk a) (h : SameName a b) : LabelsOk b ∧ (encName a).length = (encName b).length ∧ a.length = b.length := by
  have hb : LabelsOk b := by
    have h1 := Lookup.lowName_ok ha
    have h2 : lowName a = lowName b := h
    rw [h2] at h1
    intro l hl
    have := h1 (l.map lower) (List.mem_map.2 ⟨l, hl, rfl⟩)
    rwa [List.length_map] at this
  refine ⟨hb, ?_, ?_⟩
  · have h1 := congrArg List.length (Lookup.encName_lower ha)
    have h2 := congrArg List.length (Lookup.encName_lower hb)
    have h3 : lowName a = lowName b := h
    rw [List.length_map] at h1 h2
    rw [h1, h2, h3]
  · have := congrArg List.length h
    simpa using this

theorem sameNames_enc_length : ∀ {a b : List Name}, (∀ n ∈ a, NameOk n) → SameNames a b →
    (∀ n ∈ b, NameOk n) ∧ (a.flatMap encName).length = (b.flatMap encName).length ∧ a.length = b.length
  | [], [], _, _ => ⟨(by intro n hn; cases hn), rfl, rfl⟩
  | [], _ :: _, _, h => by cases h
  | _ :: _, [], _, h => by cases h
  | x :: a, y :: b, ho, h => by
    obtain ⟨h1, h2, h3⟩ := sameNames_enc_length (fun n hn => ho n (by simp [hn])) h.2
    have hx := ho x (by simp)
    obtain ⟨g1, g2, _⟩ := sameName_enc_length hx.1 h.1
    refine ⟨?_, ?_, by simp [h3]⟩
    · intro n hn
      rcases List.mem_cons.1 hn with rfl | hn
      · exact ⟨g1, by rw [← g2]; exact hx.2⟩
      · exact h1 n hn
    · rw [List.flatMap_cons, List.flatMap_cons, List.length_append, List.length_append, h2, g2]

theorem sameRec_sound {r s : Rec} (hr : r.Sound) (h : SameRec r s) : s.Sound := by
  obtain ⟨h1, h2, h3⟩ := sameNames_enc_length hr.names h.names
  obtain ⟨g1, g2, _⟩ := sameName_enc_length hr.name.1 h.name
  have hsz := hr.ok.size
  refine ⟨⟨h.type ▸ hr.ok.type, h.cls ▸ hr.ok.cls, h.ttl ▸ hr.ok.ttl, ?_, ?_⟩, ⟨g1, by rw [← g2]; exact hr.name.2⟩, h1,
    h.ttl ▸ hr.ttl, ?_, ?_⟩
  · unfold Rec.rdata at *
    simp only [List.length_append] at hsz ⊢
    rw [← h2, ← h.lead, ← h.tail]
    exact hsz
  · rw [← h.lead, ← h.tail, ← h3, ← h.type]; exact hr.ok.form
  · intro ht; rw [← h.tail]; exact hr.a (h.type.trans ht)
  · intro ht; rw [← h.tail]; exact hr.txt (h.type.trans ht)

theorem sameRecs_sound : ∀ {a b : List Rec}, (∀ r ∈ a, r.Sound) → SameRecs a b → ∀ r ∈ b, r.Sound
  | [], [], _, _ => by intro r hr; cases hr
  | [], _ :: _, _, h => by cases h
  | _ :: _, [], _, h => by cases h
  | x :: a, y :: b, ho, h => by
    intro r hr
    rcases List.mem_cons.1 hr with rfl | hr
    · exact sameRec_sound (ho x (by simp)) h.1
    · exact sameRecs_sound (fun r hr => ho r (by simp [hr])) h.2 r hr

theorem same_sound {p q : Msg} (hp : p.Sound) (h : p.Same q) : q.Sound := by
  have hr := hp.recs
  unfold Msg.all at hr
  refine ⟨h.head ▸ hp.head, h.qname ▸ hp.qname, h.qtype ▸ hp.qtype, h.qclass ▸ hp.qclass, ?_, ?_, ?_, ?_⟩
  · intro r hq
    unfold Msg.all at hq
    rcases List.mem_append.1 hq with hq | hq
    · rcases List.mem_append.1 hq with hq | hq
      · exact sameRecs_sound (fun r h => hr r (by simp [h])) h.an r hq
      · exact sameRecs_sound (fun r h => hr r (by simp [h])) h.ns r hq
    · exact sameRecs_sound (fun r h => hr r (by simp [h])) h.ar r hq
  · rw [← sameRecs_length h.an]; exact hp.an
  · rw [← sameRecs_length h.ns]; exact hp.ns
  · rw [← sameRecs_length h.ar]; exact hp.ar

/-- **C70.** Every sound message read from what comes out of the compression is the one that was
put in, but for letter case. -/
theorem compress_read {p : Msg} (hp : p.Sound) {um om : Nat} (hum : p.bytes.length < um) {c : List UInt8}
    (hc : compress p.bytes um om = .ok c) {q : Msg} (hq : q.Sound) (hr : q.Is c) : p.Same q := by
  rcases compress_sound hp hum (om := om) with h | ⟨c', p', h1, h2, h3, _⟩
  · rw [hc] at h; cases h
  · have : c = c' := by rw [hc] at h1; injection h1
    subst this
    have := is_unique (same_sound hp h2) hq h3 hr
    rw [← this]
    exact h2

end Comp
end Mara
