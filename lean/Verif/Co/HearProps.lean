import Verif.Co.HearLemmas
import Verif.Co.NameProps
/-!
# coLunacyDNS: what scripts are told about replies of other servers
-/

namespace Co
open Dw (Res)
open Spec (LabelsOk encName shown be16 be32 memOf Mem EndsAt BytesAt RecIn RecsIn Rec Msg)

/-- The bytes of an identification. -/
def idBytes (id : UInt16) : List UInt8 := [UInt8.ofNat (id.toNat / 256), UInt8.ofNat id.toNat]

/-! ## What is not a reply to the question is not listened to -/

theorem sameName_get {buf name : List UInt8} (h : sameName buf name = true) (i : Nat) (hi : i < name.length) : buf[12 + i]? = some name[i] := by
  unfold sameName at h
  rw [List.all_eq_true] at h
  have := h i (by simpa using hi)
  simp only [Bool.and_eq_true, beq_iff_eq] at this
  rw [this.1, List.getD_eq_getElem?_getD, List.getElem?_eq_getElem hi]
  rfl

/-- When a script is told something other than that there was no answer, the packet has the identification that was sent, and the name that was sent, in
the same case: all bytes of it that are in the packet. -/
theorem only_replies_are_heard (name : List UInt8) (id : UInt16) (d junk : List UInt8) (text : List UInt8) (status : Nat)
    (h : hear name id (some d) junk = .ok (.answer text status)) (ht : text ≠ txt "DNS answer not seen" ∨ status ≠ 0) :
    12 < d.length ∧ d.take 2 = idBytes id ∧ ∀ i (hi : i < name.length), 12 + i < min d.length 514 → d[12 + i]? = some name[i] := by
  have no (h : (Res.ok (.answer (txt "DNS answer not seen") 0) : Res Told) = .ok (.answer text status)) : False := by
    simp only [Res.ok.injEq, Told.answer.injEq] at h
    rcases ht with ht | ht
    · exact ht h.1.symm
    · exact ht h.2.symm
  unfold hear at h
  simp only at h
  split at h
  · exact (no h).elim
  rename_i hl
  have hl' : 12 < d.length := by simp at hl; omega
  obtain ⟨t, hf, _⟩ := fill_at 514 (d.take 514) junk (by simp; omega)
  split at h
  · exact (no h).elim
  rename_i hid
  split at h
  · exact (no h).elim
  rename_i hn
  refine ⟨hl', ?_, ?_⟩
  · rw [hf, List.take_append_of_le_length (by simp; omega), List.take_take, Decidable.not_not] at hid
    exact hid
  · intro i hi hlt
    have := sameName_get (by simpa using hn) i hi
    rw [hf, List.getElem?_append_left (by simp; omega), List.getElem?_take_of_lt (by omega)] at this
    exact this

/-! ## The first address is told -/

theorem recsIn_split {m : Mem} : ∀ {a b : List Rec} {i e : Nat}, RecsIn m i (a ++ b) e → ∃ k, RecsIn m i a k ∧ RecsIn m k b e := by
  intro a
  induction a with
  | nil => intro b i e h; exact ⟨i, .nil, h⟩
  | cons r a ih =>
    intro b i e h
    cases h with
    | cons h1 h2 =>
      obtain ⟨k, g1, g2⟩ := ih h2
      exact ⟨k, .cons h1 g1, g2⟩

theorem recsIn_le {m : Mem} {i e : Nat} {rs : List Rec} (h : RecsIn m i rs e) : i ≤ e := by
  induction h with
  | nil => omega
  | cons h1 _ ih =>
    obtain ⟨a, k, _, h2, _, _, h4, _⟩ := h1.at_
    have hlt : ∀ {m : Mem} {i e : Nat}, EndsAt m i e → i < e := by
      intro m i e h
      induction h with
      | root _ => omega
      | pointer _ _ => omega
      | label _ _ ih => omega
    have := hlt h2
    omega

/-- Records one after the other; their names take at most 12 bytes each (with pointers they take two), the last one begins before place 450. -/
inductive Near (m : Mem) : Nat → List Rec → Prop
  | last {i a e r} : i < 450 → EndsAt m i a → a ≤ i + 12 → RecIn m i r e → Near m i [r]
  | cons {i a e r rs} : EndsAt m i a → a ≤ i + 12 → RecIn m i r e → Near m e rs → Near m i (r :: rs)

/-- The records of a message are such records if they are short and begin early enough. -/
theorem near_of_recs {m : Mem} {before : List Rec} {r : Rec} {after : List Rec} : ∀ {i e : Nat}, RecsIn m i (before ++ r :: after) e →
    (∀ k, RecsIn m i before k → k < 450) → (∀ x ∈ before ++ [r], ∀ i a e, RecIn m i x e → EndsAt m i a → a ≤ i + 12) →
    Near m i (before ++ [r]) := by
  induction before with
  | nil =>
    intro i e h hk hs
    cases h with
    | cons h1 h2 =>
      obtain ⟨a, _, _, ha, _⟩ := h1.at_
      exact .last (hk i .nil) ha (hs r (by simp) _ _ _ h1 ha) h1
  | cons x before ih =>
    intro i e h hk hs
    cases h with
    | cons h1 h2 =>
      obtain ⟨a, _, _, ha, _⟩ := h1.at_
      exact .cons ha (hs x (by simp) _ _ _ h1 ha) h1 (ih h2 (fun k hk' => hk k (.cons h1 hk')) (fun y hy => hs y (by simp at hy ⊢; exact .inr hy)))

/-- A reply to a question: the identification, the name as it was sent; `r` is the first record of type A or AAAA. -/
structure Helpful (ls : List (List UInt8)) (id : UInt16) (c : List UInt8) (before : List Rec) (r : Rec) : Prop where
  front : ∃ flags question rest, c = idBytes id ++ flags ++ encName ls ++ question ++ rest ∧ flags.length = 10 ∧ question.length = 4
  size : c.length ≤ 514
  labels : LabelsOk ls
  notRoot : ls ≠ []
  ascii : ∀ b ∈ encName ls, b < 128
  shows : (shown ls).length < 488
  others : ∀ x ∈ before, x.Ok ∧ x.type ≠ 1 ∧ x.type ≠ 28
  ok : r.Ok
  near : Near (memOf c) (12 + (encName ls).length + 4) (before ++ [r])

theorem near_scan {c t : List UInt8} (hsub : Mara.Comp.Sub (memOf c) (memOf (c ++ t))) {before : List Rec} {r : Rec} : ∀ {i : Nat},
    Near (memOf c) i (before ++ [r]) → (∀ x ∈ before, x.Ok ∧ x.type ≠ 1 ∧ x.type ≠ 28) →
    ∃ k a e, i ≤ k ∧ k < 450 ∧ EndsAt (memOf (c ++ t)) k a ∧ a ≤ k + 12 ∧ RecIn (memOf (c ++ t)) k r e ∧ scan (c ++ t) i false = scan (c ++ t) k false := by
  induction before with
  | nil =>
    intro i h _
    cases h with
    | last h1 h2 h3 h4 => exact ⟨i, _, _, by omega, h1, hsub.ends h2, h3, hsub.rec h4, rfl⟩
    | cons _ _ _ h => cases h
  | cons x before ih =>
    intro i h ho
    generalize hg : x :: before ++ [r] = g at h
    cases h with
    | last _ _ _ _ => simp at hg
    | cons h1 h2 h3 h4 =>
      simp only [List.cons_append, List.cons.injEq] at hg
      obtain ⟨rfl, rfl⟩ := hg
      obtain ⟨k, a, e, l0, l1, l2, l3, l4, l5⟩ := ih h4 (fun y hy => ho y (by simp [hy]))
      have l6 := recsIn_le (.cons h3 .nil : RecsIn (memOf c) i [x] _)
      obtain ⟨ro, r1, r2⟩ := ho x (by simp)
      refine ⟨k, a, e, by omega, l1, l2, l3, l4, ?_⟩
      rw [scan_rec (by omega) (hsub.ends h1) h2 (hsub.rec h3) ro.type ro.cls, if_neg (by simp [r1]), if_neg (by simp [r2])]
      exact l5

theorem hear_helpful {ls : List (List UInt8)} {id : UInt16} {c : List UInt8} {before : List Rec} {r : Rec}
    (h : Helpful ls id c before r) (junk : List UInt8) :
    ∃ t i a e, i < 450 ∧ EndsAt (memOf (c ++ t)) i a ∧ a ≤ i + 12 ∧ RecIn (memOf (c ++ t)) i r e ∧
      fill 514 (c.take 514) junk = c ++ t ∧ scan (c ++ t) 12 true = scan (c ++ t) i false ∧
      hear (encName ls) id (some c) junk = (scan (c ++ t) i false >>= fun f => match f with
        | .nothing => .ok (.answer (txt "DNS answer not seen") 0)
        | .v6 ip => .ok (.answer (ip6Show ip) 28)
        | .v4 ip =>
          if ip.take 2 = [0, 0] then
            .ok (.answer (txt "DNS answer not seen") ((ip.getD 2 0).toNat * 256 + (ip.getD 3 0).toNat))
          else .ok (.answer (ip4Show ip) 1)) := by
  have hct : c.take 514 = c := List.take_of_length_le h.size
  obtain ⟨t, ht, _⟩ := fill_at 514 c junk h.size
  have hsub := Mara.Comp.memOf_append c t
  obtain ⟨flags, qu, rest, hc, hfl, hql⟩ := h.front
  obtain ⟨k, a, e, l0, hk, l2, l3, l4, l5⟩ := near_scan hsub h.near h.others
  have hil : (idBytes id).length = 2 := rfl
  have hel : 1 ≤ (encName ls).length := by simp [encName]
  have hcl : 12 < c.length := by rw [hc]; simp [hfl, hil]; omega
  have hbuf : (c ++ t).drop 12 = encName ls ++ (qu ++ (rest ++ t)) := by
    rw [hc]
    have : (idBytes id ++ flags).length = 12 := by simp [hfl, hil]
    rw [show idBytes id ++ flags ++ encName ls ++ qu ++ rest ++ t = (idBytes id ++ flags) ++ (encName ls ++ (qu ++ (rest ++ t))) by simp, ← this,
      List.drop_left]
  have hget (i : Nat) (hi : i < (encName ls).length) : (c ++ t)[12 + i]? = some (encName ls)[i] := by
    rw [← List.getElem?_drop, hbuf, List.getElem?_append_left hi, List.getElem?_eq_getElem hi]
  have e1 : scan (c ++ t) 12 true = scan (c ++ t) (12 + (encName ls).length + 4) false := by
    rw [scan, if_pos (by omega), human_name (c ++ t) 12 488 _ ls h.labels h.notRoot hbuf, if_pos h.shows]
    simp only [Dw.Res.ok_bind, if_true]
    obtain ⟨x, y, z, w, hqu⟩ : ∃ x y z w, qu = [x, y, z, w] := by
      match hm : qu, hql with
      | [x, y, z, w], _ => exact ⟨x, y, z, w, rfl⟩
    have hd2 : (c ++ t).drop (12 + ((encName ls).length - 1) + 1) = qu ++ (rest ++ t) := by
      rw [show 12 + ((encName ls).length - 1) + 1 = 12 + (encName ls).length by omega, ← List.drop_drop, hbuf]
      simp
    rw [hqu] at hd2
    simp only [List.cons_append, List.nil_append] at hd2
    rw [peek_drop hd2, peek_drop (drop_get hd2).2]
    simp only [Dw.Res.ok_bind]
    congr 1
    omega
  refine ⟨t, k, a, e, hk, l2, l3, l4, by rw [hct, ht], by rw [e1, l5], ?_⟩
  unfold hear
  simp only
  rw [hct, ht, if_neg (by omega), if_neg, if_neg]
  · rw [e1, l5]
    cases scan (c ++ t) k false with
    | ok f => cases f <;> rfl
    | err => rfl
    | ub => rfl
  · simp only [Bool.not_eq_true', Bool.not_eq_false]
    unfold sameName
    rw [List.all_eq_true]
    intro i hi
    have hi : i < (encName ls).length := by simpa using hi
    rw [hget i hi, List.getD_eq_getElem?_getD, List.getElem?_eq_getElem hi]
    simp only [Option.getD_some, BEq.rfl, Bool.true_and, decide_eq_true_eq]
    exact h.ascii _ (List.getElem_mem hi)
  · rw [hc]
    simp [idBytes]

theorem plain_data {m : Mem} {i a e : Nat} {r : Rec} (h : RecIn m i r e) (ha : EndsAt m i a) (hl : r.lead = []) (hn : r.names = []) :
    BytesAt m (a + 10) r.tail ∧ e = a + 10 + r.tail.length := by
  obtain ⟨a', k, _, h1, _, _, _, _, h5, h6, h7⟩ := h.at_
  have ea := Mara.Comp.endsAt_unique h1 ha
  subst ea
  rw [hl, hn] at h5
  cases h5
  exact ⟨by simpa using h6, by simpa using h7⟩

theorem plain_form {r : Rec} (h : r.Ok) (ht : r.type = 1 ∨ r.type = 28) : r.lead = [] ∧ r.names = [] := by
  have := h.form
  rcases ht with ht | ht <;>
  · rw [ht] at this
    simp [Spec.rdLayout] at this
    exact this

/-- The script is told the first address in the reply: an IPv4 address. -/
theorem first_ip4_is_told {ls : List (List UInt8)} {id : UInt16} {c : List UInt8} {before : List Rec} {r : Rec}
    (h : Helpful ls id c before r) (junk : List UInt8) (ht : r.type = 1) (h4 : r.tail.length = 4) (hz : r.tail.take 2 ≠ [0, 0]) :
    hear (encName ls) id (some c) junk = .ok (.answer (ip4Show r.tail) 1) := by
  obtain ⟨t, i, a, e, hi, ha, hs, hr, _, _, hh⟩ := hear_helpful h junk
  obtain ⟨f1, f2⟩ := plain_form h.ok (.inl ht)
  obtain ⟨d1, d2⟩ := plain_data hr ha f1 f2
  rw [hh, scan_rec hi ha hs hr h.ok.type h.ok.cls, if_pos ⟨ht, by omega⟩, peeks_bytes d1 h4.symm (by omega)]
  simp only [Dw.Res.ok_bind]
  rw [if_neg (by intro e; rw [e] at hz; exact hz rfl)]
  simp only [Dw.Res.ok_bind]
  rw [if_neg hz]

/-- The script is told the first address in the reply: an IPv6 address. -/
theorem first_ip6_is_told {ls : List (List UInt8)} {id : UInt16} {c : List UInt8} {before : List Rec} {r : Rec}
    (h : Helpful ls id c before r) (junk : List UInt8) (ht : r.type = 28) (h16 : r.tail.length = 16) :
    hear (encName ls) id (some c) junk = .ok (.answer (ip6Show r.tail) 28) := by
  obtain ⟨t, i, a, e, hi, ha, hs, hr, _, _, hh⟩ := hear_helpful h junk
  obtain ⟨f1, f2⟩ := plain_form h.ok (.inr ht)
  obtain ⟨d1, d2⟩ := plain_data hr ha f1 f2
  rw [hh, scan_rec hi ha hs hr h.ok.type h.ok.cls, if_neg (by simp [ht]), if_pos ⟨ht, by omega⟩, peeks_bytes d1 h16.symm (by omega)]
  rfl

/-- Addresses from 0.0.0.1 to 0.0.255.255 are not told: the script gets their last 16 bits as the kind of the answer. -/
theorem low_ip4_is_misread {ls : List (List UInt8)} {id : UInt16} {c : List UInt8} {before : List Rec} {r : Rec}
    (h : Helpful ls id c before r) (junk : List UInt8) (ht : r.type = 1) (x y : UInt8) (hz : r.tail = [0, 0, x, y]) (h0 : ¬ (x = 0 ∧ y = 0)) :
    hear (encName ls) id (some c) junk = .ok (.answer (txt "DNS answer not seen") (x.toNat * 256 + y.toNat)) := by
  obtain ⟨t, i, a, e, hi, ha, hs, hr, _, _, hh⟩ := hear_helpful h junk
  obtain ⟨f1, f2⟩ := plain_form h.ok (.inl ht)
  obtain ⟨d1, d2⟩ := plain_data hr ha f1 f2
  rw [hz] at d1 d2
  rw [hh, scan_rec hi ha hs hr h.ok.type h.ok.cls, if_pos ⟨ht, by simp at d2; omega⟩, peeks_bytes (n := 4) d1 rfl (by omega)]
  simp only [Dw.Res.ok_bind]
  rw [if_neg (by simpa using h0)]
  rfl

theorem scanned_is_safe {d junk : List UInt8} (h : ∃ f, scan (fill 514 (d.take 514) junk) 12 true = .ok f) (name : List UInt8) (id : UInt16) :
    ∃ told, hear name id (some d) junk = .ok told := by
  obtain ⟨f, hf⟩ := h
  unfold hear
  simp only
  split
  · exact ⟨_, rfl⟩
  · split
    · exact ⟨_, rfl⟩
    · split
      · exact ⟨_, rfl⟩
      · rw [hf]
        simp only [Dw.Res.ok_bind]
        cases f with
        | nothing => exact ⟨_, rfl⟩
        | v6 ip => exact ⟨_, rfl⟩
        | v4 ip =>
          simp only
          split <;> exact ⟨_, rfl⟩

/-- A reply with an address can be read, also when it comes for some other question. -/
theorem helpful_is_safe {ls : List (List UInt8)} {id : UInt16} {c : List UInt8} {before : List Rec} {r : Rec}
    (h : Helpful ls id c before r) (junk : List UInt8) (ht : r.type = 1 ∧ r.tail.length = 4 ∧ r.tail ≠ [0, 0, 0, 0] ∨ r.type = 28 ∧ r.tail.length = 16)
    (name : List UInt8) (id' : UInt16) : ∃ told, hear name id' (some c) junk = .ok told := by
  obtain ⟨t, i, a, e, hi, ha, hs, hr, h1, h2, _⟩ := hear_helpful h junk
  refine scanned_is_safe ?_ name id'
  rw [h1, h2]
  obtain ⟨f1, f2⟩ := plain_form h.ok (by rcases ht with h | h; exacts [.inl h.1, .inr h.1])
  obtain ⟨d1, d2⟩ := plain_data hr ha f1 f2
  rcases ht with ⟨ht, h4, hz⟩ | ⟨ht, h16⟩
  · rw [scan_rec hi ha hs hr h.ok.type h.ok.cls, if_pos ⟨ht, by omega⟩, peeks_bytes d1 h4.symm (by omega)]
    simp only [Dw.Res.ok_bind]
    rw [if_neg hz]
    exact ⟨_, rfl⟩
  · rw [scan_rec hi ha hs hr h.ok.type h.ok.cls, if_neg (by simp [ht]), if_pos ⟨ht, by omega⟩, peeks_bytes d1 h16.symm (by omega)]
    exact ⟨_, rfl⟩

end Co
