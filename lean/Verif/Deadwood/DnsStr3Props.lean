import Verif.Deadwood.DnsStr2Props
/-! # Cached answers: lower-casing (C24) and concrete instances for C23-C26 -/

namespace Dw
open Spec
namespace DwStr

/-! ## C24 -/

theorem lower_upper {c : UInt8} (h : 65 ≤ c.toNat ∧ c.toNat ≤ 90) : lower c = c + 32 := by
  rw [lower, if_pos h]
  apply UInt8.toNat_inj.1
  rw [UInt8.toNat_add]
  simp

theorem lower_idem (c : UInt8) : lower (lower c) = lower c := by
  by_cases h : 65 ≤ c.toNat ∧ c.toNat ≤ 90
  · have e : lower c = UInt8.ofNat (c.toNat + 32) := by rw [lower, if_pos h]
    rw [e, lower, if_neg]
    simp; omega
  · have e : lower c = c := by rw [lower, if_neg h]
    rw [e, e]

theorem lowerName_nil (n : Nat) : lowerName n [] = [] := by cases n <;> rfl

theorem lowerName_fuel : ∀ (n m : Nat) (l : List UInt8), l.length ≤ n → l.length ≤ m →
    lowerName n l = lowerName m l := by
  intro n
  induction n with
  | zero =>
    intro m l h _
    have : l = [] := List.length_eq_zero_iff.1 (by omega)
    subst this; rw [lowerName_nil, lowerName_nil]
  | succ n ih =>
    intro m l h1 h2
    cases l with
    | nil => rw [lowerName_nil, lowerName_nil]
    | cons b l =>
      simp only [List.length_cons] at h1 h2
      obtain ⟨m, rfl⟩ : ∃ k, m = k + 1 := ⟨m - 1, by omega⟩
      simp only [lowerName]
      split_ifs
      · rfl
      · rw [ih m (l.drop b.toNat) (by simp; omega) (by simp; omega)]

theorem poke_contents {s : DwStr} (h : Usable s) {i : Nat} (hi : i < s.len) (b : UInt8) :
    ∃ s', s.poke i b = .ok s' ∧ Usable s' ∧ s'.max = s.max ∧ s'.len = s.len ∧
      s'.contents = s.contents.set i b := by
  have hwf := h.wf
  have hlt := h.lt
  have hb : i < s.buf.length := by
    have : s.buf.length = s.max + 2 := hwf
    omega
  refine ⟨_, poke_ok b hb, ⟨?_, h.lt, h.lim⟩, rfl, rfl, ?_⟩
  · show (s.buf.set i b).length = _
    rw [List.length_set]; exact hwf
  · show (s.buf.set i b).take s.len = (s.buf.take s.len).set i b
    rw [List.take_set]

theorem lowerLoop_eq : ∀ (n c p : Nat) {s : DwStr}, Usable s → n + c = s.len → c ≤ p →
    ∃ s', lowerLoop n c p s = .ok s' ∧ Usable s' ∧ s'.max = s.max ∧
      s'.contents = s.contents.take c ++ ((s.contents.drop c).take (p - c)).map lower ++
        lowerName n (s.contents.drop p) := by
  intro n
  induction n with
  | zero =>
    intro c p s h hn hcp
    refine ⟨s, rfl, h, rfl, ?_⟩
    have hl := h.clen
    rw [List.drop_eq_nil_of_le (by omega), List.drop_eq_nil_of_le (by omega),
      List.take_of_length_le (by omega)]
    simp [lowerName]
  | succ n ih =>
    intro c p s h hn hcp
    have hl := h.clen
    have hc : c < s.contents.length := by omega
    have hT : s.contents.take (c + 1) = s.contents.take c ++ [s.contents[c]] := by simp
    by_cases he : c = p
    · subst he
      rw [lowerLoop, if_pos rfl, peek_contents hc, Res.ok_bind]
      have hd : s.contents.drop c = s.contents[c] :: s.contents.drop (c + 1) := List.drop_eq_getElem_cons hc
      by_cases h0 : s.contents[c] = 0
      · rw [if_pos h0]
        refine ⟨s, rfl, h, rfl, ?_⟩
        rw [hd, lowerName, if_pos h0, ← hd]; simp
      · rw [if_neg h0]
        obtain ⟨s', e1, e2, e3, e4⟩ := ih (c + 1) (c + (s.contents[c].toNat + 1)) h (by omega) (by omega)
        refine ⟨s', e1, e2, e3, ?_⟩
        rw [e4, hd, lowerName, if_neg h0, hT, List.drop_drop]
        have a1 : c + (s.contents[c].toNat + 1) - (c + 1) = s.contents[c].toNat := by omega
        have a2 : c + 1 + s.contents[c].toNat = c + (s.contents[c].toNat + 1) := by omega
        rw [a1, a2]; simp only [List.append_assoc, List.cons_append, List.nil_append, Nat.sub_self,
          List.take_zero, List.map_nil]
    · have hlt : c < p := by omega
      rw [lowerLoop, if_neg he, peek_contents hc, Res.ok_bind]
      have hd : s.contents.drop c = s.contents[c] :: s.contents.drop (c + 1) := List.drop_eq_getElem_cons hc
      have hfuel : lowerName (n + 1) (s.contents.drop p) = lowerName n (s.contents.drop p) :=
        lowerName_fuel _ _ _ (by simp; omega) (by simp; omega)
      have hpc : p - c = (p - (c + 1)) + 1 := by omega
      by_cases hu : 65 ≤ s.contents[c].toNat ∧ s.contents[c].toNat ≤ 90
      · rw [if_pos hu]
        obtain ⟨s1, p1, u1, m1, l1, c1⟩ := poke_contents h (i := c) (by omega) (s.contents[c] + 32)
        obtain ⟨s', e1, e2, e3, e4⟩ := ih (c + 1) p u1 (by omega) (by omega)
        refine ⟨s', by rw [p1, Res.ok_bind, e1], e2, by rw [e3, m1], ?_⟩
        rw [e4, c1, hfuel, hd, hpc, List.take_succ_cons, List.map_cons, lower_upper hu,
          List.take_add_one, List.getElem?_set_self hc,
          List.drop_set_of_lt (by omega), List.drop_set_of_lt (by omega), List.take_set_of_le (by omega)]
        simp
      · rw [if_neg hu]
        obtain ⟨s', e1, e2, e3, e4⟩ := ih (c + 1) p h (by omega) (by omega)
        refine ⟨s', e1, e2, e3, ?_⟩
        have hlow : lower s.contents[c] = s.contents[c] := by rw [lower, if_neg hu]
        rw [e4, hfuel, hd, hpc, List.take_succ_cons, List.map_cons, hlow, hT]
        simp only [List.append_assoc, List.cons_append, List.nil_append]

/-- **C24 (any string).** Lower-casing a non-empty string succeeds, stays inside
it, keeps its length, and changes it only by lower-casing letters inside labels,
up to the end of the first name. -/
theorem lowerCase_any {s : DwStr} (h : Usable s) (hne : s.contents ≠ []) :
    ∃ s', s.lowerCase = .ok s' ∧ Usable s' ∧ s'.max = s.max ∧
      s'.contents = lowerName s.contents.length s.contents := by
  have hl := h.clen
  have hpos := List.length_pos_iff.2 hne
  obtain ⟨s', e1, e2, e3, e4⟩ := lowerLoop_eq s.len 0 0 h (by omega) (by omega)
  refine ⟨s', by rw [lowerCase, if_neg (by omega), e1], e2, e3, ?_⟩
  rw [e4, hl]; simp

theorem lowerCase_empty {s : DwStr} (h : Usable s) (he : s.contents = []) : s.lowerCase = .err := by
  have hl := h.clen
  rw [he] at hl
  rw [lowerCase, if_pos (by simpa using hl.symm)]

theorem lowerName_enc : ∀ (ls : List (List UInt8)) (rest : List UInt8) (n : Nat), LabelsOk ls →
    (encName ls ++ rest).length ≤ n →
    lowerName n (encName ls ++ rest) = encName (ls.map (List.map lower)) ++ rest := by
  intro ls
  induction ls with
  | nil =>
    intro rest n _ hn
    obtain ⟨n, rfl⟩ : ∃ k, n = k + 1 := ⟨n - 1, by simp [encName, encLabels] at hn; omega⟩
    simp [encName, encLabels, lowerName]
  | cons l ls ih =>
    intro rest n hok hn
    obtain ⟨h1, h2⟩ := hok.head
    obtain ⟨n, rfl⟩ : ∃ k, n = k + 1 := ⟨n - 1, by simp [encName_cons] at hn; omega⟩
    have hb : (UInt8.ofNat l.length).toNat = l.length := by simp; omega
    have hb0 : UInt8.ofNat l.length ≠ 0 := by
      intro h0; rw [h0] at hb; simp at hb; omega
    rw [encName_cons, List.map_cons, encName_cons, List.cons_append, List.cons_append, lowerName,
      if_neg hb0, hb, List.append_assoc, List.take_left, List.drop_left,
      ih rest n hok.tail (by simp [encName_cons] at hn ⊢; omega)]
    simp

/-- **C24.** On a query — a name followed by anything, in particular the query
type — lower-casing maps every upper-case ASCII letter of every label to lower
case and changes nothing else; what follows the name is untouched even if its
bytes are upper-case letters. -/
theorem lowerCase_exact {s : DwStr} (h : Usable s) {ls : List (List UInt8)} (hok : LabelsOk ls)
    {rest : List UInt8} (hc : s.contents = encName ls ++ rest) :
    ∃ s', s.lowerCase = .ok s' ∧ Usable s' ∧ s'.max = s.max ∧
      s'.contents = encName (ls.map (List.map lower)) ++ rest := by
  obtain ⟨s', e1, e2, e3, e4⟩ := lowerCase_any h (by rw [hc]; simp [encName])
  refine ⟨s', e1, e2, e3, ?_⟩
  rw [e4, hc, lowerName_enc ls rest _ hok (Nat.le_refl _)]

theorem lowerName_length : ∀ (n : Nat) (l : List UInt8), (lowerName n l).length = l.length := by
  intro n
  induction n with
  | zero => intro l; rfl
  | succ n ih =>
    intro l
    cases l with
    | nil => rfl
    | cons b l =>
      simp only [lowerName]
      split_ifs
      · rfl
      · simp [ih]; omega

theorem lowerName_idem : ∀ (n : Nat) (l : List UInt8), l.length ≤ n →
    lowerName n (lowerName n l) = lowerName n l := by
  intro n
  induction n with
  | zero => intro l _; rfl
  | succ n ih =>
    intro l hl
    cases l with
    | nil => rfl
    | cons b l =>
      simp only [List.length_cons] at hl
      by_cases h0 : b = 0
      · have : lowerName (n + 1) (b :: l) = b :: l := by simp [lowerName, h0]
        rw [this, this]
      · have e : lowerName (n + 1) (b :: l) =
            b :: ((l.take b.toNat).map lower ++ lowerName n (l.drop b.toNat)) := by
          simp [lowerName, h0]
        rw [e, lowerName, if_neg h0]
        congr 1
        by_cases hb : b.toNat ≤ l.length
        · have hlen : ((l.take b.toNat).map lower).length = b.toNat := by simp; omega
          rw [List.take_left' hlen, List.drop_left' hlen, ih _ (by simp; omega), List.map_map]
          congr 1
          apply List.map_congr_left
          intro x _; exact lower_idem x
        · rw [List.drop_eq_nil_of_le (by omega : l.length ≤ b.toNat),
            List.take_of_length_le (by omega : l.length ≤ b.toNat), lowerName_nil,
            List.append_nil, List.take_of_length_le (by simp; omega),
            List.drop_eq_nil_of_le (by simp; omega), lowerName_nil, List.map_map, List.append_nil]
          apply List.map_congr_left
          intro x _; exact lower_idem x

/-- **C24 (idempotence).** Lower-casing twice is lower-casing once, on any string. -/
theorem lowerCase_idem {s s' : DwStr} (h : Usable s) (h1 : s.lowerCase = .ok s') :
    ∃ s'', s'.lowerCase = .ok s'' ∧ s''.contents = s'.contents := by
  have hne : s.contents ≠ [] := by
    intro he; rw [lowerCase_empty h he] at h1; cases h1
  obtain ⟨t, e1, e2, e3, e4⟩ := lowerCase_any h hne
  rw [e1] at h1
  cases h1
  have hlen : s'.contents.length = s.contents.length := by rw [e4, lowerName_length]
  have hne' : s'.contents ≠ [] := by
    intro he; rw [he] at hlen; exact hne (List.length_eq_zero_iff.1 hlen.symm)
  obtain ⟨t, f1, f2, f3, f4⟩ := lowerCase_any e2 hne'
  refine ⟨t, f1, ?_⟩
  rw [f4, hlen, e4, lowerName_idem _ _ (Nat.le_refl _)]

/-! ## Concrete instances -/

/-- A string with the given contents. -/
def ofBytes (l : List UInt8) : DwStr := ⟨l.length, l.length + 1, l ++ [0, 0, 0]⟩

theorem ofBytes_usable {l : List UInt8} (h : l.length < 134217727) : Usable (ofBytes l) :=
  ⟨by simp [ofBytes, DwStr.WF], by simp [ofBytes], by simp [ofBytes]; omega⟩

theorem ofBytes_contents (l : List UInt8) : (ofBytes l).contents = l := by
  simp [ofBytes, contents]

/-- `WwW.eXample.` with the query type 0x4142 (`AB`): the type is untouched. -/
def exQuery : List UInt8 := encName [[87, 119, 87], [101, 88, 97, 109, 112, 108, 101]] ++ [65, 66]

example : LabelsOk [[87, 119, 87], [101, 88, 97, 109, 112, 108, 101]] ∧
    (ofBytes exQuery).lowerCase = .ok (ofBytes
      (encName [[119, 119, 119], [101, 120, 97, 109, 112, 108, 101]] ++ [65, 66])) := by
  constructor
  · intro l hl; simp at hl; rcases hl with rfl | rfl <;> simp
  · decide +kernel

/-- A length byte that looks like a letter is not changed: 65 letters after `A`. -/
example : (ofBytes (65 :: List.replicate 65 90 ++ [0, 90])).lowerCase =
    .ok (ofBytes (65 :: List.replicate 65 122 ++ [0, 90])) := by decide +kernel

/-- A cached answer: `a. CNAME b.`, `b. A 1.2.3.4`, `b. A 10.0.0.1`, `b. AAAA ::1`. -/
def exAnswer : Packed where
  an := [⟨[1, 97, 0], 5, [0, 1], 3600, [0, 3], [1, 98, 0]⟩,
    ⟨[1, 98, 0], 1, [0, 1], 4294967295, [0, 4], [1, 2, 3, 4]⟩,
    ⟨[1, 98, 0], 1, [0, 1], 60, [0, 4], [10, 0, 0, 1]⟩,
    ⟨[1, 98, 0], 28, [0, 1], 60, [0, 16], [0, 0, 0, 0, 0, 0, 0, 0, 0, 0, 0, 0, 0, 0, 0, 1]⟩]
  ns := []
  ar := []
  kind := 0

theorem exAnswer_ok : exAnswer.Ok := by
  refine ⟨?_, by decide, Or.inl rfl⟩
  intro r hr
  simp [Packed.all, exAnswer] at hr
  rcases hr with rfl | rfl | rfl | rfl <;> exact ⟨by decide, rfl, by decide, rfl⟩

/-- C25: with seven seconds left every answer record gets the lifetime 7. -/
example : exAnswer.Ok ∧ exAnswer.all ≠ [] ∧
    (ofBytes exAnswer.enc).ttlAge 7 [] = .ok (ofBytes (exAnswer.aged 7).enc) ∧
    (exAnswer.aged 7).an.map RR.ttl = [7, 7, 7, 7] :=
  ⟨exAnswer_ok, by decide, by decide +kernel, by decide⟩

/-- C23: with the filter this answer is refused because of 10.0.0.1; without it
only a block list entry counts, here `::1`. -/
example : (∀ r ∈ exAnswer.an, r.type = 1 → 4 ≤ r.rdata.length) ∧
    (∀ r ∈ exAnswer.an, r.type = 28 → 16 ≤ r.rdata.length) ∧
    hasBadIp true (fun _ => false) (ofBytes exAnswer.enc) [] = .ok true ∧
    hasBadIp false (fun _ => false) (ofBytes exAnswer.enc) [] = .ok false ∧
    hasBadIp false (fun x => x == [0, 0, 0, 0, 0, 0, 0, 0, 0, 0, 0, 0, 0, 0, 0, 1])
      (ofBytes exAnswer.enc) [] = .ok true :=
  ⟨by decide, by decide, by decide +kernel, by decide +kernel, by decide +kernel⟩

/-- C26: the CNAME stays in front, the first address goes last. -/
example : ∃ q, exAnswer.rotated = some q ∧
    (ofBytes exAnswer.enc).rrRotate [] = .ok (ofBytes q.enc) ∧
    q.an.map RR.type = [5, 1, 28, 1] ∧ q.an.map RR.ttl = [3600, 60, 60, 4294967295] :=
  ⟨_, rfl, by decide +kernel, by decide, by decide⟩

/-- Finding: an answer that also carries authority records is never rotated. -/
theorem rotate_refuses_authority {s : DwStr} (h : Usable s) {p : Packed} (hp : p.Ok)
    (hns : p.ns ≠ []) (hc : s.contents = p.enc) (junk : List UInt8) : s.rrRotate junk = .err := by
  have := rrRotate_exact h hp (by simp [Packed.all, hns]) hc junk
  have hr : p.rotated = none := by simp [Packed.rotated, hns]
  rwa [hr] at this

end DwStr
end Dw
