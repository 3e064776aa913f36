import Verif.Deadwood.AnyLemmas
/-!
# Lemmas: a name that compares equal is a name

A place in a string nobody has checked that is the same name as one of a question holds that name, and all of it is inside the
string.
-/

namespace Dw
namespace Dissect
open DwStr Spec

theorem labelLoop_full {a b : DwStr} : ∀ (n c p q : Nat) {c' p' q' : Nat}, p ≤ a.len →
    labelLoop a b n c p q = .ok (some (c', p', q')) →
    260 ≤ c' ∨ (c' = c + n ∧ p' = p + n ∧ q' = q + n ∧ p + n ≤ a.len ∧
      ∀ k < n, ∃ x y, a.peek (p + 1 + k) = .ok x ∧ b.peek (q + 1 + k) = .ok y ∧ low x = low y)
  | 0, c, p, q, c', p', q', hp, h => by
    unfold labelLoop at h
    cases h
    exact .inr ⟨rfl, rfl, rfl, hp, by omega⟩
  | n + 1, c, p, q, c', p', q', hp, h => by
    unfold labelLoop at h
    split at h
    · cases h; exact .inl (by assumption)
    split at h
    · cases h
    · rename_i hlt
      cases hx : a.peek (p + 1) with
      | ub => rw [hx] at h; cases h
      | err => rw [hx] at h; cases h
      | ok x =>
      cases hy : b.peek (q + 1) with
      | ub => rw [hx, hy] at h; cases h
      | err => rw [hx, hy] at h; cases h
      | ok y =>
      rw [hx, hy] at h
      simp only [Res.ok_bind] at h
      split at h
      · cases h
      · rename_i he
        rcases labelLoop_full n (c + 1) (p + 1) (q + 1) (by omega) h with e | ⟨e1, e2, e3, e4, e5⟩
        · exact .inl e
        · refine .inr ⟨by omega, by omega, by omega, by omega, fun k hk => ?_⟩
          by_cases h0 : k = 0
          · subst h0
            exact ⟨x, y, hx, hy, by simpa using he⟩
          · obtain ⟨x, y, h1, h2, h3⟩ := e5 (k - 1) (by omega)
            exact ⟨x, y, by rw [← h1]; congr 1; omega, by rw [← h2]; congr 1; omega, h3⟩

/-- The last byte of a string is below all bytes of names. -/
def Ends (a : DwStr) : Prop := ∃ x k, a.contents = x ++ [k] ∧ k.toNat < 32

theorem low_below {x y : UInt8} (h : low x = low y) (hy : 32 ≤ y.toNat) : 32 ≤ x.toNat := by
  have hlow : ∀ z : UInt8, 32 ≤ z.toNat → 32 ≤ (low z).toNat := by
    intro z hz
    unfold low
    split
    · rename_i hc
      rw [UInt8.toNat_add]
      have : (32 : UInt8).toNat = 32 := rfl
      omega
    · exact hz
  have h2 := hlow y hy
  rw [← h] at h2
  unfold low at h2
  split at h2
  · omega
  · exact h2

theorem nameLoop_found {a b : DwStr} (ha : Usable a) (hb : Usable b) (he : Ends a) : ∀ (n : Nat) {c i j : Nat}
    {ms : List (List UInt8)}, i < a.len → PlainAt b.mem j ms → NoCtl ms → nameLoop a b n c i j = .ok true →
    ∃ ls rest, a.contents.drop i = encName ls ++ rest ∧ LabelsOk ls ∧ SameName ls ms ∧ c + 3 * ls.length < 260
  | 0, c, i, j, ms, _, _, _, h => by unfold nameLoop at h; cases h
  | n + 1, c, i, j, ms, hi, hm, hctl, h => by
    have hcl := ha.clen
    unfold nameLoop at h
    split at h
    · cases h
    · rename_i hc
      have hx := peek_contents (s := a) (i := i) (by omega)
      obtain ⟨hy, hy63⟩ := plain_byte hm
      rw [hx, mem_peek hy] at h
      simp only [Res.ok_bind] at h
      split at h
      · cases h
      rename_i hxy
      have hxy : a.contents[i] = UInt8.ofNat (hd ms).length := by simpa using hxy
      have hdrop : a.contents.drop i = a.contents[i] :: a.contents.drop (i + 1) := List.drop_eq_getElem_cons (by omega)
      split at h
      · cases h
      split at h
      · rename_i h0
        cases hm with
        | root _ => exact ⟨[], a.contents.drop (i + 1), by rw [hdrop, h0]; simp [encName, encLabels], (by intro l hl; cases hl), rfl,
            by simp; omega⟩
        | @label _ m ms hm1 hm2 =>
          exfalso
          have := hm1.pos
          rw [hxy] at h0
          have := congrArg UInt8.toNat h0
          simp only [hd, List.headD_cons] at this hy63
          rw [ofNat8_toNat] at this
          have h0' : (0 : UInt8).toNat = 0 := rfl
          omega
      · rename_i h0
        cases hm with
        | root _ => exact absurd (by rw [hxy]; rfl) h0
        | @label _ m ms hm1 hm2 =>
          simp only [hd, List.headD_cons] at hxy hy63
          have hto : a.contents[i].toNat = m.length := by rw [hxy, ofNat8_toNat]; omega
          rw [hto] at h
          cases hl : labelLoop a b (m.length + 1) c i j with
          | ub => rw [hl] at h; cases h
          | err => rw [hl] at h; cases h
          | ok r =>
          rw [hl] at h
          simp only [Res.ok_bind] at h
          cases r with
          | none => cases h
          | some r =>
          obtain ⟨c', p', q'⟩ := r
          simp only at h
          rcases labelLoop_full (m.length + 1) c i j (by omega) hl with e | ⟨e1, e2, e3, e4, e5⟩
          · exfalso
            cases n with
            | zero => unfold nameLoop at h; cases h
            | succ n => unfold nameLoop at h; rw [if_pos (by omega)] at h; cases h
          · have hpos := hm1.pos
            have hbyte : ∀ k (hk : k < m.length), ∃ x, a.peek (i + 1 + k) = .ok x ∧ low x = low m[k] := by
              intro k hk
              obtain ⟨x, y, g1, g2, g3⟩ := e5 k (by omega)
              have := mem_peek (hm1.bytes k hk)
              rw [this] at g2
              cases g2
              exact ⟨x, g1, g3⟩
            have hlt : i + (m.length + 1) < a.len := by
              rcases Nat.lt_or_ge (i + (m.length + 1)) a.len with hlt | hge
              · exact hlt
              · exfalso
                obtain ⟨x, g1, g2⟩ := hbyte (m.length - 1) (by omega)
                obtain ⟨z, k, hz, hk⟩ := he
                have hlen : a.contents.length = z.length + 1 := by rw [hz]; simp
                have hpk := peek_contents (s := a) (i := i + 1 + (m.length - 1)) (by omega)
                rw [g1] at hpk
                cases hpk
                have hlast : a.contents[i + 1 + (m.length - 1)]'(by omega) = k := by
                  have : i + 1 + (m.length - 1) = z.length := by omega
                  simp only [hz, this]
                  simp
                rw [hlast] at g2
                have h32 := hctl m (by simp) (m[m.length - 1]) (by simp)
                have := low_below g2 (by have := UInt8.le_iff_toNat_le.1 h32; simpa using this)
                omega
            have hnext : nameLoop a b n (c' + 1) (i + (m.length + 1)) (j + (m.length + 1)) = .ok true := by rw [← e2, ← e3]; exact h
            obtain ⟨ls, rest, k1, k2, k3, k4⟩ := nameLoop_found ha hb he n hlt
              (by simpa [Nat.add_assoc] using hm2) (fun l hl => hctl l (by simp [hl])) hnext
            have hsplit : a.contents.drop (i + 1) = (a.contents.drop (i + 1)).take m.length ++ a.contents.drop (i + (m.length + 1)) := by
              conv_lhs => rw [← List.take_append_drop m.length (a.contents.drop (i + 1))]
              rw [List.drop_drop]
              congr 2
              omega
            have hwl : ((a.contents.drop (i + 1)).take m.length).length = m.length := by
              simp only [List.length_take, List.length_drop]; omega
            refine ⟨(a.contents.drop (i + 1)).take m.length :: ls, rest, ?_, ?_, ?_, by simp only [List.length_cons]; omega⟩
            · have hthis : encName ((a.contents.drop (i + 1)).take m.length :: ls) ++ rest =
                  UInt8.ofNat m.length :: ((a.contents.drop (i + 1)).take m.length ++ (encName ls ++ rest)) := by
                simp only [encName, encLabels_cons, hwl]
                simp
              rw [hthis, ← k1, ← hsplit, hdrop, hxy]
            · intro l hl
              rcases List.mem_cons.1 hl with rfl | hl
              · rw [hwl]; omega
              · exact k2 l hl
            · rw [sameName_cons]
              refine ⟨?_, k3⟩
              rw [← show low = lower from funext low_lower]
              apply List.ext_getElem
              · simp only [List.length_map, hwl]
              · intro k g1 g2
                simp only [List.length_map] at g2
                obtain ⟨x, g3, g4⟩ := hbyte k g2
                have := peek_contents (s := a) (i := i + 1 + k) (by omega)
                rw [g3] at this
                cases this
                simp only [List.getElem_map, List.getElem_take, List.getElem_drop]
                exact g4

/-- A place that compares equal to a name of the question holds that name. -/
theorem isSame_found {a b : DwStr} (ha : Usable a) (hb : Usable b) (he : Ends a) {i j : Nat} {ms : List (List UInt8)}
    (hi : i < a.len) (hm : PlainAt b.mem j ms) (hctl : NoCtl ms) (h : isSame a i b j = .ok true) :
    ∃ ls rest, a.contents.drop i = encName ls ++ rest ∧ LabelsOk ls ∧ SameName ls ms ∧ ls.length < 87 := by
  unfold isSame at h
  split at h
  · cases h
  · obtain ⟨ls, rest, h1, h2, h3, h4⟩ := nameLoop_found ha hb he 261 hi hm hctl h
    exact ⟨ls, rest, h1, h2, h3, by omega⟩

theorem queryLoop_found {inp query : DwStr} (hi : Usable inp) (hq : Usable query) (he : Ends inp) {o : Nat} (ho : o < inp.len) :
    ∀ (n q : Nat) {ms : List (List UInt8)}, PlainAt query.mem q ms → NoCtl ms → queryLoop inp o query n q = .ok true →
    ∃ ls rest, inp.contents.drop o = encName ls ++ rest ∧ LabelsOk ls ∧ ls.length < 87 ∧ ∃ m ms', m ++ ms' = ms ∧ SameName ls ms'
  | 0, q, ms, _, _, h => by unfold queryLoop at h; cases h
  | n + 1, q, ms, hm, hctl, h => by
    unfold queryLoop at h
    obtain ⟨hy, hy63⟩ := plain_byte hm
    rw [mem_peek hy] at h
    simp only [Res.ok_bind] at h
    split at h
    · cases h
    rename_i h0
    split at h
    · cases h
    split at h
    · cases h
    cases hm with
    | root _ => exact absurd rfl h0
    | @label _ m ms hm1 hm2 =>
      simp only [hd, List.headD_cons] at h hy63
      rw [show (UInt8.ofNat m.length).toNat = m.length by rw [ofNat8_toNat]; omega] at h
      have hctl' : NoCtl ms := fun l hl => hctl l (by simp [hl])
      have hm2' : PlainAt query.mem (q + m.length + 1) ms := by simpa [Nat.add_assoc, Nat.add_comm 1] using hm2
      cases hs : isSame inp o query (q + m.length + 1) with
      | ub => rw [hs] at h; cases h
      | err => rw [hs] at h; cases h
      | ok r =>
      rw [hs] at h
      simp only [Res.ok_bind] at h
      cases r with
      | true =>
        obtain ⟨ls, rest, h1, h2, h3, h4⟩ := isSame_found hi hq he ho hm2' hctl' hs
        exact ⟨ls, rest, h1, h2, h4, [m], ms, rfl, h3⟩
      | false =>
        simp only [Bool.false_eq_true, if_false] at h
        obtain ⟨ls, rest, h1, h2, h3, x, y, h4, h5⟩ := queryLoop_found hi hq he ho n _ hm2' hctl' h
        exact ⟨ls, rest, h1, h2, h3, m :: x, y, by rw [← h4]; rfl, h5⟩

/-- A place accepted as one of the servers' zone holds a name that the question is below. -/
theorem inBailiwick_found {inp b query : DwStr} (hi : Usable inp) (hq : Usable query) (he : Ends inp) {o : Nat}
    {qs : List (List UInt8)} (hm : PlainAt query.mem 0 qs) (hctl : NoCtl qs)
    (h : inBailiwick inp o b (some query) = .ok true) :
    o < inp.len ∧ ∃ ls rest, inp.contents.drop o = encName ls ++ rest ∧ LabelsOk ls ∧ ls.length < 87 ∧
      ∃ m ms', m ++ ms' = qs ∧ SameName ls ms' := by
  unfold inBailiwick at h
  simp only at h
  cases hb : bailiwickQuery inp o query with
  | ub => rw [hb] at h; cases h
  | err => rw [hb] at h; cases h
  | ok r =>
  rw [hb] at h
  simp only [Res.ok_bind] at h
  cases r with
  | false => cases h
  | true =>
  simp only [Bool.not_true, Bool.false_eq_true, if_false] at h
  unfold bailiwickTop at h
  split at h
  · cases h
  rename_i ho
  have ho : o < inp.len := by omega
  refine ⟨ho, ?_⟩
  unfold bailiwickQuery at hb
  split at hb
  · cases hb
  cases hs : isSame inp o query 0 with
  | ub => rw [hs] at hb; cases hb
  | err => rw [hs] at hb; cases hb
  | ok r =>
  rw [hs] at hb
  simp only [Res.ok_bind] at hb
  cases r with
  | true =>
    obtain ⟨ls, rest, h1, h2, h3, h4⟩ := isSame_found hi hq he ho hm hctl hs
    exact ⟨ls, rest, h1, h2, h4, [], qs, rfl, h3⟩
  | false =>
    simp only [Bool.false_eq_true, if_false] at hb
    exact queryLoop_found hi hq he ho 1024 0 hm hctl hb

end Dissect
end Dw
