import Verif.Deadwood.CompressLemmas
/-!
# Compression never misbehaves
-/

namespace Dw
namespace DwStr
open Spec

/-- `c'` is `c` with something appended. -/
def Grow (c c' : DwStr) : Prop := Usable c' ∧ c'.max = c.max ∧ ∃ x, c'.contents = c.contents ++ x

theorem Grow.refl {c : DwStr} (h : Usable c) : Grow c c := ⟨h, rfl, [], by simp⟩

theorem Grow.trans {a b c : DwStr} (h1 : Grow a b) (h2 : Grow b c) : Grow a c := by
  obtain ⟨-, m1, x, e1⟩ := h1
  obtain ⟨u2, m2, y, e2⟩ := h2
  exact ⟨u2, by rw [m2, m1], x ++ y, by rw [e2, e1]; simp⟩

theorem Grow.len {a b : DwStr} (ha : Usable a) (h : Grow a b) : a.len ≤ b.len := by
  obtain ⟨u, -, x, e⟩ := h
  rw [← ha.clen, ← u.clen, e]; simp

theorem append_grow {t c : DwStr} (ht : Live t) (hc : Usable c) :
    ∃ c', c.orElse (append t c) = .ok c' ∧ Grow c c' := by
  rcases append_safe ht hc with e | ⟨o, e, u, m, x, hx⟩
  · exact ⟨c, by rw [e]; rfl, Grow.refl hc⟩
  · exact ⟨o, by rw [e]; rfl, u, m, x, hx⟩

theorem addchar_grow {c : DwStr} (hc : Usable c) (x : UInt8) :
    ∃ c', c.orElse (addchar x c) = .ok c' ∧ Grow c c' := by
  obtain ⟨o, e, u, m, h⟩ := addchar_squeeze hc x
  obtain ⟨y, hy⟩ := squeeze_ext c.max [[x]] c.contents
  exact ⟨o, e, u, m, y, by rw [h, hy]⟩

theorem getDnEnd_safe {s : DwStr} (h : Usable s) (o : Nat) :
    getDnEnd s o = .err ∨ ∃ e, getDnEnd s o = .ok e := by
  rcases getDnEnd_exact h o with ⟨e, -, g⟩ | ⟨-, g | ⟨r, g, -⟩⟩
  · exact Or.inr ⟨e, g⟩
  · exact Or.inl g
  · exact Or.inr ⟨r, g⟩

theorem isYes_dname {u c : DwStr} (hu : Usable u) (hc : Usable c) {q : Option DwStr}
    (hq : ∀ x, q = some x → Usable x) (uo co : Nat) :
    ∃ r, isYes (dnameSame u uo c co q) = .ok r := by
  rcases dnameSame_total hu hc hq uo co with e | ⟨r, e⟩ <;> rw [e]
  exacts [⟨_, rfl⟩, ⟨_, rfl⟩]

theorem seekLoop_safe {u c q s : DwStr} (hu : Usable u) (hc : Usable c) (hq : Usable q) (hs : Usable s)
    (uo : Nat) : ∀ (n so : Nat),
    seekLoop u uo c q s n so = .err ∨ ∃ r, seekLoop u uo c q s n so = .ok r := by
  intro n
  induction n with
  | zero => intro so; exact Or.inr ⟨none, rfl⟩
  | succ n ih =>
    intro so
    rw [seekLoop]
    by_cases h : so < s.len
    · rw [if_pos h]
      have h1 := hs.lt; have h2 := hs.lim
      rcases fetchU16_safe hs (so : Int) (by omega) with e | ⟨v, e, -⟩
      · rw [e]; exact Or.inl rfl
      · rw [e, Res.ok_bind]
        simp only
        split
        · obtain ⟨r, hr⟩ := isYes_dname (q := none) hu hq (by simp) uo (v % 16384)
          rw [hr, Res.ok_bind]
          cases r
          · exact ih _
          · exact Or.inr ⟨_, rfl⟩
        · obtain ⟨r, hr⟩ := isYes_dname (q := some q) hu hc (fun x hx => by cases hx; exact hq) uo (v % 16384)
          rw [hr, Res.ok_bind]
          cases r
          · exact ih _
          · exact Or.inr ⟨_, rfl⟩
    · rw [if_neg h]; exact Or.inr ⟨none, rfl⟩

theorem seekCompPointer_safe {u c q s : DwStr} (hu : Usable u) (hc : Usable c) (hq : Usable q) (hs : Usable s)
    (uo : Nat) :
    seekCompPointer u uo c q s = .err ∨ ∃ r, seekCompPointer u uo c q s = .ok r ∧ uo ≤ u.len := by
  rw [seekCompPointer]
  by_cases h : uo > u.len
  · left; simp [h]
  · simp only [hu.sane, hc.sane, Bool.not_true, Bool.or_self,
      decide_eq_false h, Bool.false_eq_true, if_false]
    rcases seekLoop_safe hu hc hq hs uo 1000 0 with e | ⟨r, e⟩
    · exact Or.inl e
    · exact Or.inr ⟨r, e, by omega⟩

theorem compressName_safe {u q : DwStr} (hu : Usable u) (hq : Usable q) (junk : List UInt8) :
    ∀ (n uo : Nat) {c s : DwStr}, Usable c → Usable s →
    compressName u q junk n uo c s = .err ∨
    ∃ e c' s', compressName u q junk n uo c s = .ok (e, c', s') ∧ Grow c c' ∧ Grow s s' := by
  intro n
  induction n with
  | zero => intro uo c s _ _; exact Or.inl rfl
  | succ n ih =>
    intro uo c s hc hs
    rw [compressName]
    rcases seekCompPointer_safe hu hc hq hs uo with e | ⟨r, e, hle⟩
    · rw [e]; exact Or.inl rfl
    · rw [e, Res.ok_bind]
      cases r with
      | some p =>
        simp only
        rcases pushU16_safe hc (v := p % 16384 + 49152) with e | ⟨c', e, u1, m1, x1⟩
        · rw [e]; exact Or.inl rfl
        · rw [e, Res.ok_bind]
          rcases getDnEnd_safe hu uo with e2 | ⟨r, e2⟩
          · rw [e2]; exact Or.inl rfl
          · rw [e2, Res.ok_bind]
            exact Or.inr ⟨_, _, _, rfl, ⟨u1, m1, _, x1⟩, Grow.refl hs⟩
      | none =>
        simp only
        obtain ⟨x, hx⟩ := peek_block hu (i := uo) (by omega)
        rw [hx, Res.ok_bind]
        by_cases h1 : 63 < x
        · rw [if_pos h1]; exact Or.inl rfl
        · rw [if_neg h1]
          by_cases h2 : x = 0
          · rw [if_pos h2]
            obtain ⟨c', e1, g1⟩ := addchar_grow hc 0
            rw [e1, Res.ok_bind]
            exact Or.inr ⟨_, _, _, rfl, g1, Grow.refl hs⟩
          · rw [if_neg h2]
            rcases pushU16_safe hs (v := c.len % 65536) with e1 | ⟨s1, e1, us1, ms1, cs1⟩
            · rw [e1]; exact Or.inl rfl
            · rw [e1, Res.ok_bind]
              have h3 := hu.lt; have h4 := hu.lim; have h5 := x.toNat_lt
              rcases substr_safe hu uo (x.toNat + 1 : Nat) junk (by omega) (by omega) with e2 | ⟨t, e2, lt⟩
              · rw [e2]; exact Or.inl rfl
              · rw [e2, Res.ok_bind]
                obtain ⟨c1, e3, g3⟩ := append_grow lt hc
                rw [e3, Res.ok_bind]
                rcases ih (uo + (x.toNat + 1)) g3.1 us1 with e4 | ⟨e, c', s', e4, g4, g5⟩
                · exact Or.inl e4
                · exact Or.inr ⟨e, c', s', e4, g3.trans g4, Grow.trans ⟨us1, ms1, _, cs1⟩ g5⟩

theorem compressDlabels_safe {u q : DwStr} (hu : Usable u) (hq : Usable q) (junk : List UInt8) :
    ∀ (num uo : Nat) {c s : DwStr}, Usable c → Usable s →
    compressDlabels u q junk num uo c s = .err ∨
    ∃ e c' s', compressDlabels u q junk num uo c s = .ok (e, c', s') ∧ Grow c c' ∧ Grow s s' ∧ e ≤ u.len := by
  intro num
  induction num with
  | zero =>
    intro uo c s hc hs
    rw [compressDlabels]
    by_cases h : uo > u.len
    · left; simp [h]
    · simp only [hu.sane, hc.sane, hs.sane, Bool.not_true, Bool.or_self, decide_eq_false h,
        Bool.false_eq_true, if_false]
      exact Or.inr ⟨uo, c, s, rfl, Grow.refl hc, Grow.refl hs, by omega⟩
  | succ num ih =>
    intro uo c s hc hs
    rw [compressDlabels]
    by_cases h : uo > u.len
    · left; simp [h]
    · simp only [hu.sane, hc.sane, hs.sane, Bool.not_true, Bool.or_self, decide_eq_false h,
        Bool.false_eq_true, if_false]
      rcases compressName_safe hu hq junk 300 uo hc hs with e | ⟨e1, c1, s1, e, g1, g2⟩
      · rw [e]; exact Or.inl rfl
      · rw [e, Res.ok_bind]
        rcases ih e1 g1.1 g2.1 with e' | ⟨e2, c2, s2, e', g3, g4, g5⟩
        · exact Or.inl e'
        · exact Or.inr ⟨e2, c2, s2, e', g1.trans g3, g2.trans g4, g5⟩

theorem compRddata_safe {u q c s : DwStr} (hu : Usable u) (hq : Usable q) (hc : Usable c) (hs : Usable s)
    (lead names tail offset : Nat) (hl : lead ≤ 100) (ht : tail ≤ 100) (junk : List UInt8) :
    compRddata lead names tail u offset c s q junk = .err ∨
    ∃ e c' s', compRddata lead names tail u offset c s q junk = .ok (e, c', s') ∧ Grow c c' ∧ Grow s s' := by
  rw [compRddata]
  by_cases h : offset > u.len
  · left; simp [h]
  · simp only [hu.sane, hc.sane, hs.sane, Bool.not_true, Bool.or_self, decide_eq_false h,
      Bool.false_eq_true, if_false]
    have h3 := hu.lt; have h4 := hu.lim
    have key : ∀ {c1 : DwStr}, Grow c c1 →
        (do
          let (offset, c, s) ← compressDlabels u q junk names (offset + lead) c1 s
          if tail > 0 then do
            let tmp ← u.substr offset tail 1 junk
            let c ← append tmp c
            .ok (offset + tail, c, s)
          else .ok (offset, c, s)) = Res.err ∨
        ∃ e c' s', (do
          let (offset, c, s) ← compressDlabels u q junk names (offset + lead) c1 s
          if tail > 0 then do
            let tmp ← u.substr offset tail 1 junk
            let c ← append tmp c
            .ok (offset + tail, c, s)
          else .ok (offset, c, s)) = Res.ok (e, c', s') ∧ Grow c c' ∧ Grow s s' := by
      intro c1 g1
      rcases compressDlabels_safe hu hq junk names (offset + lead) g1.1 hs with e | ⟨e1, c2, s2, e, g2, g3, hle⟩
      · rw [e]; exact Or.inl rfl
      · rw [e, Res.ok_bind]
        simp only
        by_cases h1 : tail > 0
        · rw [if_pos h1]
          rcases substr_safe hu e1 tail junk (by omega) (by omega) with e2 | ⟨t, e2, lt⟩
          · rw [e2]; exact Or.inl rfl
          · rw [e2, Res.ok_bind]
            rcases append_safe lt g2.1 with e3 | ⟨o, e3, u3, m3, x3⟩
            · rw [e3]; exact Or.inl rfl
            · rw [e3, Res.ok_bind]
              exact Or.inr ⟨_, _, _, rfl, (g1.trans g2).trans ⟨u3, m3, x3⟩, g3⟩
        · rw [if_neg h1]
          exact Or.inr ⟨_, _, _, rfl, g1.trans g2, g3⟩
    by_cases h1 : lead > 0
    · rw [if_pos h1]
      rcases substr_safe hu offset lead junk (by omega) (by omega) with e2 | ⟨t, e2, lt⟩
      · simp only [e2]; exact Or.inl rfl
      · simp only [e2, Res.ok_bind]
        rcases append_safe lt hc with e3 | ⟨o, e3, u3, m3, x3⟩
        · rw [e3]; exact Or.inl rfl
        · rw [e3, Res.ok_bind]
          exact key ⟨u3, m3, x3⟩
    · rw [if_neg h1, Res.ok_bind]
      exact key (Grow.refl hc)

theorem putU16_longer {s : DwStr} (h : Usable s) (v : Nat) (o : Int)
    (ho : -1073741824 ≤ o ∧ o ≤ 1073741823) :
    ∃ s', s.orElse (putU16 s v o) = .ok s' ∧ Usable s' ∧ s'.max = s.max ∧ s.len ≤ s'.len := by
  rcases putU16_safe h v o ho with e | ⟨s', e, u, m⟩
  · exact ⟨s, by rw [e]; rfl, h, rfl, Nat.le_refl _⟩
  · refine ⟨s', by rw [e]; rfl, u, m, ?_⟩
    unfold putU16 at e
    simp only [h.sane, Bool.not_true, Bool.false_eq_true, if_false] at e
    generalize (if o < 0 then (s.len : Int) + o + 1 else o) = o' at e
    have hpoke : ∀ {a b : DwStr} {i : Nat} {x : UInt8}, a.poke i x = .ok b → b.len = a.len := by
      intro a b i x hh
      unfold poke at hh
      split at hh
      · injection hh with hh; rw [← hh]
      · cases hh
    split at e
    · cases e
    · split at e
      · split at e
        · cases e
        · cases h1 : ({ s with len := s.len + (s.len - o'.toNat + 2) } : DwStr).poke o'.toNat (byte (v / 256)) with
          | ok s1 =>
            rw [h1, Res.ok_bind] at e
            rw [hpoke e, hpoke h1]; simp
          | err => rw [h1] at e; cases e
          | ub => rw [h1] at e; cases e
      · cases h1 : s.poke o'.toNat (byte (v / 256)) with
        | ok s1 =>
          rw [h1, Res.ok_bind] at e
          rw [hpoke e, hpoke h1]; exact Nat.le_refl _
        | err => rw [h1] at e; cases e
        | ub => rw [h1] at e; cases e

theorem compressRr_safe {u q c s : DwStr} (hu : Usable u) (hq : Usable q) (hc : Usable c) (hs : Usable s)
    (o : Nat × Nat) (junk : List UInt8) :
    compressRr o u c q s junk = .err ∨
    ∃ c' s', compressRr o u c q s junk = .ok (c', s') ∧ Usable c' ∧ c'.max = c.max ∧ c.len ≤ c'.len ∧ Grow s s' := by
  have h3 := hu.lt; have h4 := hu.lim
  rw [compressRr]
  simp only [hu.sane, hc.sane, hs.sane, hq.sane, Bool.not_true, Bool.or_self, Bool.false_eq_true, if_false]
  by_cases h : o.1 > u.len ∨ o.2 > u.len ∨ o.1 > o.2
  · rw [if_pos h]; exact Or.inl rfl
  · rw [if_neg h]
    rcases compressDlabels_safe hu hq junk 1 o.1 hc hs with e | ⟨e1, c1, s1, e, g1, g2, hle⟩
    · rw [e]; exact Or.inl rfl
    · rw [e, Res.ok_bind]
      simp only
      by_cases h1 : e1 ≠ o.2
      · rw [if_pos h1]; exact Or.inl rfl
      · rw [if_neg h1]
        rcases substr_safe hu e1 10 junk (by omega) (by omega) with e2 | ⟨t, e2, lt⟩
        · rw [e2]; exact Or.inl rfl
        · rw [e2, Res.ok_bind]
          obtain ⟨c2, e3, g3⟩ := append_grow lt g1.1
          rw [e3, Res.ok_bind]
          obtain ⟨v, e4, hv1, hv2⟩ := fetchI_safe hu (e1 : Int) (by omega)
          rw [e4, Res.ok_bind]
          have raw : (do
              let len ← u.fetchI ((e1 + 8 : Nat) : Int)
              let tmp ← u.substr ((e1 + 10 : Nat) : Int) len 1 junk
              let c ← append tmp c2
              .ok (c, s1)) = (Res.err : Res (DwStr × DwStr)) ∨
              ∃ c' s', (do
              let len ← u.fetchI ((e1 + 8 : Nat) : Int)
              let tmp ← u.substr ((e1 + 10 : Nat) : Int) len 1 junk
              let c ← append tmp c2
              .ok (c, s1)) = Res.ok (c', s') ∧ Usable c' ∧ c'.max = c.max ∧ c.len ≤ c'.len ∧ Grow s s' := by
            obtain ⟨w, e5, hw1, hw2⟩ := fetchI_safe hu ((e1 + 8 : Nat) : Int) (by omega)
            rw [e5, Res.ok_bind]
            rcases substr_safe hu ((e1 + 10 : Nat) : Int) w junk (by omega) (by omega) with e6 | ⟨t6, e6, lt6⟩
            · rw [e6]; exact Or.inl rfl
            · rw [e6, Res.ok_bind]
              rcases append_safe lt6 g3.1 with e7 | ⟨o7, e7, u7, m7, x7⟩
              · rw [e7]; exact Or.inl rfl
              · rw [e7, Res.ok_bind]
                have g7 := (g1.trans g3).trans ⟨u7, m7, x7⟩
                exact Or.inr ⟨_, _, rfl, g7.1, g7.2.1, g7.len hc, g2⟩
          split
          · rename_i lead names tail htd
            have hsm : lead ≤ 100 ∧ tail ≤ 100 := by
              by_cases hneg : v < 0
              · rw [if_pos hneg] at htd; cases htd
              · rw [if_neg hneg] at htd; exact typeDesc_small htd
            rcases compRddata_safe hu hq g3.1 g2.1 lead names tail (e1 + 10) hsm.1 hsm.2 junk with
              e5 | ⟨e6, c3, s3, e5, g5, g6⟩
            · rw [e5]; exact Or.inl rfl
            · rw [e5, Res.ok_bind]
              simp only
              have h5 := g3.1.lt; have h6 := g3.1.lim
              obtain ⟨c4, e7, u7, m7, l7⟩ := putU16_longer g5.1 ((c3.len - c2.len) % 65536) ((c2.len : Int) - 2) (by omega)
              rw [e7, Res.ok_bind]
              have g7 := (g1.trans g3).trans g5
              exact Or.inr ⟨_, _, rfl, u7, by rw [m7, g7.2.1], by have := g7.len hc; omega, g2.trans g6⟩
          · exact raw

theorem compressRrs_safe {u q : DwStr} (hu : Usable u) (hq : Usable q) (junk : List UInt8) :
    ∀ (os : List (Nat × Nat)) {c s : DwStr}, Usable c → Usable s →
    compressRrs u q junk os c s = .err ∨
    ∃ c' s', compressRrs u q junk os c s = .ok (c', s') ∧ Usable c' ∧ c'.max = c.max ∧ c.len ≤ c'.len := by
  intro os
  induction os with
  | nil => intro c s hc _; exact Or.inr ⟨c, s, rfl, hc, rfl, Nat.le_refl _⟩
  | cons o os ih =>
    intro c s hc hs
    rw [compressRrs]
    rcases compressRr_safe hu hq hc hs o junk with e | ⟨c1, s1, e, u1, m1, l1, g1⟩
    · rw [e]; exact Or.inl rfl
    · rw [e, Res.ok_bind]
      rcases ih u1 g1.1 with e2 | ⟨c2, s2, e2, u2, m2, l2⟩
      · exact Or.inl e2
      · exact Or.inr ⟨c2, s2, e2, u2, by rw [m2, m1], by omega⟩

theorem pushOffsetsLoop_safe {dns : DwStr} (hd : Usable dns) (offset : Nat) :
    ∀ (n place : Nat) {s : DwStr}, Usable s →
    pushOffsetsLoop dns offset n place s = .err ∨
    ∃ s', pushOffsetsLoop dns offset n place s = .ok s' ∧ Grow s s' := by
  intro n
  induction n with
  | zero => intro place s hs; exact Or.inr ⟨s, rfl, Grow.refl hs⟩
  | succ n ih =>
    intro place s hs
    rw [pushOffsetsLoop]
    by_cases h : place > dns.len
    · rw [if_pos h]; exact Or.inl rfl
    · rw [if_neg h]
      obtain ⟨x, hx⟩ := peek_block hd (i := place) (by omega)
      rw [hx, Res.ok_bind]
      split
      · exact Or.inr ⟨s, rfl, Grow.refl hs⟩
      · split
        · exact Or.inl rfl
        · split
          · exact Or.inl rfl
          · rcases pushU16_safe hs (v := place + offset) with e1 | ⟨s1, e1, us1, ms1, cs1⟩
            · rw [e1]; exact Or.inl rfl
            · rw [e1, Res.ok_bind]
              rcases ih (place + (x.toNat + 1)) us1 with e2 | ⟨s2, e2, g2⟩
              · exact Or.inl e2
              · exact Or.inr ⟨s2, e2, Grow.trans ⟨us1, ms1, _, cs1⟩ g2⟩

theorem placeOffsets_safe {s : DwStr} (hs : Usable s) :
    ∀ (n : Nat) (off : Int) (acc : List (Nat × Nat)), off ≤ s.len →
    placeOffsets s n off acc = .err ∨
    ∃ o l, placeOffsets s n off acc = .ok (o, l) ∧ o ≤ s.len := by
  have hlt := hs.lt; have hlim := hs.lim
  have cellsafe : ∀ o : Int, 0 ≤ o → o ≤ s.len → ∃ v, s.fetchCell o = .ok v := by
    intro o h0 h1
    rw [fetchCell]
    rcases fetchU16_safe hs o (by omega) with e | ⟨v, e, -⟩ <;> rw [e]
    exacts [⟨_, rfl⟩, ⟨_, rfl⟩]
  intro n
  induction n with
  | zero => intro off acc h; exact Or.inr ⟨_, _, rfl, h⟩
  | succ n ih =>
    intro off acc h
    rw [placeOffsets]
    simp only
    by_cases h1 : off - 2 < 0
    · rw [if_pos h1]; exact Or.inl rfl
    · rw [if_neg h1]
      obtain ⟨v, e⟩ := cellsafe (off - 2) (by omega) (by omega)
      rw [e, Res.ok_bind]
      by_cases h2 : off - 2 - 2 < 0
      · rw [if_pos h2]; exact Or.inl rfl
      · rw [if_neg h2]
        obtain ⟨w, e2⟩ := cellsafe (off - 2 - 2) (by omega) (by omega)
        rw [e2, Res.ok_bind]
        exact ih _ _ (by omega)

theorem makeDnsStr_safe {s : DwStr} (hs : Usable s) (junk : List UInt8) :
    makeDnsStr s junk = .err ∨ ∃ d, makeDnsStr s junk = .ok d := by
  have hlt := hs.lt; have hlim := hs.lim
  rw [makeDnsStr]
  simp only [hs.sane, Bool.not_true, Bool.false_eq_true, if_false]
  by_cases h : (s.len : Int) - 1 < 7
  · rw [if_pos h]; exact Or.inl rfl
  · rw [if_neg h]
    obtain ⟨x, hx⟩ := peek_block hs (i := ((s.len : Int) - 1).toNat) (by omega)
    rw [hx, Res.ok_bind]
    split
    · exact Or.inl rfl
    · rcases fetchU16_safe hs ((s.len : Int) - 1 - 2) (by omega) with e | ⟨a, e, -⟩
      · rw [e]; exact Or.inl rfl
      · rw [e, Res.ok_bind]
        rcases fetchU16_safe hs ((s.len : Int) - 1 - 4) (by omega) with e | ⟨b, e, -⟩
        · rw [e]; exact Or.inl rfl
        · rw [e, Res.ok_bind]
          rcases fetchU16_safe hs ((s.len : Int) - 1 - 6) (by omega) with e | ⟨c, e, -⟩
          · rw [e]; exact Or.inl rfl
          · rw [e, Res.ok_bind]
            obtain ⟨p, e, -⟩ := copy_exact hs junk
            rw [e, Res.ok_bind]
            rcases placeOffsets_safe hs a ((s.len : Int) - 1 - 6) [] (by omega) with e | ⟨o1, l1, e, h1⟩
            · rw [e]; exact Or.inl rfl
            · rw [e, Res.ok_bind]
              simp only
              rcases placeOffsets_safe hs b o1 [] h1 with e | ⟨o2, l2, e, h2⟩
              · rw [e]; exact Or.inl rfl
              · rw [e, Res.ok_bind]
                simp only
                rcases placeOffsets_safe hs c o2 [] h2 with e | ⟨o3, l3, e, h3⟩
                · rw [e]; exact Or.inl rfl
                · rw [e, Res.ok_bind]
                  exact Or.inr ⟨_, rfl⟩

/-- **C28 (any answer).** Compressing any string with any question gives an error or
a string shorter than 515 bytes; there is no undefined behaviour. -/
theorem compress_total {q inp : DwStr} (hq : Usable q) (hi : Usable inp) (junk : List UInt8) :
    compress q inp junk = .err ∨
    ∃ o, compress q inp junk = .ok o ∧ Usable o ∧ o.contents.length < 515 := by
  rw [compress]
  simp only [hi.sane, hq.sane, Bool.not_true, Bool.or_self, Bool.false_eq_true, if_false]
  obtain ⟨st, e1, u1, -, -⟩ := create_usable 1024 junk (by omega) (by omega)
  obtain ⟨o1, e2, u2, -, m2⟩ := create_usable 515 junk (by omega) (by omega)
  rw [e1, Res.ok_bind, e2, Res.ok_bind, pushOffsets]
  simp only [hq.sane, u1.sane, Bool.not_true, Bool.or_self, Bool.false_eq_true, if_false]
  rcases pushOffsetsLoop_safe hq 0x8000 300 0 u1 with e | ⟨s1, e, g1⟩
  · rw [e]; exact Or.inl rfl
  · rw [e, Res.ok_bind]
    rcases makeDnsStr_safe hi junk with e | ⟨d, e⟩
    · rw [e]; exact Or.inl rfl
    · rw [e, Res.ok_bind]
      rcases compressRrs_safe hi hq junk (d.an ++ d.ns ++ d.ar) u2 g1.1 with e | ⟨o2, s2, e, u3, m3, -⟩
      · rw [e]; exact Or.inl rfl
      · rw [e, Res.ok_bind]
        simp only
        obtain ⟨o3, e3, u4, m4⟩ := orElse_push u3 d.an.length
        obtain ⟨o4, e4, u5, m5⟩ := orElse_push u4 d.ns.length
        obtain ⟨o5, e5, u6, m6⟩ := orElse_push u5 d.ar.length
        obtain ⟨o6, e6, u7, m7, -⟩ := addchar_grow u6 d.type
        rw [e3, Res.ok_bind, e4, Res.ok_bind, e5, Res.ok_bind, e6]
        refine Or.inr ⟨o6, rfl, u7, ?_⟩
        rw [u7.clen]
        have := u7.lt
        rw [m7, m6, m5, m4, m3, m2] at this
        exact this

end DwStr
end Dw
