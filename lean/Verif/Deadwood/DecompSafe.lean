import Verif.Deadwood.DecompProps
import Verif.Deadwood.DnsStr3Props
/-!
# Decompression of whole answers never misbehaves
-/

namespace Dw
namespace DwStr
open Spec

theorem putU16_safe {s : DwStr} (h : Usable s) (v : Nat) (o : Int)
    (ho : -1073741824 ≤ o ∧ o ≤ 1073741823) :
    putU16 s v o = .err ∨ ∃ s', putU16 s v o = .ok s' ∧ Usable s' ∧ s'.max = s.max := by
  have hw := h.wf
  have hlim := h.lim
  have hlt := h.lt
  unfold WF at hw
  unfold putU16
  simp only [h.sane, Bool.not_true, Bool.false_eq_true, if_false]
  generalize hoo : (if o < 0 then (s.len : Int) + o + 1 else o) = o'
  by_cases h1 : u32 o' > s.len ∨ s.len > 0x0fffffff
  · simp only [if_pos h1]; exact Or.inl trivial
  · simp only [if_neg h1]
    have hr : 0 ≤ o' ∧ o' ≤ s.len := by
      unfold u32 at h1
      split at hoo <;> omega
    obtain ⟨k, rfl⟩ : ∃ k : Nat, o' = k := ⟨o'.toNat, by omega⟩
    simp only [Int.toNat_natCast]
    by_cases h2 : (k : Int) ≥ (s.len % 0x1000000 : Nat) - 1
    · simp only [if_pos h2]
      by_cases h3 : s.len + (s.len - k + 2) ≥ s.max
      · simp only [if_pos h3]; exact Or.inl trivial
      · simp only [if_neg h3]
        rw [poke_ok _ (by simp; omega), Res.ok_bind, poke_ok _ (by simp; omega)]
        refine Or.inr ⟨_, rfl, ⟨?_, ?_, ?_⟩, rfl⟩
        · simp [WF]; omega
        · simp; omega
        · simp; omega
    · simp only [if_neg h2]
      rw [poke_ok _ (by omega), Res.ok_bind, poke_ok _ (by simp; omega)]
      refine Or.inr ⟨_, rfl, ⟨?_, ?_, ?_⟩, rfl⟩
      · simp [WF]; omega
      · simp; omega
      · simp; omega

theorem fetchU16_safe {s : DwStr} (h : Usable s) (o : Int) (ho : -1073741824 ≤ o ∧ o ≤ 1073741823) :
    fetchU16 s o = .err ∨ ∃ v, fetchU16 s o = .ok v ∧ v < 65536 := by
  have hlim := h.lim
  have hlt := h.lt
  unfold fetchU16
  simp only [h.sane, Bool.not_true, Bool.false_eq_true, if_false]
  generalize hoo : (if o < 0 then o + (s.len : Int) - 1 else o) = o'
  have : o' + 1 ≤ 2147483647 := by split at hoo <;> omega
  simp only [if_neg (show ¬ o' + 1 > 2147483647 by omega)]
  by_cases h1 : u32 (o' + 1) > s.len ∨ o' < 0
  · simp only [if_pos h1]; exact Or.inl trivial
  · simp only [if_neg h1]
    have hr : o' ≤ s.len := by unfold u32 at h1; omega
    obtain ⟨x, hx⟩ := peek_block h (i := o'.toNat) (by omega)
    obtain ⟨y, hy⟩ := peek_block h (i := o'.toNat + 1) (by omega)
    rw [hx, Res.ok_bind, hy, Res.ok_bind]
    have := x.toNat_lt; have := y.toNat_lt
    exact Or.inr ⟨_, rfl, by omega⟩

theorem fetchI_safe {s : DwStr} (h : Usable s) (o : Int) (ho : -1073741824 ≤ o ∧ o ≤ 1073741823) :
    ∃ v, fetchI s o = .ok v ∧ -1 ≤ v ∧ v < 65536 := by
  rw [fetchI]
  rcases fetchU16_safe h o ho with e | ⟨v, e, hv⟩
  · rw [e]; exact ⟨-1, rfl, by omega, by omega⟩
  · rw [e]; exact ⟨v, rfl, by omega, by omega⟩

theorem orElse_push {s : DwStr} (h : Usable s) (v : Nat) :
    ∃ s', s.orElse (s.pushU16 v) = .ok s' ∧ Usable s' ∧ s'.max = s.max := by
  rcases putU16_safe h v (-1) (by omega) with e | ⟨s', e, u, m⟩
  · exact ⟨s, by rw [pushU16, e]; rfl, h, rfl⟩
  · exact ⟨s', by rw [pushU16, e]; rfl, u, m⟩

theorem decompNames_safe {inp q : DwStr} (hi : Usable inp) (hq : Usable q) (rdo : Int)
    (hr : -1073741824 ≤ rdo ∧ rdo ≤ 1073741823) (junk : List UInt8) :
    ∀ (n offset : Nat) {out : DwStr}, Usable out → offset ≤ 134217728 →
    decompNames inp q rdo junk n offset out = .err ∨
    ∃ t o', decompNames inp q rdo junk n offset out = .ok (t, o') ∧ Usable o' ∧ o'.max = out.max ∧
      t ≤ 134217728 := by
  intro n
  induction n with
  | zero => intro offset out ho h; exact Or.inr ⟨_, _, rfl, ho, rfl, h⟩
  | succ n ih =>
    intro offset out ho h
    rw [decompNames]
    rcases decompDname_safe hi hq ho offset junk with e | ⟨t, d, o1, e, u1, m1, -, ht⟩
    · rw [e]; exact Or.inl rfl
    · rw [e, Res.ok_bind]
      simp only
      rw [if_neg (by omega)]
      obtain ⟨v, e2, -, -⟩ := fetchI_safe u1 rdo hr
      rw [e2, Res.ok_bind]
      have hlt := hi.lt; have hlim := hi.lim
      rcases putU16_safe u1 (u16 (v + d)) rdo hr with e3 | ⟨o2, e3, u2, m2⟩
      · rw [e3]
        exact (ih t.toNat u1 (by omega)).imp id (fun ⟨a, b, c, d, e, f⟩ => ⟨a, b, c, d, by rw [e, m1], f⟩)
      · rw [e3]
        exact (ih t.toNat u2 (by omega)).imp id (fun ⟨a, b, c, d, e, f⟩ => ⟨a, b, c, d, by rw [e, m2, m1], f⟩)

theorem decompRddata_safe {inp q out : DwStr} (hi : Usable inp) (hq : Usable q) (ho : Usable out)
    (lead names tail offset : Nat) (hl : lead ≤ 100) (ht : tail ≤ 100) (hoff : offset ≤ 134217500)
    (junk : List UInt8) :
    decompRddata lead names tail offset inp out q junk = .err ∨
    ∃ t o', decompRddata lead names tail offset inp out q junk = .ok (t, o') ∧ Usable o' ∧
      o'.max = out.max ∧ t ≤ 134217828 := by
  rw [decompRddata]
  simp only [hi.sane, hq.sane, ho.sane, Bool.not_true, Bool.or_self, Bool.false_eq_true, if_false]
  have holt := ho.lt; have holim := ho.lim
  have key : ∀ {o1 : DwStr}, Usable o1 → o1.max = out.max →
      (do
        let (offset, out) ← decompNames inp q ((out.len : Int) - 2) junk names (offset + 10 + lead) o1
        if tail > 0 then
          if inp.len < offset + tail then .err
          else do
            let out ← inp.appendSub offset tail out junk
            .ok (offset + tail, out)
        else .ok (offset, out)) = Res.err ∨
      ∃ t o', (do
        let (offset, out) ← decompNames inp q ((out.len : Int) - 2) junk names (offset + 10 + lead) o1
        if tail > 0 then
          if inp.len < offset + tail then .err
          else do
            let out ← inp.appendSub offset tail out junk
            .ok (offset + tail, out)
        else .ok (offset, out)) = Res.ok (t, o') ∧ Usable o' ∧ o'.max = out.max ∧ t ≤ 134217828 := by
    intro o1 u1 m1
    rcases decompNames_safe hi hq ((out.len : Int) - 2) (by omega) junk names (offset + 10 + lead) u1
      (by omega) with e | ⟨t, o2, e, u2, m2, h2⟩
    · rw [e]; exact Or.inl rfl
    · rw [e, Res.ok_bind]
      simp only
      by_cases h3 : tail > 0
      · rw [if_pos h3]
        by_cases h4 : inp.len < t + tail
        · rw [if_pos h4]; exact Or.inl rfl
        · rw [if_neg h4]
          obtain ⟨o3, e3, u3, m3, -⟩ := appendSub_safe hi u2 t tail junk (by omega) (by omega)
          rw [e3, Res.ok_bind]
          exact Or.inr ⟨_, _, rfl, u3, by rw [m3, m2, m1], by omega⟩
      · rw [if_neg h3]
        exact Or.inr ⟨_, _, rfl, u2, by rw [m2, m1], by omega⟩
  by_cases h1 : lead > 0
  · rw [if_pos h1]
    by_cases h2 : inp.len < offset + 10 + lead
    · rw [if_pos h2]; exact Or.inl rfl
    · rw [if_neg h2]
      rcases substr_safe hi ((offset + 10 : Nat) : Int) lead junk (by omega) (by omega) with e | ⟨c, e, lc⟩
      · simp only [e]; exact Or.inl rfl
      · simp only [e, Res.ok_bind]
        rcases append_safe lc ho with e1 | ⟨o1, e1, u1, m1, -⟩
        · rw [e1]; exact Or.inl rfl
        · rw [e1, Res.ok_bind]; exact key u1 m1
  · rw [if_neg h1, Res.ok_bind]
    exact key ho rfl

theorem typeDesc_small {type lead names tail : Nat} {b : Bool}
    (h : typeDesc type = some (b, lead, names, tail)) : lead ≤ 100 ∧ tail ≤ 100 := by
  unfold typeDesc at h
  repeat' split at h
  all_goals first | (cases h; done) | (simp only [Option.some.injEq, Prod.mk.injEq] at h; omega)

theorem decompRr_safe {inp q out stack : DwStr} (hi : Usable inp) (hq : Usable q) (ho : Usable out)
    (hs : Usable stack) (offset : Nat) (junk : List UInt8) (hlen : inp.len ≤ 134217000) :
    decompRr inp out q stack offset junk = .err ∨
    ∃ t o' s', decompRr inp out q stack offset junk = .ok (t, o', s') ∧ Usable o' ∧
      o'.max = out.max ∧ Usable s' ∧ s'.max = stack.max := by
  rw [decompRr]
  simp only [hi.sane, hq.sane, ho.sane, hs.sane, Bool.not_true, Bool.or_self, Bool.false_eq_true, if_false]
  obtain ⟨s1, e1, us1, ms1⟩ := orElse_push hs (out.len % 65536)
  rw [e1, Res.ok_bind]
  rcases decompDname_safe hi hq ho offset junk with e | ⟨t, d, o1, e, u1, m1, -, ht⟩
  · rw [e]; exact Or.inl rfl
  · rw [e, Res.ok_bind]
    simp only
    by_cases hc : t < 0 ∨ t > u32 ((inp.len : Int) - 7)
    · rw [if_pos hc]; exact Or.inl rfl
    · rw [if_neg hc]
      obtain ⟨k, rfl⟩ : ∃ k : Nat, t = k := ⟨t.toNat, by omega⟩
      simp only [Int.toNat_natCast]
      obtain ⟨s2, e2, us2, ms2⟩ := orElse_push us1 (o1.len % 65536)
      rw [e2, Res.ok_bind]
      rcases fetchU16_safe hi (k : Int) (by omega) with e3 | ⟨v, e3, hv⟩
      · rw [e3]; exact Or.inl rfl
      · rw [e3, Res.ok_bind]
        obtain ⟨o2, e4, u2, m2, -⟩ := appendSub_safe hi u1 k 10 junk (by omega) (by omega)
        rw [e4, Res.ok_bind]
        obtain ⟨r, e5, r1, r2⟩ := fetchI_safe hi ((k + 8 : Nat) : Int) (by omega)
        rw [e5, Res.ok_bind]
        rcases htd : typeDesc v with _ | ⟨b, lead, names, tail⟩
        · simp only
          by_cases h6 : (inp.len : Int) < k + 10 + r
          · rw [if_pos h6]; exact Or.inl rfl
          · rw [if_neg h6]
            obtain ⟨o3, e7, u3, m3, -⟩ := appendSub_safe hi u2 ((k + 10 : Nat) : Int) r junk (by omega) (by omega)
            rw [e7, Res.ok_bind]
            exact Or.inr ⟨_, _, _, rfl, u3, by rw [m3, m2, m1], us2, by rw [ms2, ms1]⟩
        · simp only
          obtain ⟨hl, htl⟩ := typeDesc_small htd
          rcases decompRddata_safe hi hq u2 lead names tail k hl htl (by omega) junk with e6 | ⟨t2, o3, e6, u3, m3, -⟩
          · rw [e6]; exact Or.inl rfl
          · rw [e6, Res.ok_bind]
            exact Or.inr ⟨_, _, _, rfl, u3, by rw [m3, m2, m1], us2, by rw [ms2, ms1]⟩

theorem decompAll_safe {inp q : DwStr} (hi : Usable inp) (hq : Usable q) (junk : List UInt8)
    (hlen : inp.len ≤ 134217000) :
    ∀ (n offset : Nat) {out stack : DwStr}, Usable out → Usable stack →
    decompAll inp q junk n offset out stack = .err ∨
    ∃ o' s', decompAll inp q junk n offset out stack = .ok (o', s') ∧ Usable o' ∧
      o'.max = out.max ∧ Usable s' ∧ s'.max = stack.max := by
  intro n
  induction n with
  | zero => intro offset out stack ho hs; exact Or.inr ⟨_, _, rfl, ho, rfl, hs, rfl⟩
  | succ n ih =>
    intro offset out stack ho hs
    rw [decompAll]
    by_cases h1 : offset < u32 ((inp.len : Int) - 7)
    · rw [if_pos h1]
      rcases decompRr_safe hi hq ho hs offset junk hlen with e | ⟨t, o1, s1, e, u1, m1, us1, ms1⟩
      · rw [e]; exact Or.inl rfl
      · rw [e, Res.ok_bind]
        simp only
        by_cases h2 : t > u32 ((inp.len : Int) - 7)
        · rw [if_pos h2]; exact Or.inl rfl
        · rw [if_neg h2]
          exact (ih t u1 us1).imp id
            (fun ⟨a, b, c, d, e, f, g⟩ => ⟨a, b, c, d, by rw [e, m1], f, by rw [g, ms1]⟩)
    · rw [if_neg h1]
      exact Or.inr ⟨_, _, rfl, ho, rfl, hs, rfl⟩

/-- **C27 (whole answers).** Decompressing any answer (up to 128 megabytes), with
any question, gives an error or a usable string shorter than 2048 bytes; there is
no undefined behaviour and no endless loop. -/
theorem decompress_total {inp q : DwStr} (hi : Usable inp) (hq : Usable q) (junk : List UInt8)
    (hlen : inp.contents.length ≤ 134217000) :
    decompress q inp junk = .err ∨
    ∃ o, decompress q inp junk = .ok o ∧ Usable o ∧ o.contents.length < 2048 := by
  rw [hi.clen] at hlen
  rw [decompress]
  simp only [hi.sane, hq.sane, Bool.not_true, Bool.or_self, Bool.false_eq_true, if_false]
  obtain ⟨c1, e1, u1, -, m1⟩ := create_usable 2048 junk (by omega) (by omega)
  rw [e1, Res.ok_bind, Res.ok_bind]
  rcases decompAll_safe hi hq junk hlen 1000 0 u1 u1 with e | ⟨o2, s2, e, u2, m2, us2, -⟩
  · rw [e]; exact Or.inl rfl
  · rw [e, Res.ok_bind]
    simp only
    obtain ⟨o3, e3, u3, m3, -⟩ := append_squeeze us2 u2
    rw [e3, Res.ok_bind]
    obtain ⟨o4, e4, u4, m4, -⟩ := appendSub_safe hi u3 (-7) (-1) junk (by omega) (by omega)
    refine Or.inr ⟨o4, e4, u4, ?_⟩
    rw [u4.clen]
    have := u4.lt
    rw [m4, m3, m2, m1] at this
    exact this

/-! ## Examples -/

/-- The question `a.` of type A. -/
def exQ : DwStr := ofBytes [1, 97, 0, 0, 1]

/-- `b.` followed by a pointer to the question. -/
def exPtr : DwStr := ofBytes [1, 98, 0xc0, 12, 7, 7, 0]

example : (∃ o', decompDname exPtr ⟨0, 10, List.replicate 12 9⟩ exQ 0 0 [] = .ok (4, 1, o') ∧
    o'.contents = encName [[98], [97]]) :=
  ⟨⟨5, 10, [1, 98, 1, 97, 0, 9, 9, 9, 9, 9, 9, 9]⟩, by decide +kernel, by decide +kernel⟩

/-- The hypotheses of `decompDname_exact` for `exPtr`. -/
example : Spec.NameAt exPtr.mem exQ.mem exPtr.len exQ.len 3 false 0 [[98], [97]] :=
  ⟨true, 2, Walk.label ⟨by decide, by decide, by decide +kernel, by decide +kernel⟩
    (Walk.pointer (x := 0xc0) (y := 12) (by decide +kernel) (by decide) (by decide +kernel) (by decide +kernel)
      (Walk.label ⟨by decide, by decide, by decide +kernel, by decide +kernel⟩ Walk.here)),
    by decide +kernel⟩

/-- The hypothesis of `decompDname_sound` for `exPtr`. -/
example : ∀ x, exPtr.mem (exPtr.len - 1) = some x → x < 192 := by
  intro x h
  have : x = 0 := by
    have e : exPtr.mem (exPtr.len - 1) = some 0 := by decide +kernel
    rw [e] at h; cases h; rfl
  rw [this]; decide

/-- **Finding.** A pointer that points to itself is not an error: the name is taken
for one with no labels and no end, and decompression goes on behind it. -/
theorem decompDname_accepts_loop :
    decompDname (ofBytes [0xc0, 19, 0, 1, 0]) (ofBytes []) exQ 0 0 [] = .ok (2, -2, ofBytes []) := by
  decide +kernel

/-- **Finding.** A name of 200 one-byte labels is not an error either: the place
behind it is reported as 0. -/
theorem decompDname_accepts_long :
    ∃ d o, decompDname (ofBytes (encName (List.replicate 200 [97]))) (ofBytes []) exQ 0 0 [] = .ok (0, d, o) := by
  have h : (match decompDname (ofBytes (encName (List.replicate 200 [97]))) (ofBytes []) exQ 0 0 [] with
      | .ok (t, _, _) => t == 0
      | _ => false) = true := by decide +kernel
  split at h
  · rename_i t d o e
    exact ⟨d, o, by rw [e]; simp at h; rw [h]⟩
  · cases h

/-- **Finding.** Labels that do not fit into what is left of the 2048 bytes are left
out, and the rest of the name is kept. -/
theorem decompDname_drops_labels :
    decompDname (ofBytes (encName [[97, 97, 97, 97, 97, 97], [98]])) { len := 0, max := 6, buf := List.replicate 8 0 }
      exQ 0 0 [] = .ok (10, 0, { len := 3, max := 6, buf := [1, 98, 0, 0, 0, 0, 0, 0] }) := by
  decide +kernel

end DwStr
end Dw
