import Verif.Deadwood.CompLemmas
/-! # Decompression of names (C27) -/

namespace Dw
open Spec
namespace DwStr

theorem sel_mem (inp q : DwStr) (b : Bool) :
    sel inp.mem q.mem b = (if b then q else inp).mem := by
  cases b <;> rfl

theorem byte_cases (x : UInt8) : 192 ≤ x ∨ (¬ 192 ≤ x ∧ 63 < x) ∨ (¬ 192 ≤ x ∧ ¬ 63 < x ∧ x = 0) ∨
    (¬ 192 ≤ x ∧ ¬ 63 < x ∧ x ≠ 0) := by
  by_cases h1 : 192 ≤ x
  · exact Or.inl h1
  · by_cases h2 : 63 < x
    · exact Or.inr (Or.inl ⟨h1, h2⟩)
    · by_cases h3 : x = 0
      · exact Or.inr (Or.inr (Or.inl ⟨h1, h2, h3⟩))
      · exact Or.inr (Or.inr (Or.inr ⟨h1, h2, h3⟩))

theorem not_lt64 {x : UInt8} (h : 192 ≤ x) : ¬ x < 64 := by
  rw [UInt8.le_iff_toNat_le] at h
  rw [UInt8.lt_iff_toNat_lt]
  simp at h ⊢; omega

/-- No input makes the name decompressor read or write outside the blocks of its
strings, and its results are usable strings that extend the old output. -/
theorem decompLoop_safe {inp q : DwStr} (hi : Usable inp) (hq : Usable q) (junk : List UInt8) :
    ∀ (n offset : Nat) (t delta : Int) (f b : Bool) {out : DwStr}, Usable out →
    (0 ≤ t ∧ t ≤ inp.len + 1) → (f = false → b = false) →
    decompLoop inp q junk n offset t delta f b out = .err ∨
    ∃ t' d' o', decompLoop inp q junk n offset t delta f b out = .ok (t', d', o') ∧ Usable o' ∧
      o'.max = out.max ∧ (∃ x, o'.contents = out.contents ++ x) ∧ (0 ≤ t' ∧ t' ≤ inp.len + 1) := by
  intro n
  induction n with
  | zero => intro offset t delta f b out h ht _; exact Or.inr ⟨t, delta, out, rfl, h, rfl, ⟨[], by simp⟩, ht⟩
  | succ n ih =>
    intro offset t delta f b out h ht hfb
    rw [decompLoop]
    have hs : Usable (if b then q else inp) := by cases b <;> assumption
    by_cases hoff : offset + 1 > (if b then q else inp).len
    · simp only [if_pos hoff]; exact Or.inl trivial
    · simp only [if_neg hoff]
      obtain ⟨x, hx, hm⟩ := peek_mem hs (i := offset) (by omega)
      rw [hx, Res.ok_bind]
      rcases byte_cases x with h1 | ⟨h1, h2⟩ | ⟨h1, h2, h3⟩ | ⟨h1, h2, h3⟩
      · rw [if_pos h1]
        cases b with
        | true => exact Or.inl rfl
        | false =>
          rw [if_neg (by simp)]
          simp only [Bool.false_eq_true, if_false] at hx hoff
          obtain ⟨y, hy⟩ := peek_block hi (i := offset + 1) (by omega)
          rw [decompOffset_ptr hi (by omega) hx (not_lt64 h1) hy, Res.ok_bind]
          rcases ptrTarget inp.len q.len (x.toNat % 64 * 256 + y.toNat) with _ | ⟨b1, i1⟩
          · exact Or.inl rfl
          · have fin := fun b1 => ih i1 (if f then t else (offset + 2 : Int)) (if f then delta else -2) true b1 h
              (by cases f <;> simp <;> omega) (by simp)
            cases b1
            · simp only
              rw [if_neg (by omega), if_neg (by omega), Int.toNat_natCast]
              exact fin false
            · simp only
              rw [if_neg (by omega), if_pos (by omega)]
              have : (-2 - (-2 - (i1 : Int))).toNat = i1 := by omega
              rw [this]
              exact fin true
      · rw [if_neg h1, if_pos h2]; exact Or.inl rfl
      · rw [if_neg h1, if_neg h2, if_pos h3]
        simp only [h.sane, Bool.not_true, Bool.false_eq_true, if_false]
        obtain ⟨o', e1, e2, e3, e4⟩ := addchar_squeeze h 0
        obtain ⟨z, hz⟩ := squeeze_ext out.max [[0]] out.contents
        rw [e1, Res.ok_bind]
        refine Or.inr ⟨_, _, o', rfl, e2, e3, ⟨z, by rw [e4, hz]⟩, ?_⟩
        cases f
        · rw [hfb rfl] at hoff; simp at hoff ⊢; omega
        · exact ht
      · rw [if_neg h1, if_neg h2, if_neg h3]
        have hlt := hs.lt; have hlim := hs.lim; have hx256 := x.toNat_lt
        obtain ⟨o1, e1, u1, m1, z1, c1⟩ := appendSub_safe hs h offset (x.toNat + 1 : Nat) junk (by omega) (by omega)
        rw [e1, Res.ok_bind]
        rcases ih (offset + (x.toNat + 1)) t (if f then delta + (x.toNat + 1) else delta) f b u1 ht hfb with
          g | ⟨t', d', o', g, u', m', ⟨z, hz⟩, ht⟩
        · exact Or.inl g
        · exact Or.inr ⟨t', d', o', g, u', by rw [m', m1], ⟨z1 ++ z, by rw [hz, c1]; simp⟩, ht⟩

theorem decompDname_safe {inp q out : DwStr} (hi : Usable inp) (hq : Usable q) (ho : Usable out)
    (pos : Nat) (junk : List UInt8) :
    decompDname inp out q 0 pos junk = .err ∨
    ∃ t' d' o', decompDname inp out q 0 pos junk = .ok (t', d', o') ∧ Usable o' ∧
      o'.max = out.max ∧ (∃ x, o'.contents = out.contents ++ x) ∧ (0 ≤ t' ∧ t' ≤ inp.len + 1) := by
  rw [decompDname]
  simp only [hi.sane, hq.sane, ho.sane, Bool.not_true, Bool.or_self, Bool.false_eq_true, if_false]
  exact decompLoop_safe hi hq junk 200 pos 0 0 false false ho (by omega) (by simp)

/-! ## What is read -/

theorem walk_ends {inp q : DwStr} {n : Nat} {b' : Bool} {i i' : Nat} {ls : List (List UInt8)}
    (h : Walk inp.mem q.mem inp.len q.len n false i ls b' i') (h0 : sel inp.mem q.mem b' i' = some 0) :
    ∃ e, EndsAt inp.mem i e := by
  generalize hb : false = b at h
  induction h with
  | here => subst hb; exact ⟨_, EndsAt.root h0⟩
  | label hl _ ih =>
    subst hb
    obtain ⟨e, he⟩ := ih h0 rfl
    exact ⟨e, EndsAt.label hl he⟩
  | pointer h1 h2 _ _ _ _ => exact ⟨_, EndsAt.pointer h1 h2⟩

theorem ofNat_len {l : List UInt8} (h : l.length ≤ 63) : (UInt8.ofNat l.length).toNat = l.length := by
  simp; omega

theorem labelAt_byte {m : Mem} {i : Nat} {l : List UInt8} (h : LabelAt m i l) :
    ¬ 192 ≤ UInt8.ofNat l.length ∧ ¬ 63 < UInt8.ofNat l.length ∧ UInt8.ofNat l.length ≠ 0 := by
  have h1 := h.pos; have h2 := h.le; have h3 := ofNat_len h.le
  refine ⟨?_, ?_, ?_⟩
  · rw [UInt8.le_iff_toNat_le, h3]; simp; omega
  · rw [UInt8.lt_iff_toNat_lt, h3]; simp; omega
  · intro e; rw [e] at h3; simp at h3; omega

/-- After the first pointer. -/
theorem decompLoop_followed {inp q : DwStr} (hi : Usable inp) (hq : Usable q) (junk : List UInt8)
    {k : Nat} {b b' : Bool} {i i' : Nat} {ls : List (List UInt8)}
    (h : Walk inp.mem q.mem inp.len q.len k b i ls b' i') (h0 : sel inp.mem q.mem b' i' = some 0) :
    ∀ (n : Nat) (t delta : Int) {out : DwStr}, k < n → Usable out →
    ∃ o', decompLoop inp q junk n i t delta true b out =
        .ok (t, delta + (encName ls).length, o') ∧ Usable o' ∧ o'.max = out.max ∧
      o'.contents = squeeze out.max out.contents (pieces ls) := by
  induction h with
  | @here b i =>
    intro n t delta out hn ho
    obtain ⟨n, rfl⟩ : ∃ m, n = m + 1 := ⟨n - 1, by omega⟩
    have hs : Usable (if b then q else inp) := by cases b <;> assumption
    rw [sel_mem] at h0
    have hlt := mem_lt hs h0
    rw [decompLoop]
    simp only [if_neg (show ¬ i + 1 > (if b then q else inp).len by omega), mem_peek h0, Res.ok_bind,
      ho.sane, Bool.not_true, Bool.false_eq_true, if_false]
    rw [if_neg (by decide), if_neg (by decide), if_pos trivial]
    obtain ⟨o', e1, e2, e3, e4⟩ := addchar_squeeze ho 0
    rw [e1, Res.ok_bind]
    exact ⟨o', by simp [encName, encLabels], e2, e3, e4⟩
  | @label k b i l ls b' i' hl _ ih =>
    intro n t delta out hn ho
    obtain ⟨n, rfl⟩ : ∃ m, n = m + 1 := ⟨n - 1, by omega⟩
    have hs : Usable (if b then q else inp) := by cases b <;> assumption
    rw [sel_mem] at hl
    obtain ⟨hfit, hdrop⟩ := LabelAt.drop hs hl
    have hlen := ofNat_len hl.le
    obtain ⟨g1, g2, g3⟩ := labelAt_byte hl
    have hle := hl.le
    obtain ⟨o1, e1, u1, m1, c1⟩ := appendSub_in hs ho (b := i) (a := l.length + 1)
      (by rw [hs.clen]; omega) (by omega) junk
    obtain ⟨o', f1, f2, f3, f4⟩ := ih h0 n t (delta + (l.length + 1)) (by omega) u1
    refine ⟨o', ?_, f2, by rw [f3, m1], ?_⟩
    · rw [decompLoop]
      simp only [if_neg (show ¬ i + 1 > (if b then q else inp).len by omega), mem_peek hl.len, Res.ok_bind]
      rw [if_neg g1, if_neg g2, if_neg g3, hlen, e1, Res.ok_bind]
      simp only [if_true]
      rw [f1, encName_cons]
      simp; omega
    · rw [f4, c1, m1, hdrop, ← squeeze_append]; rfl
  | @pointer k i x y b1 i1 ls b' i' h1 h2 h3 h4 _ ih =>
    intro n t delta out hn ho
    obtain ⟨n, rfl⟩ : ∃ m, n = m + 1 := ⟨n - 1, by omega⟩
    have hlt := mem_lt hi h1
    obtain ⟨o', f1, f2, f3, f4⟩ := ih h0 n t delta (by omega) ho
    refine ⟨o', ?_, f2, f3, f4⟩
    rw [decompLoop]
    simp only [Bool.false_eq_true, if_false, if_neg (show ¬ i + 1 > inp.len by omega), mem_peek h1,
      Res.ok_bind, if_pos h2, if_true,
      decompOffset_ptr hi (by omega) (mem_peek h1) (not_lt64 h2) (mem_peek h3), h4]
    cases b1
    · simp only
      rw [if_neg (by omega), if_neg (by omega), Int.toNat_natCast]
      exact f1
    · simp only
      rw [if_neg (by omega), if_pos (by omega)]
      have : (-2 - (-2 - (i1 : Int))).toNat = i1 := by omega
      rw [this]
      exact f1

/-- Before the first pointer. -/
theorem decompLoop_direct {inp q : DwStr} (hi : Usable inp) (hq : Usable q) (junk : List UInt8)
    {k : Nat} {b' : Bool} {i i' : Nat} {ls : List (List UInt8)}
    (h : Walk inp.mem q.mem inp.len q.len k false i ls b' i') (h0 : sel inp.mem q.mem b' i' = some 0) :
    ∀ (n : Nat) (t : Int) {out : DwStr}, k < n → Usable out →
    ∃ e o', decompLoop inp q junk n i t 0 false false out =
        .ok ((e : Nat), ((encName ls).length : Int) - (e - i), o') ∧ EndsAt inp.mem i e ∧ Usable o' ∧
      o'.max = out.max ∧ o'.contents = squeeze out.max out.contents (pieces ls) := by
  generalize hb : false = b at h
  induction h with
  | @here b i =>
    subst hb
    intro n t out hn ho
    obtain ⟨n, rfl⟩ : ∃ m, n = m + 1 := ⟨n - 1, by omega⟩
    have h0' : inp.mem i = some 0 := h0
    have hlt := mem_lt hi h0'
    rw [decompLoop]
    simp only [Bool.false_eq_true, if_false, if_neg (show ¬ i + 1 > inp.len by omega), mem_peek h0',
      Res.ok_bind, ho.sane, Bool.not_true]
    rw [if_neg (by decide), if_neg (by decide), if_pos trivial]
    obtain ⟨o', e1, e2, e3, e4⟩ := addchar_squeeze ho 0
    rw [e1, Res.ok_bind]
    refine ⟨i + 1, o', ?_, EndsAt.root h0', e2, e3, e4⟩
    simp [encName, encLabels]; omega
  | @label k b i l ls b' i' hl _ ih =>
    subst hb
    intro n t out hn ho
    obtain ⟨n, rfl⟩ : ∃ m, n = m + 1 := ⟨n - 1, by omega⟩
    have hl' : LabelAt inp.mem i l := hl
    obtain ⟨hfit, hdrop⟩ := LabelAt.drop hi hl'
    have hlen := ofNat_len hl.le
    obtain ⟨g1, g2, g3⟩ := labelAt_byte hl
    have hle := hl.le
    obtain ⟨o1, e1, u1, m1, c1⟩ := appendSub_in hi ho (b := i) (a := l.length + 1)
      (by rw [hi.clen]; omega) (by omega) junk
    obtain ⟨e, o', f1, f5, f2, f3, f4⟩ := ih h0 rfl n t (by omega) u1
    refine ⟨e, o', ?_, EndsAt.label hl' f5, f2, by rw [f3, m1], ?_⟩
    · rw [decompLoop]
      simp only [Bool.false_eq_true, if_false, if_neg (show ¬ i + 1 > inp.len by omega),
        mem_peek hl'.len, Res.ok_bind]
      rw [if_neg g1, if_neg g2, if_neg g3, hlen, e1, Res.ok_bind, f1, encName_cons]
      simp; omega
    · rw [f4, c1, m1, hdrop, ← squeeze_append]; rfl
  | @pointer k i x y b1 i1 ls b' i' h1 h2 h3 h4 hw _ =>
    intro n t out hn ho
    obtain ⟨n, rfl⟩ : ∃ m, n = m + 1 := ⟨n - 1, by omega⟩
    have hlt := mem_lt hi h1
    obtain ⟨o', f1, f2, f3, f4⟩ := decompLoop_followed hi hq junk hw h0 n (i + 2) (-2) (by omega) ho
    refine ⟨i + 2, o', ?_, EndsAt.pointer h1 h2, f2, f3, f4⟩
    have hgoal : decompLoop inp q junk n i1 (i + 2) (-2) true b1 out =
        .ok (((i + 2 : Nat) : Int), ((encName ls).length : Int) - ((i + 2 : Nat) - (i : Int)), o') := by
      rw [f1]; congr 3; push_cast; omega
    rw [decompLoop]
    simp only [Bool.false_eq_true, if_false, if_neg (show ¬ i + 1 > inp.len by omega), mem_peek h1,
      Res.ok_bind, if_pos h2,
      decompOffset_ptr hi (by omega) (mem_peek h1) (not_lt64 h2) (mem_peek h3), h4]
    cases b1
    · simp only
      rw [if_neg (by omega), if_neg (by omega), Int.toNat_natCast]
      exact hgoal
    · simp only
      rw [if_neg (by omega), if_pos (by omega)]
      have : (-2 - (-2 - (i1 : Int))).toNat = i1 := by omega
      rw [this]
      exact hgoal

/-- The decompressor succeeds only on names, or after 200 rounds. -/
theorem decompLoop_sound {inp q : DwStr} (hi : Usable inp) (hq : Usable q) (junk : List UInt8)
    (hlast : ∀ x, inp.mem (inp.len - 1) = some x → x < 192) :
    ∀ (n offset : Nat) (t delta : Int) (f b : Bool) {out : DwStr} {r : Int × Int × DwStr}, Usable out →
    decompLoop inp q junk (n + 1) offset t delta f b out = .ok r →
    (∃ k ls, k < n + 1 ∧ Spec.NameAt inp.mem q.mem inp.len q.len k b offset ls) ∨
    (∃ ls b' i', Walk inp.mem q.mem inp.len q.len n b offset ls b' i') := by
  intro n
  induction n with
  | zero => intro offset t delta f b out r h hr; exact Or.inr ⟨_, _, _, Walk.here⟩
  | succ n ih =>
    intro offset t delta f b out r h hr
    rw [decompLoop] at hr
    have hs : Usable (if b then q else inp) := by cases b <;> assumption
    by_cases hoff : offset + 1 > (if b then q else inp).len
    · simp only [if_pos hoff] at hr; cases hr
    · simp only [if_neg hoff] at hr
      obtain ⟨x, hx, hm⟩ := peek_mem hs (i := offset) (by omega)
      rw [hx, Res.ok_bind] at hr
      rcases byte_cases x with h1 | ⟨h1, h2⟩ | ⟨h1, h2, h3⟩ | ⟨h1, h2, h3⟩
      · rw [if_pos h1] at hr
        cases b with
        | true => cases hr
        | false =>
          rw [if_neg (by simp)] at hr
          simp only [Bool.false_eq_true, if_false] at hx hoff hm
          have hne : offset ≠ inp.len - 1 := by
            rintro rfl
            have := hlast x hm
            rw [UInt8.le_iff_toNat_le] at h1
            rw [UInt8.lt_iff_toNat_lt] at this
            omega
          obtain ⟨y, hy, hmy⟩ := peek_mem hi (i := offset + 1) (by omega)
          rw [decompOffset_ptr hi (by omega) hx (not_lt64 h1) hy, Res.ok_bind] at hr
          rcases ht : ptrTarget inp.len q.len (x.toNat % 64 * 256 + y.toNat) with _ | ⟨b1, i1⟩
          · rw [ht] at hr; simp at hr
          · have fin : ∀ t' d', decompLoop inp q junk (n + 1) i1 t' d' true b1 out = .ok r →
                (∃ k ls, k < n + 1 + 1 ∧ Spec.NameAt inp.mem q.mem inp.len q.len k false offset ls) ∨
                (∃ ls b' i', Walk inp.mem q.mem inp.len q.len (n + 1) false offset ls b' i') := by
              intro t' d' hr'
              rcases ih i1 _ _ true b1 h hr' with ⟨k, ls, hk, b', i', w, w0⟩ | ⟨ls, b', i', w⟩
              · exact Or.inl ⟨k + 1, ls, by omega, b', i', Walk.pointer hm h1 hmy ht w, w0⟩
              · exact Or.inr ⟨ls, b', i', Walk.pointer hm h1 hmy ht w⟩
            rw [ht] at hr
            cases b1
            · simp only at hr
              rw [if_neg (by omega), if_neg (by omega), Int.toNat_natCast] at hr
              exact fin _ _ hr
            · simp only at hr
              rw [if_neg (by omega), if_pos (by omega)] at hr
              have : (-2 - (-2 - (i1 : Int))).toNat = i1 := by omega
              rw [this] at hr
              exact fin _ _ hr
      · rw [if_neg h1, if_pos h2] at hr; cases hr
      · left
        refine ⟨0, [], by omega, b, offset, Walk.here, ?_⟩
        rw [sel_mem, hm, h3]
      · rw [if_neg h1, if_neg h2, if_neg h3] at hr
        have hlt := hs.lt; have hlim := hs.lim; have hx256 := x.toNat_lt
        obtain ⟨o1, e1, u1, m1, z1, c1⟩ := appendSub_safe hs h offset (x.toNat + 1 : Nat) junk (by omega) (by omega)
        rw [e1, Res.ok_bind] at hr
        have hfit : offset + (x.toNat + 1) ≤ (if b then q else inp).len := by
          by_contra hcon
          rw [decompLoop] at hr
          simp only [if_pos (show offset + (x.toNat + 1) + 1 > (if b then q else inp).len by omega)] at hr
          cases hr
        obtain ⟨l, hl, hll⟩ := LabelAt.of_byte hs hm h3 h2 hfit
        rw [← sel_mem] at hl
        rw [← hll] at hr
        rcases ih _ _ _ f b u1 hr with ⟨k, ls, hk, b', i', w, w0⟩ | ⟨ls, b', i', w⟩
        · exact Or.inl ⟨k + 1, l :: ls, by omega, b', i', Walk.label hl w, w0⟩
        · exact Or.inr ⟨l :: ls, b', i', Walk.label hl w⟩

/-- **C27 (safety).** Decompressing a name at any place of any packet, with any
question, ends without undefined behaviour: it fails, or appends to the output
and gives a place inside the packet or just behind it. -/
theorem decompDname_total {inp q out : DwStr} (hi : Usable inp) (hq : Usable q) (ho : Usable out)
    (pos : Nat) (junk : List UInt8) :
    decompDname inp out q 0 pos junk = .err ∨
    ∃ t' d' o', decompDname inp out q 0 pos junk = .ok (t', d', o') ∧ Usable o' ∧
      o'.max = out.max ∧ (∃ x, o'.contents = out.contents ++ x) ∧ (0 ≤ t' ∧ t' ≤ inp.len + 1) :=
  decompDname_safe hi hq ho pos junk

/-- **C27 (names are read correctly).** If the name at a place is `ls` and takes
fewer than 200 steps to read, decompression appends its labels to the output (the
whole name if there is room), and reports the end of the compressed form and by
how much the name grew. -/
theorem decompDname_exact {inp q out : DwStr} (hi : Usable inp) (hq : Usable q) (ho : Usable out)
    {n pos : Nat} {ls : List (List UInt8)} (hn : n < 200)
    (h : Spec.NameAt inp.mem q.mem inp.len q.len n false pos ls) (junk : List UInt8) :
    ∃ e o', decompDname inp out q 0 pos junk =
        .ok ((e : Nat), ((encName ls).length : Int) - (e - pos), o') ∧ EndsAt inp.mem pos e ∧ Usable o' ∧
      o'.max = out.max ∧ o'.contents = squeeze out.max out.contents (pieces ls) ∧
      (out.contents.length + (encName ls).length < out.max →
        o'.contents = out.contents ++ encName ls) := by
  obtain ⟨b', i', hw, h0⟩ := h
  obtain ⟨e, o', h1, h2, h3, h4, h5⟩ := decompLoop_direct hi hq junk hw h0 200 0 hn ho
  refine ⟨e, o', ?_, h2, h3, h4, h5, fun hf => ?_⟩
  · rw [decompDname]
    simp only [hi.sane, hq.sane, ho.sane, Bool.not_true, Bool.or_self, Bool.false_eq_true, if_false]
    exact h1
  · rw [h5, squeeze_fits _ _ _ (by rw [pieces_flatten]; exact hf), pieces_flatten]

/-- Labels met on the way are legal. -/
theorem Walk.labelsOk {p q : Mem} {plen qlen n : Nat} {b b' : Bool} {i i' : Nat} {ls : List (List UInt8)}
    (h : Walk p q plen qlen n b i ls b' i') : LabelsOk ls := by
  induction h with
  | here => intro l hl; cases hl
  | label hl _ ih =>
    intro x hx
    rcases List.mem_cons.1 hx with rfl | hx
    · exact ⟨hl.pos, hl.le⟩
    · exact ih x hx
  | pointer _ _ _ _ _ ih => exact ih

/-- **C27 (only names).** If decompression succeeds, there is a name of fewer than
200 steps and labels of 1 to 63 bytes at that place, or a chain of labels and
pointers 199 steps long (longer than any legal name).  Assumes that the last byte
of the packet is not the first byte of a pointer; in packets from the cache it is
the kind of answer, 0, 1 or 2. -/
theorem decompDname_sound {inp q out : DwStr} (hi : Usable inp) (hq : Usable q) (ho : Usable out)
    (hlast : ∀ x, inp.mem (inp.len - 1) = some x → x < 192) {pos : Nat} {junk : List UInt8}
    {r : Int × Int × DwStr} (hr : decompDname inp out q 0 pos junk = .ok r) :
    (∃ k ls, k < 200 ∧ LabelsOk ls ∧ Spec.NameAt inp.mem q.mem inp.len q.len k false pos ls) ∨
    (∃ ls b' i', Walk inp.mem q.mem inp.len q.len 199 false pos ls b' i') := by
  rw [decompDname] at hr
  simp only [hi.sane, hq.sane, ho.sane, Bool.not_true, Bool.or_self, Bool.false_eq_true, if_false] at hr
  rcases decompLoop_sound hi hq junk hlast 199 pos 0 0 false false ho hr with
    ⟨k, ls, hk, b', i', w, w0⟩ | h
  · exact Or.inl ⟨k, ls, hk, Walk.labelsOk w, b', i', w, w0⟩
  · exact Or.inr h

end DwStr
end Dw
