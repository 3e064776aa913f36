import Verif.Deadwood.StrLemmas

/-!
# Properties C01–C04: the Deadwood string library

Specifications used here: byte lists (`contents`), list append, and 16-bit
big-endian arithmetic.  Hypotheses `WF` (block of size `max+2`), `sane`
(`len < max`) and `max < 2^27` are what `dw_create` establishes
(`create_usable`).
-/

namespace Dw
open DwStr

/-- A string as produced by a successful `dw_create` and kept by the operations
below: heap block of the right size, length below capacity, capacity below the
limit of `dw_create`. -/
structure Usable (s : DwStr) : Prop where
  wf : s.WF
  lt : s.len < s.max
  lim : s.max < 134217728

theorem Usable.sane {s : DwStr} (h : Usable s) : s.sane = true := by
  rw [sane_iff]; have := h.lt; have := h.lim; omega

theorem Usable.clen {s : DwStr} (h : Usable s) : s.contents.length = s.len :=
  contents_length h.wf h.sane

/-- `dw_create` with a nonzero size below 2^27 gives an empty usable string. -/
theorem create_usable (size : Nat) (junk : List UInt8) (h0 : 0 < size)
    (h : size < 134217728) :
    ∃ s, create size junk = .ok s ∧ Usable s ∧ s.contents = [] ∧ s.max = size := by
  obtain ⟨s, hs⟩ := create_eq junk h
  obtain ⟨h1, h2, h3, _⟩ := create_ok hs
  exact ⟨s, hs, ⟨h1, by omega, by omega⟩, by simp [contents, h2], h3⟩

/-- A concrete usable string used in the examples. -/
def exStr : DwStr := { len := 3, max := 6, buf := [1, 2, 3, 9, 9, 9, 9, 9] }
def exStr2 : DwStr := { len := 2, max := 4, buf := [7, 8, 0, 0, 0, 0] }

theorem exStr_usable : Usable exStr := ⟨rfl, by decide, by decide⟩
theorem exStr2_usable : Usable exStr2 := ⟨rfl, by decide, by decide⟩

/-! ## C03: append is exact or has no effect -/

/-- C03.  Appending `a` to `t` fails exactly when the result would not fit below
the capacity; otherwise the contents become exactly `t ++ a` and nothing else
about the string changes. -/
theorem append_exact {a t : DwStr} (ha : Usable a) (ht : Usable t) :
    (t.max ≤ t.contents.length + a.contents.length → append a t = .err) ∧
    (t.contents.length + a.contents.length < t.max →
      ∃ t', append a t = .ok t' ∧ Usable t' ∧ t'.max = t.max ∧
        t'.contents = t.contents ++ a.contents) := by
  rw [ha.clen, ht.clen]
  refine ⟨append_err ha.sane ht.sane, fun h => ?_⟩
  refine ⟨_, append_eq ha.wf ht.wf ha.sane ht.sane h, ?_, rfl, ?_⟩
  · have h1 := ht.wf
    have h3 := ha.clen
    refine ⟨?_, h, ht.lim⟩
    unfold WF at h1 ⊢
    simp only
    rw [splice_length (by omega)]; exact h1
  · have h1 := ht.wf
    have h3 := ha.clen
    unfold WF at h1
    have h4 := splice_take t.buf t.len a.contents (by omega)
    rw [h3] at h4
    exact h4

example : ∃ t', append exStr2 exStr = .ok t' ∧ t'.contents = [1, 2, 3, 7, 8] := by
  refine ⟨_, rfl, by decide⟩

/-- C03 for C-string append (`dw_cstr_append`). -/
theorem cstrAppend_exact {t : DwStr} (bs : List UInt8) (ht : Usable t) :
    (t.max ≤ t.contents.length + bs.length → cstrAppend bs t = .err) ∧
    (t.contents.length + bs.length < t.max →
      ∃ t', cstrAppend bs t = .ok t' ∧ Usable t' ∧ t'.max = t.max ∧
        t'.contents = t.contents ++ bs) := by
  rw [ht.clen]
  have h1 := ht.wf
  unfold WF at h1
  constructor
  · intro h
    simp [cstrAppend, ht.sane, h]
  · intro h
    refine ⟨{ t with len := t.len + bs.length, buf := splice t.buf t.len bs }, ?_, ?_, rfl, ?_⟩
    · simp only [cstrAppend, ht.sane, Bool.not_true, Bool.false_eq_true, if_false, ge_iff_le,
        Nat.not_le.2 h]
      exact cstrLoop_eq _ _ (by omega)
    · refine ⟨?_, h, ht.lim⟩
      unfold WF
      simp only
      rw [splice_length (by omega)]; exact h1
    · conv => lhs; unfold DwStr.contents
      simp only
      rw [splice_take _ _ _ (by omega)]
      rfl

example : ∃ t', cstrAppend [4, 5] exStr = .ok t' ∧ t'.contents = [1, 2, 3, 4, 5] := by
  refine ⟨_, rfl, by decide⟩

/-- C03 for a single byte (`dw_addchar`). -/
theorem addchar_exact {t : DwStr} (b : UInt8) (ht : Usable t) :
    (t.max ≤ t.contents.length + 1 → addchar b t = .err) ∧
    (t.contents.length + 1 < t.max →
      ∃ t', addchar b t = .ok t' ∧ Usable t' ∧ t'.max = t.max ∧
        t'.contents = t.contents ++ [b]) := by
  rw [ht.clen]
  have h1 := ht.wf
  unfold WF at h1
  have hlt := ht.lt
  constructor
  · intro h
    simp [addchar, ht.sane, Nat.not_lt.2 h]
  · intro h
    refine ⟨{ t with len := t.len + 1, buf := t.buf.set t.len b }, ?_, ?_, rfl, ?_⟩
    · simp [addchar, ht.sane, h, poke_ok b (show t.len < t.buf.length by omega)]
    · exact ⟨by simp [WF, h1], h, ht.lim⟩
    · simp only [contents]
      apply List.ext_getElem?
      intro j
      grind

example : ∃ t', addchar 4 exStr = .ok t' ∧ t'.contents = [1, 2, 3, 4] := by
  refine ⟨_, rfl, by decide⟩

/-! ## C04: comparison decides equality of contents -/

/-- C04. -/
theorem issame_iff {a b : DwStr} (ha : Usable a) (hb : Usable b) :
    issame a b = .ok (decide (a.contents = b.contents)) := by
  have h1 := ha.wf
  have h2 := hb.wf
  have h3 := ha.lt
  have h4 := hb.lt
  unfold WF at h1 h2
  unfold issame
  simp only [ha.sane, hb.sane, Bool.not_true, Bool.false_eq_true, if_false]
  split
  · rename_i hne
    have : a.contents ≠ b.contents := by
      intro h
      apply hne
      rw [← ha.clen, ← hb.clen, h]
    simp [this]
  · rename_i heq
    simp only [ne_eq, Decidable.not_not] at heq
    rw [sameLoop_eq _ _ _ _ (by omega) (by omega)]
    simp [contents, heq]

example : issame exStr { exStr with max := 5, buf := [1, 2, 3, 0, 0, 0, 0] } = .ok true := by decide
example : issame exStr exStr2 = .ok false := by decide

/-- Converting to a C string yields exactly the contents (`dw_to_cstr`). -/
theorem toCstr_eq {a : DwStr} (ha : Usable a) : toCstr a = .ok a.contents := by
  have h1 := ha.wf
  have h3 := ha.lt
  unfold WF at h1
  unfold toCstr
  simp only [ha.sane, Bool.not_true, Bool.false_eq_true, if_false]
  rw [cstrReadLoop_eq _ _ _ (by omega)]
  simp [contents]

example : toCstr exStr = .ok [1, 2, 3] := by decide

/-! ## C02: pushed integers pop back unchanged -/

theorem byte_toNat (n : Nat) : (DwStr.byte n).toNat = n % 256 := by
  simp [DwStr.byte]

/-- C02 (push half).  Pushing a number succeeds exactly when two more bytes fit
and appends its two low-order bytes, most significant first. -/
theorem pushU16_exact {s : DwStr} (v : Nat) (h : Usable s) :
    (s.max ≤ s.contents.length + 2 → pushU16 v s = .err) ∧
    (s.contents.length + 2 < s.max →
      ∃ s', pushU16 v s = .ok s' ∧ Usable s' ∧ s'.max = s.max ∧
        s'.contents = s.contents ++ [UInt8.ofNat (v / 256), UInt8.ofNat v]) := by
  rw [h.clen]
  have h1 := h.wf
  unfold WF at h1
  have hlt := h.lt
  have hlim := h.lim
  have e : (s.len : Int) + (-1) + 1 = s.len := by omega
  have eu : u32 (s.len : Int) = s.len := u32_nat _ (by omega)
  have hc : ¬ (s.len > s.len ∨ s.len > 0x0fffffff) := by omega
  have hm : (s.len : Int) ≥ ((s.len % 0x1000000 : Nat) : Int) - 1 := by
    have := Nat.mod_le s.len 0x1000000; omega
  have key : pushU16 v s = if s.len + 2 ≥ s.max then .err else
      (do let s2 ← ({ s with len := s.len + 2 } : DwStr).poke s.len (DwStr.byte (v / 256))
          s2.poke (s.len + 1) (DwStr.byte v)) := by
    unfold pushU16 putU16
    simp only [h.sane, Bool.not_true, Bool.false_eq_true, if_false, reduceIte, e, eu, if_neg hc,
      if_pos hm, Int.toNat_natCast, show ((-1 : Int) < 0) from by decide]
    rw [show s.len - s.len + 2 = 2 by omega]
  rw [key]
  constructor
  · intro hh; simp [hh]
  · intro hh
    rw [if_neg (by omega)]
    refine ⟨{ s with len := s.len + 2, buf := (s.buf.set s.len (DwStr.byte (v / 256))).set (s.len + 1) (DwStr.byte v) }, ?_, ?_, rfl, ?_⟩
    · rw [poke_ok _ (by simp; omega)]
      simp only [Res.ok_bind]
      rw [poke_ok _ (by simp; omega)]
    · exact ⟨by simp [WF, h1], hh, hlim⟩
    · have e1 : ((s.buf.set s.len (DwStr.byte (v / 256))).set (s.len + 1) (DwStr.byte v)) =
          splice s.buf s.len [DwStr.byte (v / 256), DwStr.byte v] := by
        rw [← splice_set _ _ _ _ (by omega), ← splice_set _ _ _ _ (by simp; omega), splice_nil]
      simp only [contents, e1]
      exact splice_take s.buf s.len [DwStr.byte (v / 256), DwStr.byte v] (by simp; omega)

/-- C02 (pop half).  Popping fails exactly on strings of fewer than two bytes;
otherwise it returns the big-endian number in the last two bytes and removes
them. -/
theorem popU16_exact {s : DwStr} (h : Usable s) :
    (s.contents.length < 2 → popU16 s = .err) ∧
    (∀ pre x y, s.contents = pre ++ [x, y] →
      ∃ s', popU16 s = .ok (x.toNat * 256 + y.toNat, s') ∧ Usable s' ∧ s'.max = s.max ∧
        s'.contents = pre) := by
  have h1 := h.wf
  unfold WF at h1
  have hlt := h.lt
  constructor
  · intro hh
    rw [h.clen] at hh
    simp [popU16, h.sane, hh]
  · intro pre x y hc
    have hl : s.len = pre.length + 2 := by rw [← h.clen, hc]; simp
    have hx : s.buf[pre.length]? = some x := by
      have : s.contents[pre.length]? = some x := by rw [hc]; simp
      simp only [contents] at this
      grind
    have hy : s.buf[pre.length + 1]? = some y := by
      have : s.contents[pre.length + 1]? = some y := by rw [hc]; simp
      simp only [contents] at this
      grind
    refine ⟨{ s with len := s.len - 2 }, ?_, ⟨h1, by simp; omega, h.lim⟩, rfl, ?_⟩
    · have : ¬ s.len < 2 := by omega
      have e : s.len - 2 = pre.length := by omega
      simp [popU16, h.sane, this, peek, e, hx, hy]
    · simp only [contents] at hc ⊢
      have : s.buf.take (s.len - 2) = (s.buf.take s.len).take (s.len - 2) := by
        rw [List.take_take]; congr 1; omega
      rw [this, hc, show s.len - 2 = pre.length by omega]; simp

/-- C02.  A number pushed onto a string comes back truncated to 16 bits and the
string has its former contents. -/
theorem push_pop_u16 {s s' : DwStr} (v : Nat) (h : Usable s) (hp : pushU16 v s = .ok s') :
    ∃ s'', popU16 s' = .ok (v % 65536, s'') ∧ s''.contents = s.contents ∧ s''.max = s.max := by
  by_cases hh : s.contents.length + 2 < s.max
  · obtain ⟨t, ht, hu, hm, hc⟩ := (pushU16_exact v h).2 hh
    rw [hp] at ht; injection ht with ht; subst ht
    obtain ⟨s'', h1, _, h3, h4⟩ := (popU16_exact hu).2 _ _ _ hc
    refine ⟨s'', ?_, h4, by rw [h3, hm]⟩
    rw [h1]
    have : (UInt8.ofNat (v / 256)).toNat * 256 + (UInt8.ofNat v).toNat = v % 65536 := by
      simp; omega
    rw [this]
  · rw [(pushU16_exact v h).1 (by omega)] at hp; cases hp

example : ∃ s', pushU16 70000 exStr = .ok s' ∧ s'.contents = [1, 2, 3, 17, 112] := ⟨_, rfl, by decide⟩

/-- C02 for single bytes: add a byte, pop a byte. -/
theorem popU8_exact {s : DwStr} (h : Usable s) :
    (s.contents = [] → popU8 s = .err) ∧
    (∀ pre x, s.contents = pre ++ [x] →
      ∃ s', popU8 s = .ok (x.toNat, s') ∧ Usable s' ∧ s'.max = s.max ∧ s'.contents = pre) := by
  have h1 := h.wf
  unfold WF at h1
  have hlt := h.lt
  constructor
  · intro hh
    have : s.len = 0 := by rw [← h.clen, hh]; rfl
    simp [popU8, h.sane, this]
  · intro pre x hc
    have hl : s.len = pre.length + 1 := by rw [← h.clen, hc]; simp
    have hx : s.buf[pre.length]? = some x := by
      have : s.contents[pre.length]? = some x := by rw [hc]; simp
      simp only [contents] at this
      grind
    refine ⟨{ s with len := s.len - 1 }, ?_, ⟨h1, by simp; omega, h.lim⟩, rfl, ?_⟩
    · have : ¬ s.len < 1 := by omega
      have e : s.len - 1 = pre.length := by omega
      simp [popU8, h.sane, this, peek, e, hx]
    · simp only [contents] at hc ⊢
      have : s.buf.take (s.len - 1) = (s.buf.take s.len).take (s.len - 1) := by
        rw [List.take_take]; congr 1; omega
      rw [this, hc, show s.len - 1 = pre.length by omega]; simp

theorem addchar_pop_u8 {s s' : DwStr} (b : UInt8) (h : Usable s) (hp : addchar b s = .ok s') :
    ∃ s'', popU8 s' = .ok (b.toNat, s'') ∧ s''.contents = s.contents ∧ s''.max = s.max := by
  by_cases hh : s.contents.length + 1 < s.max
  · obtain ⟨t, ht, hu, hm, hc⟩ := (addchar_exact b h).2 hh
    rw [hp] at ht; injection ht with ht; subst ht
    obtain ⟨s'', h1, _, h3, h4⟩ := (popU8_exact hu).2 _ _ hc
    exact ⟨s'', h1, h4, by rw [h3, hm]⟩
  · rw [(addchar_exact b h).1 (by omega)] at hp; cases hp

example : ∃ s', addchar 200 exStr = .ok s' ∧ ∃ s'', popU8 s' = .ok (200, s'') := ⟨_, rfl, _, rfl⟩

/-- `dw_put_u8` at the end of a string shorter than 2^24 bytes appends the byte;
it is the only failing case when even the cushion would be needed. -/
theorem putU8_end {s : DwStr} (v : Nat) (h : Usable s) (hl : s.contents.length < 16777216) :
    ∃ s', putU8 s v (-1) = .ok s' ∧ s'.WF ∧ s'.max = s.max ∧
        s'.contents = s.contents ++ [UInt8.ofNat v] := by
  rw [h.clen] at hl
  have h1 := h.wf
  unfold WF at h1
  have hlt := h.lt
  have e : (s.len : Int) + (-1) + 1 = s.len := by omega
  have eu : u32 (s.len : Int) = s.len := u32_nat _ (by omega)
  have hm : s.len % 0x1000000 = s.len := Nat.mod_eq_of_lt (by omega)
  refine ⟨{ s with len := s.len + 1, buf := s.buf.set s.len (UInt8.ofNat v) }, ?_, by simp [WF, h1], rfl, ?_⟩
  · unfold putU8
    simp only [h.sane, Bool.not_true, Bool.false_eq_true, if_false, e, eu, hm, if_true,
      show ((-1 : Int) < 0) from by decide, Int.toNat_natCast]
    rw [if_neg (by omega), if_neg (by omega), poke_ok _ (by simp; omega)]
    rfl
  · simp only [contents]
    apply List.ext_getElem?
    intro j
    grind

example : ∃ s', putU8 exStr 77 (-1) = .ok s' ∧ s'.contents = [1, 2, 3, 77] := ⟨_, rfl, by decide⟩

/-- Finding: on strings of 2^24 bytes or more, `dw_put_u8` at the end reports
success but the byte is not part of the string (the length is masked to 24 bits
before the comparison, DwStr.c:466). -/
theorem putU8_end_lost {s : DwStr} (v : Nat) (h : Usable s) (hl : 16777216 ≤ s.contents.length) :
    ∃ s', putU8 s v (-1) = .ok s' ∧ s'.contents = s.contents := by
  rw [h.clen] at hl
  have h1 := h.wf
  unfold WF at h1
  have hlt := h.lt
  have hlim := h.lim
  have e : (s.len : Int) + (-1) + 1 = s.len := by omega
  have eu : u32 (s.len : Int) = s.len := u32_nat _ (by omega)
  refine ⟨{ s with buf := s.buf.set s.len (UInt8.ofNat v) }, ?_, ?_⟩
  · unfold putU8
    simp only [h.sane, Bool.not_true, Bool.false_eq_true, if_false, e, eu, if_true,
      show ((-1 : Int) < 0) from by decide, Int.toNat_natCast]
    rw [if_neg (by omega), if_neg (by omega), poke_ok _ (by omega)]
    rfl
  · simp only [contents]
    apply List.ext_getElem?
    intro j
    grind

/-! ## Reading numbers at an offset -/

/-- `dw_fetch_u8` inside the string reads the byte there (also with offsets
counted from the end). -/
theorem fetchU8_in {s : DwStr} (h : Usable s) (i : Nat) (hi : i < s.contents.length) :
    fetchU8 s i = .ok (s.contents[i]).toNat ∧
    fetchU8 s ((i : Int) - s.contents.length) = .ok (s.contents[i]).toNat := by
  have h1 := h.clen
  have hlt := h.lt
  have hlim := h.lim
  rw [h.clen] at hi
  have hp := peek_contents (s := s) (i := i) (by omega)
  have eu : u32 (i : Int) = i := u32_nat _ (by omega)
  constructor
  · unfold fetchU8
    simp only [h.sane, Bool.not_true, Bool.false_eq_true, if_false,
      if_neg (show ¬ ((i : Int) < 0) by omega), eu, Int.toNat_natCast]
    rw [if_neg (by omega), hp]; rfl
  · unfold fetchU8
    simp only [h.sane, Bool.not_true, Bool.false_eq_true, if_false, h1,
      if_pos (show ((i : Int) - (s.len : Int) < 0) by omega)]
    have e : (s.len : Int) + ((i : Int) - s.len) = i := by omega
    rw [e, eu, if_neg (by omega), Int.toNat_natCast, hp]; rfl

/-- `dw_fetch_u8` outside the string is an error, except at the offset equal to
the length, where it returns the stale byte after the contents (finding: one
byte beyond the string, still inside the buffer). -/
theorem fetchU8_out {s : DwStr} (h : Usable s) (i : Int) (hi : s.contents.length ≤ i)
    (hmax : i < 2147483648) :
    fetchU8 s i = if i = s.contents.length then .ok ((s.buf[s.len]?.map UInt8.toNat).getD 0)
      else .err := by
  rw [h.clen] at *
  have h1 := h.wf
  unfold WF at h1
  have hlt := h.lt
  have eu : u32 i = i.toNat := u32_of (by omega) (by omega)
  unfold fetchU8
  simp only [h.sane, Bool.not_true, Bool.false_eq_true, if_false,
      if_neg (show ¬ (i < 0) by omega), eu]
  by_cases he : i = s.len
  · subst he
    rw [if_neg (by omega), if_pos rfl]
    simp [peek, List.getElem?_eq_getElem (show s.len < s.buf.length by omega)]
  · rw [if_pos (by omega), if_neg he]

example : fetchU8 exStr 3 = .ok 9 := by decide
example : fetchU8 exStr 4 = .err := by decide

/-- `dw_fetch_u16` inside the string reads the big-endian number there. -/
theorem fetchU16_in {s : DwStr} (h : Usable s) (i : Nat) (hi : i + 1 < s.contents.length) :
    fetchU16 s i = .ok ((s.contents[i]).toNat * 256 + (s.contents[i + 1]).toNat) ∧
    fetchU16 s ((i : Int) - s.contents.length + 1) =
      .ok ((s.contents[i]).toNat * 256 + (s.contents[i + 1]).toNat) := by
  have h1 := h.clen
  have hlt := h.lt
  have hlim := h.lim
  rw [h.clen] at hi
  have hp := peek_contents (s := s) (i := i) (by omega)
  have hp2 := peek_contents (s := s) (i := i + 1) (by omega)
  have eu : u32 ((i : Int) + 1) = i + 1 := by rw [u32_of (by omega) (by omega)]; omega
  constructor
  · unfold fetchU16
    simp only [h.sane, Bool.not_true, Bool.false_eq_true, if_false,
      if_neg (show ¬ ((i : Int) < 0) by omega), eu, Int.toNat_natCast]
    rw [if_neg (by omega), if_neg (by omega), hp, hp2]; rfl
  · unfold fetchU16
    by_cases hz : (i : Int) - s.len + 1 < 0
    · simp only [h.sane, Bool.not_true, Bool.false_eq_true, if_false, h1, if_pos hz]
      have e : ((i : Int) - s.len + 1) + s.len - 1 = i := by omega
      rw [e, eu, if_neg (by omega), if_neg (by omega), Int.toNat_natCast, hp, hp2]; rfl
    · exfalso; omega

/-- Offset -1 is the last number of the string. -/
example : fetchU16 exStr (-1) = .ok (2 * 256 + 3) := by decide

/-! ## Overwriting in place -/

/-- `dw_put_u16` strictly inside the string overwrites exactly the two bytes at
the offset. -/
theorem putU16_in {s : DwStr} (h : Usable s) (v i : Nat) (hi : i + 1 < s.contents.length)
    (hlen : s.contents.length ≤ 16777215) :
    ∃ s', putU16 s v i = .ok s' ∧ Usable s' ∧ s'.max = s.max ∧
      s'.contents = (s.contents.set i (UInt8.ofNat (v / 256))).set (i + 1) (UInt8.ofNat v) := by
  have h1 := h.wf
  unfold WF at h1
  have hlt := h.lt
  rw [h.clen] at hi hlen
  have eu : u32 (i : Int) = i := u32_nat _ (by omega)
  have hm : s.len % 0x1000000 = s.len := Nat.mod_eq_of_lt (by omega)
  refine ⟨{ s with buf := (s.buf.set i (DwStr.byte (v / 256))).set (i + 1) (DwStr.byte v) }, ?_, ?_, rfl, ?_⟩
  · unfold putU16
    simp only [h.sane, Bool.not_true, Bool.false_eq_true, if_false,
      if_neg (show ¬ ((i : Int) < 0) by omega), eu, hm, Int.toNat_natCast]
    rw [if_neg (by omega), if_neg (by omega), poke_ok _ (by omega)]
    simp only [Res.ok_bind]
    rw [poke_ok _ (by simp; omega)]
  · exact ⟨by simp [WF, h1], hlt, h.lim⟩
  · simp only [contents, DwStr.byte]
    apply List.ext_getElem?
    intro j
    grind

example : ∃ s', putU16 exStr 0x1234 1 = .ok s' ∧ s'.contents = [1, 0x12, 0x34] := ⟨_, rfl, by decide⟩

/-- Finding: `dw_put_u16` documents that with offset -2 the number replaces the
last byte and adds one byte; in fact the string grows by three bytes, the last
two being stale buffer bytes (DwStr.c:418). -/
theorem putU16_minus2_grows_by_three {s : DwStr} (h : Usable s) (v : Nat)
    (h1 : 1 ≤ s.contents.length) (hlen : s.contents.length ≤ 16777215)
    (hfit : s.contents.length + 3 < s.max) :
    ∃ s', putU16 s v (-2) = .ok s' ∧ s'.contents.length = s.contents.length + 3 := by
  have hw := h.wf
  unfold WF at hw
  have hlt := h.lt
  rw [h.clen] at *
  have e : (s.len : Int) + (-2) + 1 = ((s.len - 1 : Nat) : Int) := by omega
  have eu : u32 ((s.len - 1 : Nat) : Int) = s.len - 1 := u32_nat _ (by omega)
  have hm : s.len % 0x1000000 = s.len := Nat.mod_eq_of_lt (by omega)
  refine ⟨{ s with len := s.len + 3, buf := (s.buf.set (s.len - 1) (DwStr.byte (v / 256))).set (s.len - 1 + 1) (DwStr.byte v) }, ?_, ?_⟩
  · unfold putU16
    simp only [h.sane, Bool.not_true, Bool.false_eq_true, if_false,
      if_pos (show ((-2 : Int) < 0) by decide), e, eu, hm, Int.toNat_natCast]
    rw [if_neg (by omega), if_pos (by omega), if_neg (by omega), poke_ok _ (by simp; omega)]
    simp only [Res.ok_bind]
    rw [poke_ok _ (by simp; omega)]
    simp only [Res.ok.injEq, DwStr.mk.injEq, and_true]; omega
  · simp [contents]; omega

/-! ## Substrings and copies -/

/-- `dw_substr` of a range inside the string is exactly that range. -/
theorem substr_in {s : DwStr} (h : Usable s) (b a m : Nat) (junk : List UInt8)
    (hr : b + a ≤ s.contents.length) (hm : a + m + 1 < 134217728) :
    ∃ c, substr s b a m junk = .ok c ∧ Usable c ∧ c.max = a + m + 1 ∧
      c.contents = (s.contents.drop b).take a := by
  have hw := h.wf
  unfold WF at hw
  have hlt := h.lt
  have hlim := h.lim
  rw [h.clen] at hr
  obtain ⟨c0, hc0⟩ := create_eq (size := a + m + 1) junk hm
  obtain ⟨g1, g2, g3, _⟩ := create_ok hc0
  unfold WF at g1
  obtain ⟨k, hk1, hk2, hk3, hk4, hk5⟩ := substrLoop_eq s b a 0 c0 (by omega) (by omega) (by omega) (by omega)
  have hka : k = a := by omega
  subst hka
  refine ⟨{ c0 with len := k, buf := splice c0.buf 0 ((s.buf.drop b).take k) }, ?_, ?_, g3, ?_⟩
  · unfold substr
    have e : u32 ((k : Int) + m + 1) = k + m + 1 := by rw [u32_of (by omega) (by omega)]; omega
    simp only [h.sane, Bool.not_true, Bool.false_eq_true, if_false,
      if_neg (show ¬ ((b : Int) < 0) by omega), if_neg (show ¬ ((k : Int) < 0) by omega),
      if_pos (show (m : Int) ≥ 0 by omega), e]
    rw [if_neg (by omega)]
    simp only [hc0, Res.ok_bind, Int.toNat_natCast, hk5]
    simp
  · refine ⟨?_, by simp; omega, by simp; omega⟩
    unfold WF
    simp only
    rw [splice_length (by simp; omega)]; omega
  · have hl : ((s.buf.drop b).take k).length = k := by simp; omega
    have := splice_take c0.buf 0 ((s.buf.drop b).take k) (by omega)
    rw [hl] at this
    simp only [Nat.zero_add, List.take_zero, List.nil_append] at this
    simp only [contents, this]
    apply List.ext_getElem?
    intro j
    grind

example : ∃ c, substr exStr 1 2 0 [] = .ok c ∧ c.contents = [2, 3] := ⟨_, rfl, by decide⟩

/-- `dw_copy` copies contents and capacity. -/
theorem copy_exact {s : DwStr} (h : Usable s) (junk : List UInt8) :
    ∃ c, copy s junk = .ok c ∧ Usable c ∧ c.max = s.max ∧ c.contents = s.contents := by
  have hw := h.wf
  unfold WF at hw
  have hlt := h.lt
  have hlim := h.lim
  obtain ⟨c0, hc0⟩ := create_eq (size := s.max) junk hlim
  obtain ⟨g1, g2, g3, _⟩ := create_ok hc0
  unfold WF at g1
  obtain ⟨k, hk1, hk2, hk3, hk4, hk5⟩ := substrLoop_eq s 0 s.len 0 c0 (by omega) (by omega) (by omega) (by omega)
  have hka : k = s.len := by omega
  subst hka
  refine ⟨{ c0 with len := s.len, buf := splice c0.buf 0 ((s.buf.drop 0).take s.len) }, ?_, ?_, g3, ?_⟩
  · unfold copy substr
    have e : (s.len : Int) - 0 + -1 + 1 = s.len := by omega
    simp only [h.sane, Bool.not_true, Bool.false_eq_true, if_false,
      if_neg (show ¬ ((0 : Int) < 0) by omega), if_pos (show ((-1 : Int) < 0) by omega),
      if_neg (show ¬ ((-1 : Int) ≥ 0) by omega), if_true, e]
    rw [if_neg (by omega)]
    simp only [hc0, Res.ok_bind, Int.toNat_natCast]
    have := hk5
    simp only [Int.natCast_zero] at this
    rw [this]; simp
  · refine ⟨?_, by simp; omega, by simp; omega⟩
    unfold WF
    simp only
    rw [splice_length (by simp; omega)]; omega
  · have hl : ((s.buf.drop 0).take s.len).length = s.len := by simp; omega
    have := splice_take c0.buf 0 ((s.buf.drop 0).take s.len) (by omega)
    rw [hl] at this
    simp only [Nat.zero_add, List.take_zero, List.nil_append] at this
    simp only [contents, this]
    simp

example : ∃ c, copy exStr [] = .ok c ∧ c.contents = [1, 2, 3] ∧ c.max = 6 := ⟨_, rfl, by decide, rfl⟩

/-- Finding: asking `dw_substr` for more bytes than the string has copies one
stale byte beyond the contents (DwStr.c:293 uses `>` instead of `>=`). -/
example : ∃ c, substr exStr 0 10 0 [] = .ok c ∧ c.contents = [1, 2, 3, 9] := ⟨_, rfl, by decide⟩

/-- `dw_substr_append` of a range inside the source appends exactly that range. -/
theorem substrAppend_exact {s t : DwStr} (h : Usable s) (ht : Usable t) (b a : Nat)
    (junk : List UInt8) (hr : b + a ≤ s.contents.length) (hm : a + 2 < 134217728)
    (hfit : t.contents.length + a < t.max) :
    ∃ t', substrAppend s b a t junk = .ok t' ∧ Usable t' ∧ t'.max = t.max ∧
      t'.contents = t.contents ++ (s.contents.drop b).take a := by
  obtain ⟨c, hc, hu, hm', hcc⟩ := substr_in h b a 1 junk hr (by omega)
  have hl : c.contents.length = a := by rw [hcc]; simp; omega
  obtain ⟨t', h1, h2, h3, h4⟩ := (append_exact hu ht).2 (by omega)
  refine ⟨t', ?_, h2, h3, by rw [h4, hcc]⟩
  unfold substrAppend
  rw [show ((1 : Nat) : Int) = 1 from rfl] at hc
  rw [hc]; simpa using h1

example : ∃ t', substrAppend exStr 0 2 exStr2 [] = .err ∧ substrAppend exStr 0 1 exStr2 [] = .ok t' ∧
    t'.contents = [7, 8, 1] := ⟨_, by decide, rfl, by decide⟩

/-! ## C01: any sequence of operations stays inside the buffers -/

/-- One call of the string library on a store of live strings (indices are
positions in the store). -/
inductive Op where
  | create (size : Nat) (junk : List UInt8)
  | addchar (i : Nat) (b : UInt8)
  | cstrAppend (i : Nat) (bs : List UInt8)
  | qrappend (i : Nat) (bs : List UInt8) (nope : UInt8)
  | fetchU16 (i : Nat) (o : Int)
  | fetchU8 (i : Nat) (o : Int)
  | popU16 (i : Nat)
  | popU8 (i : Nat)
  | putU16 (i v : Nat) (o : Int)
  | putU8 (i v : Nat) (o : Int)
  | issame (i j : Nat)
  | append (i j : Nat)
  | substr (i : Nat) (b a m : Int) (junk : List UInt8)
  | toCstr (i : Nat)

/-- Effect of a call on the store: an error leaves the store unchanged, undefined
behaviour is reported.  Calls on dead indices do nothing. -/
def update (st : List DwStr) (i : Nat) (r : Res DwStr) : Res (List DwStr) :=
  match r with
  | .ok s => .ok (st.set i s)
  | .err => .ok st
  | .ub => .ub

/-- A call that does not change the store. -/
def observe {α : Type} (st : List DwStr) (r : Res α) : Res (List DwStr) :=
  match r with
  | .ub => .ub
  | _ => .ok st

/-- A call that makes a new string. -/
def allocate (st : List DwStr) (r : Res DwStr) : Res (List DwStr) :=
  match r with
  | .ok s => .ok (st ++ [s])
  | .err => .ok st
  | .ub => .ub

def stepStr (st : List DwStr) : Op → Res (List DwStr)
  | .create n junk => allocate st (create n junk)
  | .addchar i b => match st[i]? with
    | some s => update st i (addchar b s) | none => .ok st
  | .cstrAppend i bs => match st[i]? with
    | some s => update st i (cstrAppend bs s) | none => .ok st
  | .qrappend i bs nope => match st[i]? with
    | some s => update st i (qrappend bs s nope) | none => .ok st
  | .fetchU16 i o => match st[i]? with
    | some s => observe st (fetchU16 s o) | none => .ok st
  | .fetchU8 i o => match st[i]? with
    | some s => observe st (fetchU8 s o) | none => .ok st
  | .popU16 i => match st[i]? with
    | some s => update st i (popU16 s >>= fun r => .ok r.2) | none => .ok st
  | .popU8 i => match st[i]? with
    | some s => update st i (popU8 s >>= fun r => .ok r.2) | none => .ok st
  | .putU16 i v o => match st[i]? with
    | some s => update st i (putU16 s v o) | none => .ok st
  | .putU8 i v o => match st[i]? with
    | some s => update st i (putU8 s v o) | none => .ok st
  | .issame i j => match st[i]?, st[j]? with
    | some s, some t => observe st (issame s t) | _, _ => .ok st
  | .append i j => match st[i]?, st[j]? with
    | some s, some t => update st j (append s t) | _, _ => .ok st
  | .substr i b a m junk => match st[i]? with
    | some s => allocate st (substr s b a m junk) | none => .ok st
  | .toCstr i => match st[i]? with
    | some s => observe st (toCstr s) | none => .ok st

def runStr : List DwStr → List Op → Res (List DwStr)
  | st, [] => .ok st
  | st, op :: ops => stepStr st op >>= fun st' => runStr st' ops

/-- C `int32_t` arguments whose sums inside the callee do not overflow:
everything up to 2^30 in magnitude is fine. -/
def Op.argsOk : Op → Prop
  | .fetchU16 _ o => -1073741824 ≤ o ∧ o ≤ 1073741823
  | .fetchU8 _ o => -1073741824 ≤ o ∧ o ≤ 1073741823
  | .putU16 _ _ o => -1073741824 ≤ o ∧ o ≤ 1073741823
  | .putU8 _ _ o => -1073741824 ≤ o ∧ o ≤ 1073741823
  | .substr _ b a m _ => (-536870912 ≤ b ∧ b ≤ 536870911) ∧ (-536870912 ≤ a ∧ a ≤ 536870911) ∧
      (-536870912 ≤ m ∧ m ≤ 536870911)
  | _ => True

/-- What holds of every live string in every reachable store. -/
structure Live (s : DwStr) : Prop where
  wf : s.WF
  le : s.len ≤ s.max
  lim : s.max < 134217728

theorem Live.usable {s : DwStr} (h : Live s) (hs : s.sane = true) : Usable s :=
  ⟨h.wf, ((sane_iff s).1 hs).1, h.lim⟩

theorem Usable.live {s : DwStr} (h : Usable s) : Live s := ⟨h.wf, Nat.le_of_lt h.lt, h.lim⟩

theorem poke_live {s : DwStr} (i : Nat) (b : UInt8) (h : Live s) (hi : i < s.max + 2) :
    ∃ s', s.poke i b = .ok s' ∧ Live s' ∧ s'.max = s.max ∧ s'.len = s.len := by
  have := h.wf
  unfold WF at this
  exact ⟨_, poke_ok b (by omega), ⟨by simp [WF, this], h.le, h.lim⟩, rfl, rfl⟩

theorem qrLoop_live (nope : UInt8) : ∀ (bs : List UInt8) (s : DwStr), Live s →
    ∃ s', qrLoop nope bs s = .ok s' ∧ Live s' := by
  intro bs
  induction bs with
  | nil => intro s h; exact ⟨s, rfl, h⟩
  | cons b bs ih =>
    intro s h
    unfold qrLoop
    split
    · exact ⟨s, rfl, h⟩
    · split
      · obtain ⟨s', h1, h2, h3, h4⟩ := poke_live s.len b h (by omega)
        rw [h1]
        simp only [Res.ok_bind]
        exact ih _ ⟨h2.wf, by simp; omega, h2.lim⟩
      · exact ⟨s, rfl, h⟩

theorem update_inv {st : List DwStr} {i : Nat} {r : Res DwStr} (hst : ∀ s ∈ st, Live s)
    (hr : r = .err ∨ ∃ s, r = .ok s ∧ Live s) :
    ∃ st', update st i r = .ok st' ∧ ∀ s ∈ st', Live s := by
  rcases hr with rfl | ⟨s, rfl, hs⟩
  · exact ⟨st, rfl, hst⟩
  · refine ⟨_, rfl, fun x hx => ?_⟩
    rcases List.mem_or_eq_of_mem_set hx with h | h
    · exact hst _ h
    · exact h ▸ hs

theorem allocate_inv {st : List DwStr} {r : Res DwStr} (hst : ∀ s ∈ st, Live s)
    (hr : r = .err ∨ ∃ s, r = .ok s ∧ Live s) :
    ∃ st', allocate st r = .ok st' ∧ ∀ s ∈ st', Live s := by
  rcases hr with rfl | ⟨s, rfl, hs⟩
  · exact ⟨st, rfl, hst⟩
  · refine ⟨_, rfl, fun x hx => ?_⟩
    simp only [List.mem_append, List.mem_singleton] at hx
    rcases hx with h | h
    · exact hst _ h
    · exact h ▸ hs

theorem observe_inv {α : Type} {st : List DwStr} {r : Res α} (hst : ∀ s ∈ st, Live s)
    (hr : r ≠ .ub) : ∃ st', observe st r = .ok st' ∧ ∀ s ∈ st', Live s := by
  cases r with
  | ok _ => exact ⟨st, rfl, hst⟩
  | err => exact ⟨st, rfl, hst⟩
  | ub => exact absurd rfl hr

theorem putU16_live {s : DwStr} (h : Live s) (v : Nat) (o : Int)
    (ho : -1073741824 ≤ o ∧ o ≤ 1073741823) :
    putU16 s v o = .err ∨ ∃ s', putU16 s v o = .ok s' ∧ Live s' := by
  have hw := h.wf
  have hlim := h.lim
  unfold putU16
  by_cases hs : s.sane = true
  · have hu := (h.usable hs).lt
    simp only [hs, Bool.not_true, Bool.false_eq_true, if_false]
    generalize hq : (if o < 0 then (s.len : Int) + o + 1 else o) = q
    have hq2 : -1073741824 ≤ q ∧ q ≤ 1308622848 := by split at hq <;> omega
    split
    · exact Or.inl rfl
    · rename_i hc
      have hq0 : 0 ≤ q ∧ q ≤ s.len := by unfold u32 at hc; omega
      split
      · split
        · exact Or.inl rfl
        · right
          obtain ⟨s1, e1, l1, m1, n1⟩ := poke_live q.toNat (DwStr.byte (v / 256))
            (s := { s with len := s.len + (s.len - q.toNat + 2) }) ⟨hw, by simp; omega, hlim⟩ (by simp; omega)
          rw [e1]
          simp only [Res.ok_bind]
          obtain ⟨s2, e2, l2, _, _⟩ := poke_live (q.toNat + 1) (DwStr.byte v) l1 (by rw [m1]; simp; omega)
          exact ⟨s2, e2, l2⟩
      · right
        obtain ⟨s1, e1, l1, m1, n1⟩ := poke_live q.toNat (DwStr.byte (v / 256)) h (by omega)
        rw [e1]
        simp only [Res.ok_bind]
        obtain ⟨s2, e2, l2, _, _⟩ := poke_live (q.toNat + 1) (DwStr.byte v) l1 (by rw [m1]; omega)
        exact ⟨s2, e2, l2⟩
  · simp [hs]

theorem putU8_live {s : DwStr} (h : Live s) (v : Nat) (o : Int)
    (ho : -1073741824 ≤ o ∧ o ≤ 1073741823) :
    putU8 s v o = .err ∨ ∃ s', putU8 s v o = .ok s' ∧ Live s' := by
  have hw := h.wf
  have hlim := h.lim
  unfold putU8
  by_cases hs : s.sane = true
  · have hu := (h.usable hs).lt
    simp only [hs, Bool.not_true, Bool.false_eq_true, if_false]
    generalize hq : (if o < 0 then (s.len : Int) + o + 1 else o) = q
    have hq2 : -1073741824 ≤ q ∧ q ≤ 1308622848 := by split at hq <;> omega
    split
    · exact Or.inl rfl
    · rename_i hc
      have hq0 : 0 ≤ q ∧ q ≤ s.len := by unfold u32 at hc; omega
      split
      · split
        · exact Or.inl rfl
        · right
          obtain ⟨s1, e1, l1, m1, n1⟩ := poke_live q.toNat (DwStr.byte v)
            (s := { s with len := s.len + 1 }) ⟨hw, by simp; omega, hlim⟩ (by simp; omega)
          exact ⟨s1, e1, l1⟩
      · right
        obtain ⟨s1, e1, l1, m1, n1⟩ := poke_live q.toNat (DwStr.byte v) h (by omega)
        exact ⟨s1, e1, l1⟩
  · simp [hs]

theorem substr_live {s : DwStr} (h : Live s) (b a m : Int) (junk : List UInt8)
    (hb : -536870912 ≤ b ∧ b ≤ 536870911) (ha : -536870912 ≤ a ∧ a ≤ 536870911)
    (hm : -536870912 ≤ m ∧ m ≤ 536870911) :
    substr s b a m junk = .err ∨ ∃ s', substr s b a m junk = .ok s' ∧ Live s' := by
  have hw := h.wf
  have hlim := h.lim
  unfold WF at hw
  unfold substr
  by_cases hs : s.sane = true
  · have hu := (h.usable hs).lt
    simp only [hs, Bool.not_true, Bool.false_eq_true, if_false]
    generalize hq : (if b < 0 then (s.len : Int) + b else b) = q
    have hq2 : -536870912 ≤ q ∧ q ≤ 536870911 := by split at hq <;> omega
    generalize hp : (if a < 0 then (s.len : Int) - q + a + 1 else a) = p
    have hp2 : -1610612736 ≤ p ∧ p ≤ 1073741824 := by split at hp <;> omega
    rw [if_neg (by omega)]
    have loop : ∀ sz, ∀ r, (create sz junk >>= fun copy =>
        substrLoop s q p.toNat 0 copy >>= fun x => Res.ok { x.2 with len := x.1 }) = r →
        r = .err ∨ ∃ s', r = .ok s' ∧ Live s' := by
      intro sz r hr
      by_cases hsz : sz < 134217728
      · obtain ⟨c0, hc0⟩ := create_eq (size := sz) junk hsz
        obtain ⟨g1, g2, g3, _⟩ := create_ok hc0
        unfold WF at g1
        rw [hc0] at hr
        simp only [Res.ok_bind] at hr
        by_cases hq0 : 0 ≤ q
        · obtain ⟨k, hk1, hk2, hk3, hk4, hk5⟩ := substrLoop_eq s q.toNat p.toNat 0 c0
            (by omega) (by omega) (by omega) (by omega)
          rw [Int.toNat_of_nonneg hq0] at hk5
          rw [hk5] at hr
          right
          refine ⟨_, hr.symm, ?_, ?_, ?_⟩
          · unfold WF; simp only
            rw [splice_length (by simp; omega)]; omega
          · simp; omega
          · simp; omega
        · -- negative begin: the unsigned comparison stops the loop at once
          right
          have : substrLoop s q p.toNat 0 c0 = .ok (0, c0) := by
            cases hpn : p.toNat with
            | zero => simp [substrLoop]
            | succ n =>
              unfold substrLoop
              rw [if_pos]
              left
              unfold u32
              omega
          rw [this] at hr
          exact ⟨_, hr.symm, by simp [WF, g1], by simp, by simp; omega⟩
      · left
        have : create sz junk = .err := by simp [create, Nat.not_lt.1 hsz]
        rw [this] at hr
        exact hr.symm
    split
    · exact Or.inl rfl
    · rename_i sz _
      exact loop sz _ rfl
  · simp [hs]

theorem stepStr_inv {st : List DwStr} (hst : ∀ s ∈ st, Live s) (op : Op) (ha : op.argsOk) :
    ∃ st', stepStr st op = .ok st' ∧ ∀ s ∈ st', Live s := by
  have mem : ∀ {i s}, st[i]? = some s → Live s := fun h => hst _ (List.mem_of_getElem? h)
  cases op with
  | create n junk =>
    refine allocate_inv hst ?_
    by_cases h : n < 134217728
    · obtain ⟨s, hs⟩ := create_eq junk h
      obtain ⟨g1, g2, g3, _⟩ := create_ok hs
      exact Or.inr ⟨s, hs, g1, by omega, by omega⟩
    · exact Or.inl (by simp [create, Nat.not_lt.1 h])
  | addchar i b =>
    simp only [stepStr]
    split
    · rename_i s hs
      refine update_inv hst ?_
      by_cases hsane : s.sane = true
      · have hu := (mem hs).usable hsane
        by_cases hf : s.contents.length + 1 < s.max
        · obtain ⟨t, h1, h2, _⟩ := (addchar_exact b hu).2 hf
          exact Or.inr ⟨t, h1, h2.live⟩
        · exact Or.inl ((addchar_exact b hu).1 (by omega))
      · exact Or.inl (by simp [DwStr.addchar, hsane])
    · exact ⟨st, rfl, hst⟩
  | cstrAppend i bs =>
    simp only [stepStr]
    split
    · rename_i s hs
      refine update_inv hst ?_
      by_cases hsane : s.sane = true
      · have hu := (mem hs).usable hsane
        by_cases hf : s.contents.length + bs.length < s.max
        · obtain ⟨t, h1, h2, _⟩ := (cstrAppend_exact bs hu).2 hf
          exact Or.inr ⟨t, h1, h2.live⟩
        · exact Or.inl ((cstrAppend_exact bs hu).1 (by omega))
      · exact Or.inl (by simp [DwStr.cstrAppend, hsane])
    · exact ⟨st, rfl, hst⟩
  | qrappend i bs nope =>
    simp only [stepStr]
    split
    · rename_i s hs
      refine update_inv hst ?_
      by_cases hsane : s.sane = true
      · obtain ⟨t, h1, h2⟩ := qrLoop_live nope bs s (mem hs)
        exact Or.inr ⟨t, by simp [DwStr.qrappend, hsane, h1], h2⟩
      · exact Or.inl (by simp [DwStr.qrappend, hsane])
    · exact ⟨st, rfl, hst⟩
  | fetchU16 i o =>
    simp only [stepStr]
    simp only [Op.argsOk] at ha
    split
    · rename_i s hs
      refine observe_inv hst ?_
      have hl := mem hs
      have hw := hl.wf
      have hle := hl.le
      have hlim := hl.lim
      unfold WF at hw
      unfold DwStr.fetchU16
      split
      · simp
      · rename_i hsn
        have hu := ((sane_iff s).1 (by simpa using hsn)).1
        generalize hq : (if o < 0 then o + (s.len : Int) - 1 else o) = q
        have hq2 : -1073741825 ≤ q ∧ q ≤ 1308622848 := by split at hq <;> omega
        simp only
        rw [if_neg (by omega)]
        split
        · simp
        · rename_i hc
          have : 0 ≤ q ∧ q + 1 ≤ s.len := by unfold u32 at hc; omega
          rw [peek_ok (by omega), peek_ok (by omega)]
          simp
    · exact ⟨st, rfl, hst⟩
  | fetchU8 i o =>
    simp only [stepStr]
    simp only [Op.argsOk] at ha
    split
    · rename_i s hs
      refine observe_inv hst ?_
      have hl := mem hs
      have hw := hl.wf
      have hle := hl.le
      have hlim := hl.lim
      unfold WF at hw
      unfold DwStr.fetchU8
      split
      · simp
      · generalize hq : (if o < 0 then (s.len : Int) + o else o) = q
        have hq2 : -1073741825 ≤ q ∧ q ≤ 1308622848 := by split at hq <;> omega
        simp only
        split
        · simp
        · rename_i hc
          have : 0 ≤ q ∧ q ≤ s.len := by unfold u32 at hc; omega
          rw [peek_ok (by omega)]
          simp
    · exact ⟨st, rfl, hst⟩
  | popU16 i =>
    simp only [stepStr]
    split
    · rename_i s hs
      refine update_inv hst ?_
      have hl := mem hs
      have hw := hl.wf
      unfold WF at hw
      have hle := hl.le
      unfold DwStr.popU16
      split
      · exact Or.inl rfl
      · split
        · exact Or.inl rfl
        · rw [peek_ok (by omega), peek_ok (by omega)]
          exact Or.inr ⟨_, rfl, hw, by simp; omega, hl.lim⟩
    · exact ⟨st, rfl, hst⟩
  | popU8 i =>
    simp only [stepStr]
    split
    · rename_i s hs
      refine update_inv hst ?_
      have hl := mem hs
      have hw := hl.wf
      unfold WF at hw
      have hle := hl.le
      unfold DwStr.popU8
      split
      · exact Or.inl rfl
      · split
        · exact Or.inl rfl
        · rw [peek_ok (by omega)]
          exact Or.inr ⟨_, rfl, hw, by simp; omega, hl.lim⟩
    · exact ⟨st, rfl, hst⟩
  | putU16 i v o =>
    simp only [stepStr]
    split
    · rename_i s hs
      exact update_inv hst (putU16_live (mem hs) v o ha)
    · exact ⟨st, rfl, hst⟩
  | putU8 i v o =>
    simp only [stepStr]
    split
    · rename_i s hs
      exact update_inv hst (putU8_live (mem hs) v o ha)
    · exact ⟨st, rfl, hst⟩
  | issame i j =>
    simp only [stepStr]
    split
    · rename_i s t hs ht
      refine observe_inv hst ?_
      by_cases h1 : s.sane = true
      · by_cases h2 : t.sane = true
        · rw [issame_iff ((mem hs).usable h1) ((mem ht).usable h2)]; simp
        · simp [DwStr.issame, h1, h2]
      · simp [DwStr.issame, h1]
    · exact ⟨st, rfl, hst⟩
  | append i j =>
    simp only [stepStr]
    split
    · rename_i s t hs ht
      refine update_inv hst ?_
      by_cases h1 : s.sane = true
      · by_cases h2 : t.sane = true
        · have u1 := (mem hs).usable h1
          have u2 := (mem ht).usable h2
          by_cases hf : t.contents.length + s.contents.length < t.max
          · obtain ⟨t', e, hu, _⟩ := (append_exact u1 u2).2 hf
            exact Or.inr ⟨t', e, hu.live⟩
          · exact Or.inl ((append_exact u1 u2).1 (by omega))
        · exact Or.inl (by simp [DwStr.append, h1, h2])
      · exact Or.inl (by simp [DwStr.append, h1])
    · exact ⟨st, rfl, hst⟩
  | substr i b a m junk =>
    simp only [stepStr]
    split
    · rename_i s hs
      exact allocate_inv hst (substr_live (mem hs) b a m junk ha.1 ha.2.1 ha.2.2)
    · exact ⟨st, rfl, hst⟩
  | toCstr i =>
    simp only [stepStr]
    split
    · rename_i s hs
      refine observe_inv hst ?_
      by_cases h1 : s.sane = true
      · rw [toCstr_eq ((mem hs).usable h1)]; simp
      · simp [DwStr.toCstr, h1]
    · exact ⟨st, rfl, hst⟩

/-- C01.  From an empty store, any sequence of string-library calls (with
arguments below 2^29 in magnitude, so that no `int32_t` sum overflows) never
reads or writes outside the heap block of a string, and in the resulting store
every string's length is at most its capacity and its block has the size
`dw_create` gave it. -/
theorem string_ops_in_bounds (ops : List Op) (ha : ∀ op ∈ ops, op.argsOk) :
    ∃ st, runStr [] ops = .ok st ∧
      ∀ s ∈ st, s.buf.length = s.max + 2 ∧ s.len ≤ s.max ∧ s.max < 134217728 := by
  suffices h : ∀ st : List DwStr, (∀ s ∈ st, Live s) →
      ∃ st', runStr st ops = .ok st' ∧ ∀ s ∈ st', Live s by
    obtain ⟨st, h1, h2⟩ := h [] (by simp)
    exact ⟨st, h1, fun s hs => ⟨(h2 s hs).wf, (h2 s hs).le, (h2 s hs).lim⟩⟩
  induction ops with
  | nil => intro st hst; exact ⟨st, rfl, hst⟩
  | cons op ops ih =>
    intro st hst
    obtain ⟨st1, h1, h2⟩ := stepStr_inv hst op (ha op (by simp))
    simp only [runStr, h1, Res.ok_bind]
    exact ih (fun o ho => ha o (by simp [ho])) st1 h2

example : (runStr [] [.create 4 [], .addchar 0 65, .putU16 0 258 (-1), .create 9 [], .append 0 1,
    .substr 1 0 (-1) (-1) []]) =
  .ok [⟨3, 4, [65, 1, 2, 0, 0, 0]⟩, ⟨3, 9, [65, 1, 2, 0, 0, 0, 0, 0, 0, 0, 0]⟩,
    ⟨3, 9, [65, 1, 2, 0, 0, 0, 0, 0, 0, 0, 0]⟩] := by decide

/-- Finding: `dw_qrappend` (and likewise `dw_put_u8`) can fill a string to
`len == max`; such a string fails `dw_assert_sanity`, so every later call on it is
refused. -/
theorem qrappend_can_make_unusable :
    ∃ s s', create 2 [] = .ok s ∧ qrappend [65, 66, 67] s 0 = .ok s' ∧ s'.sane = false :=
  ⟨_, _, rfl, rfl, by decide⟩

/-- C49 (partial).  Every single-string operation except `dw_qrappend`,
`dw_put_u8` and `dw_substr` keeps a usable string usable whatever its arguments.
Missing: the three excepted operations, for which the claim is false
(`qrappend_can_make_unusable`). -/
theorem ops_keep_usable_partial {s s' : DwStr} (h : Usable s) :
    (∀ b, addchar b s = .ok s' → Usable s') ∧
    (∀ bs, cstrAppend bs s = .ok s' → Usable s') ∧
    (∀ a, Usable a → append a s = .ok s' → Usable s') ∧
    (∀ v o, putU16 s v o = .ok s' → Usable s') ∧
    (∀ n, popU16 s = .ok (n, s') → Usable s') ∧
    (∀ n, popU8 s = .ok (n, s') → Usable s') := by
  have hw := h.wf
  unfold WF at hw
  have hlt := h.lt
  have hlim := h.lim
  refine ⟨fun b hb => ?_, fun bs hb => ?_, fun a ha hb => ?_, fun v o hb => ?_,
    fun n hb => ?_, fun n hb => ?_⟩
  · by_cases hf : s.contents.length + 1 < s.max
    · obtain ⟨t, e, hu, _⟩ := (addchar_exact b h).2 hf
      rw [hb] at e; injection e with e; exact e ▸ hu
    · rw [(addchar_exact b h).1 (by omega)] at hb; cases hb
  · by_cases hf : s.contents.length + bs.length < s.max
    · obtain ⟨t, e, hu, _⟩ := (cstrAppend_exact bs h).2 hf
      rw [hb] at e; injection e with e; exact e ▸ hu
    · rw [(cstrAppend_exact bs h).1 (by omega)] at hb; cases hb
  · by_cases hf : s.contents.length + a.contents.length < s.max
    · obtain ⟨t, e, hu, _⟩ := (append_exact ha h).2 hf
      rw [hb] at e; injection e with e; exact e ▸ hu
    · rw [(append_exact ha h).1 (by omega)] at hb; cases hb
  · have poke_inv : ∀ {a b : DwStr} {i : Nat} {x : UInt8}, a.poke i x = .ok b →
        b.len = a.len ∧ b.max = a.max ∧ b.buf.length = a.buf.length := by
      intro a b i x hab
      unfold DwStr.poke at hab
      split at hab
      · injection hab with hab; subst hab; simp
      · cases hab
    unfold putU16 at hb
    simp only [h.sane, Bool.not_true, Bool.false_eq_true, if_false] at hb
    generalize (if o < 0 then (s.len : Int) + o + 1 else o) = oo at hb
    split at hb
    · cases hb
    · split at hb
      · split at hb
        · cases hb
        · rename_i h3
          generalize hq : DwStr.poke { s with len := s.len + (s.len - oo.toNat + 2) } oo.toNat
            (DwStr.byte (v / 256)) = q at hb
          cases q with
          | ok q =>
            have h1 := poke_inv hq
            have h2 := poke_inv hb
            simp only at h1
            exact ⟨by unfold WF; omega, by omega, by omega⟩
          | err => cases hb
          | ub => cases hb
      · generalize hq : DwStr.poke s oo.toNat (DwStr.byte (v / 256)) = q at hb
        cases q with
        | ok q =>
          have h1 := poke_inv hq
          have h2 := poke_inv hb
          exact ⟨by unfold WF; omega, by omega, by omega⟩
        | err => cases hb
        | ub => cases hb
  · unfold popU16 at hb
    simp only [h.sane, Bool.not_true, Bool.false_eq_true, if_false] at hb
    split at hb
    · cases hb
    · rw [peek_ok (by omega), peek_ok (by omega)] at hb
      simp only [Res.ok_bind, Res.ok.injEq, Prod.mk.injEq] at hb
      exact hb.2 ▸ ⟨hw, by simp; omega, hlim⟩
  · unfold popU8 at hb
    simp only [h.sane, Bool.not_true, Bool.false_eq_true, if_false] at hb
    split at hb
    · cases hb
    · rw [peek_ok (by omega)] at hb
      simp only [Res.ok_bind, Res.ok.injEq, Prod.mk.injEq] at hb
      exact hb.2 ▸ ⟨hw, by simp; omega, hlim⟩

example : ∃ s', putU16 exStr 300 1 = .ok s' ∧ Usable s' :=
  ⟨_, rfl, (ops_keep_usable_partial exStr_usable).2.2.2.1 300 1 rfl⟩

end Dw
