import Verif.Co.SessionLemmas
import Verif.Mara.CompUnique
/-!
# coLunacyDNS: lemmas on replies of other servers
-/

namespace Co
open Dw (Res)
open Spec (LabelsOk encName shown shownByte be16 be32 memOf Mem EndsAt BytesAt RecIn LabelAt)

theorem loop_ptr {buf : List UInt8} {base max i : Nat} {out : List UInt8} {c n : UInt8} (g : buf[base + i + 1]? = some c)
    (g2 : buf[base + i + 2]? = some n) (hn : 64 ≤ n) (nf : ¬ full c max i out) (hm : (out ++ shownByte c).length + 1 < max) :
    humanLoop buf base max 1 i out = .ok (some (i + 3, out ++ shownByte c ++ [42])) := by
  rw [humanLoop, if_neg (by omega), g]
  simp only
  rw [if_neg (fun h => nf (h.elim .inl fun h => .inr (.inl h))), if_neg (fun h => nf (.inr (.inr ⟨by simpa using h.1, h.2⟩)))]
  simp only [if_true]
  rw [shown_byte, g2]
  simp only [hn, if_true]
  rw [if_neg (by omega)]

theorem byte_len (c : UInt8) : (shownByte c).length ≤ 4 := by rw [shownByte_len]; split <;> omega

/-- What is known about the rest of a name. -/
def Rest (buf : List UInt8) (base max p e : Nat) : Prop :=
  p < e ∧ ∀ i out, p = base + i → out.length + 4 * (e - p) < max → i + 4 * (e - p) < max → ∃ n t, buf[p]? = some n ∧
    (n < 64 → humanLoop buf base max n.toNat i out = .ok (some (e - base - 1, t))) ∧ (64 ≤ n → e = p + 2)

theorem rest_label {buf : List UInt8} {base max p' e : Nat} (h : Rest buf base max p' e) : ∀ (suf : List UInt8) (i : Nat) (out : List UInt8),
    suf ≠ [] → (∀ j (hj : j < suf.length), buf[base + i + 1 + j]? = some suf[j]) → p' = base + (i + suf.length + 1) →
    out.length + 4 * (suf.length + 1 + (e - p')) < max → i + 4 * (suf.length + (e - p')) < max →
    ∃ t, humanLoop buf base max suf.length i out = .ok (some (e - base - 1, t)) := by
  intro suf
  induction suf with
  | nil => intro i out hn; exact absurd rfl hn
  | cons c suf ih =>
    intro i out _ hb hp h1 h2
    have h0 := h.1
    have g : buf[base + i + 1]? = some c := hb 0 (by simp)
    have hc := byte_len c
    simp only [List.length_cons] at hp h1 h2 ⊢
    have nf : ¬ full c max i out := by
      rintro (h | h | ⟨h, h'⟩) <;> omega
    have ho : (out ++ shownByte c).length ≤ out.length + 4 := by simp; omega
    cases suf with
    | nil =>
      simp only [List.length_nil] at hp h1 h2 ⊢
      obtain ⟨n, t, hn, hr, hr'⟩ := h.2 (i + 2) (out ++ shownByte c ++ [46]) (by omega) (by simp at ho ⊢; omega) (by omega)
      have g2 : buf[base + i + 2]? = some n := by rw [← hn]; congr 1; omega
      by_cases h64 : 64 ≤ n
      · refine ⟨out ++ shownByte c ++ [42], (loop_ptr g g2 h64 nf (by omega)).trans ?_⟩
        have := hr' h64
        congr 3
        omega
      · rw [loop_last g g2 h64, if_neg nf, if_neg (by omega)]
        exact ⟨t, hr (by rw [UInt8.not_le] at h64; exact h64)⟩
    | cons d suf =>
      rw [List.length_cons, loop_mid g (by omega), if_neg nf]
      refine ih (i + 1) _ (by simp) ?_ (by simp only [List.length_cons] at hp ⊢; omega) (by simp only [List.length_cons] at *; omega)
        (by simp only [List.length_cons] at *; omega)
      intro j hj
      have := hb (j + 1) (by simp at hj ⊢; omega)
      rw [show base + (i + 1) + 1 + j = base + i + 1 + (j + 1) by omega, this]
      rfl

theorem rest_ends {buf : List UInt8} {base max p e : Nat} (h : EndsAt (memOf buf) p e) : Rest buf base max p e := by
  induction h with
  | root h =>
    refine ⟨by omega, fun i out hp h1 h2 => ⟨0, out, h, fun _ => ?_, fun h => absurd h (by decide)⟩⟩
    rw [humanLoop]
    simp only [UInt8.toNat_zero, if_true]
    rw [if_neg (by omega)]
    congr 3; omega
  | pointer h h64 =>
    refine ⟨by omega, fun i out hp h1 h2 => ⟨_, out, h, fun hlt => ?_, fun _ => rfl⟩⟩
    exact absurd (UInt8.lt_of_le_of_lt h64 hlt) (by decide)
  | label hl he ih =>
    rename_i p l e
    have h0 := ih.1
    refine ⟨by omega, fun i out hp h1 h2 => ?_⟩
    have hlen := hl.len
    have hpos := hl.pos
    have hle := hl.le
    have en : (UInt8.ofNat l.length).toNat = l.length := by simp; omega
    obtain ⟨t, ht⟩ := rest_label ih l i out (by intro e; rw [e] at hpos; simp at hpos)
      (by intro j hj; have := hl.bytes j hj; rw [hp] at this; exact this) (by omega) (by omega) (by omega)
    refine ⟨_, t, hlen, fun _ => by rw [en]; exact ht, fun h => ?_⟩
    rw [UInt8.le_iff_toNat_le, en] at h
    have : (64 : UInt8).toNat = 64 := rfl
    omega

/-- The end of a name that is not too long is found. -/
theorem human_ends {buf : List UInt8} {base max e : Nat} (h : EndsAt (memOf buf) base e) (hm : 4 * (e - base) < max) :
    ∃ t, human buf base max = .ok (some (e - base - 1, t)) := by
  obtain ⟨h0, hr⟩ := rest_ends (base := base) (max := max) h
  obtain ⟨n, t, hn, h1, h2⟩ := hr 0 [] rfl (by simpa using hm) (by simpa using hm)
  unfold human
  rw [hn]
  simp only
  by_cases h64 : 64 ≤ n
  · rw [if_pos h64, if_neg (by omega)]
    refine ⟨[42], ?_⟩
    have := h2 h64
    congr 3; omega
  · rw [if_neg h64]
    exact ⟨t, h1 (by rw [UInt8.not_le] at h64; exact h64)⟩

theorem peek_bytes {buf l : List UInt8} {i j k : Nat} (h : BytesAt (memOf buf) i l) (hk : k = i + j) (hj : j < l.length) : peek buf k = .ok l[j] := by
  unfold peek
  have := h j hj
  unfold memOf at this
  rw [hk, this]

theorem peeks_bytes {buf l : List UInt8} {i n : Nat} (h : BytesAt (memOf buf) i l) (hn : n = l.length) (h0 : 0 < n) : peeks buf i n = .ok l := by
  subst hn
  have hlen : i + l.length ≤ buf.length := by
    have := h (l.length - 1) (by omega)
    unfold memOf at this
    obtain ⟨h1, _⟩ := List.getElem?_eq_some_iff.1 this
    omega
  unfold peeks
  rw [if_pos hlen]
  congr 1
  apply List.ext_getElem?
  intro j
  by_cases hj : j < l.length
  · have := h j hj
    unfold memOf at this
    rw [List.getElem?_take_of_lt hj, List.getElem?_drop, this, List.getElem?_eq_getElem hj]
  · rw [List.getElem?_eq_none (by simp; omega), List.getElem?_eq_none (by omega)]

theorem two_bytes (n : Nat) (h : n < 65536) : (UInt8.ofNat (n / 256)).toNat * 256 + (UInt8.ofNat n).toNat = n := by simp; omega

/-- A record with a short name: its type and the length of its data. -/
theorem scan_rec {buf : List UInt8} {i a e : Nat} {r : Spec.Rec} (hi : i < 450) (ha : EndsAt (memOf buf) i a) (hs : a ≤ i + 12)
    (hr : RecIn (memOf buf) i r e) (hty : r.type < 65536) (hcl : r.cls.length = 2) :
    scan buf i false =
      (if r.type = 1 ∧ e - (a + 10) = 4 then do
        let ip ← peeks buf (a + 10) 4
        if ip = [0, 0, 0, 0] then scan buf e false else .ok (.v4 ip)
      else if r.type = 28 ∧ e - (a + 10) = 16 then do
        let ip ← peeks buf (a + 10) 16
        .ok (.v6 ip)
      else scan buf e false) := by
  obtain ⟨a', k, _, h1, h2, h3, h4, _⟩ := hr.at_
  have ea : a' = a := Mara.Comp.endsAt_unique h1 ha
  subst ea
  have hia : i < a' := (rest_ends (base := 0) (max := 0) ha).1
  obtain ⟨t, ht⟩ := human_ends (max := 500 - i) ha (by omega)
  obtain ⟨x, y, hxy⟩ : ∃ x y, r.cls = [x, y] := by
    match h : r.cls, hcl with
    | [x, y], _ => exact ⟨x, y, rfl⟩
  rw [hxy] at h2
  simp only [be16, be32, List.cons_append, List.nil_append] at h2
  rw [scan, if_pos hi, ht]
  simp only [Dw.Res.ok_bind, Bool.false_eq_true, if_false]
  have e1 : i + (a' - i - 1) + 1 = a' := by omega
  rw [peek_bytes h2 (j := 0) (by omega) (by simp), peek_bytes h2 (j := 1) (by omega) (by simp)]
  simp only [Dw.Res.ok_bind]
  rw [peek_bytes h2 (j := 8) (by omega) (by simp), peek_bytes h2 (j := 9) (by omega) (by simp)]
  simp only [Dw.Res.ok_bind, List.getElem_cons_zero, List.getElem_cons_succ]
  have e2 : i + (a' - i - 1) + 11 = a' + 10 := by omega
  have e3 : a' + 10 + (e - (a' + 10)) = e := by omega
  simp only [two_bytes _ hty, two_bytes _ h3, e2, e3]

end Co
