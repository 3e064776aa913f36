import Verif.Deadwood.CompModel
import Verif.Deadwood.DnsStrLemmas
import Verif.Deadwood.Name2Props
import Verif.Spec.Names
import Mathlib.Tactic.SplitIfs
/-! Helper lemmas about names in packets. -/

namespace Dw
open Spec
namespace DwStr

/-- The bytes of a string. -/
def mem (s : DwStr) : Mem := memOf s.contents

theorem mem_lt {s : DwStr} (h : Usable s) {i : Nat} {x : UInt8} (hx : s.mem i = some x) : i < s.len := by
  rw [← h.clen]
  simp only [mem, memOf] at hx
  exact (List.getElem?_eq_some_iff.1 hx).1

theorem mem_peek {s : DwStr} {i : Nat} {x : UInt8} (hx : s.mem i = some x) :
    s.peek i = .ok x := by
  simp only [mem, memOf] at hx
  obtain ⟨h1, h2⟩ := List.getElem?_eq_some_iff.1 hx
  rw [peek_contents h1, h2]

theorem peek_mem {s : DwStr} (h : Usable s) {i : Nat} (hi : i < s.len) :
    ∃ x, s.peek i = .ok x ∧ s.mem i = some x := by
  obtain ⟨x, h1, -, h3⟩ := contents_drop h hi
  exact ⟨x, h1, h3⟩

theorem peek_block {s : DwStr} (h : Usable s) {i : Nat} (hi : i ≤ s.len + 2) : ∃ x, s.peek i = .ok x := by
  have := Usable_buf h
  exact ⟨_, peek_ok (by omega)⟩

theorem mem_none {s : DwStr} (h : Usable s) {i : Nat} (hi : s.len ≤ i) : s.mem i = none := by
  simp only [mem, memOf]
  exact List.getElem?_eq_none (by rw [h.clen]; exact hi)

/-- A label in a string, as a piece of its contents. -/
theorem LabelAt.drop {s : DwStr} (h : Usable s) {i : Nat} {l : List UInt8} (hl : LabelAt s.mem i l) :
    i + (l.length + 1) ≤ s.len ∧
    (s.contents.drop i).take (l.length + 1) = UInt8.ofNat l.length :: l := by
  have h0 := hl.pos
  have hb : i + 1 + (l.length - 1) < s.len := mem_lt h (hl.bytes (l.length - 1) (by omega))
  refine ⟨by omega, ?_⟩
  have hcl := h.clen
  apply List.ext_getElem?
  intro j
  have hlen := hl.len
  simp only [mem, memOf] at hlen
  by_cases hj : j < l.length + 1
  · rw [List.getElem?_take_of_lt hj, List.getElem?_drop]
    cases j with
    | zero => simpa using hlen
    | succ j =>
      have := hl.bytes j (by omega)
      simp only [mem, memOf] at this
      rw [show i + (j + 1) = i + 1 + j by omega, this, List.getElem?_cons_succ,
        List.getElem?_eq_getElem (by omega)]
  · rw [List.getElem?_eq_none (by simp; omega), List.getElem?_eq_none (by simp; omega)]

theorem LabelAt.of_byte {s : DwStr} (h : Usable s) {i : Nat} {x : UInt8} (hx : s.mem i = some x)
    (h0 : x ≠ 0) (h63 : ¬ 63 < x) (hfit : i + (x.toNat + 1) ≤ s.len) :
    ∃ l, LabelAt s.mem i l ∧ l.length = x.toNat := by
  have hcl := h.clen
  have hlen : ((s.contents.drop (i + 1)).take x.toNat).length = x.toNat := by simp; omega
  have hpos : 1 ≤ x.toNat := by
    rcases Nat.eq_zero_or_pos x.toNat with g | g
    · exact absurd (UInt8.toNat_inj.1 (by simpa using g)) h0
    · exact g
  refine ⟨_, ⟨by rw [hlen]; exact hpos, ?_, ?_, ?_⟩, hlen⟩
  · rw [hlen]; simpa [UInt8.lt_iff_toNat_lt] using h63
  · rw [hlen, hx]; simp
  · intro j hj
    rw [hlen] at hj
    simp only [mem, memOf, List.getElem_take, List.getElem_drop]
    exact List.getElem?_eq_getElem (by omega)

/-! ## Appending and ignoring errors -/

theorem substr_safe {s : DwStr} (h : Usable s) (b a : Int) (junk : List UInt8)
    (hb : -536870912 ≤ b ∧ b ≤ 536870911) (ha : -536870912 ≤ a ∧ a ≤ 536870911) :
    substr s b a 1 junk = .err ∨ ∃ c, substr s b a 1 junk = .ok c ∧ Live c :=
  substr_live h.live b a 1 junk hb ha (by omega)

theorem append_safe {c out : DwStr} (hc : Live c) (h : Usable out) :
    append c out = .err ∨ ∃ o', append c out = .ok o' ∧ Usable o' ∧ o'.max = out.max ∧
      ∃ x, o'.contents = out.contents ++ x := by
  by_cases hs : c.sane = true
  · have hu := hc.usable hs
    by_cases hf : out.contents.length + c.contents.length < out.max
    · obtain ⟨t, h1, h2, h3, h4⟩ := (append_exact hu h).2 hf
      exact Or.inr ⟨t, h1, h2, h3, _, h4⟩
    · exact Or.inl ((append_exact hu h).1 (by omega))
  · left; simp [append, hs]

theorem appendSub_safe {s out : DwStr} (h : Usable s) (ho : Usable out) (b a : Int) (junk : List UInt8)
    (hb : -536870912 ≤ b ∧ b ≤ 536870911) (ha : -536870912 ≤ a ∧ a ≤ 536870911) :
    ∃ o', s.appendSub b a out junk = .ok o' ∧ Usable o' ∧ o'.max = out.max ∧
      ∃ x, o'.contents = out.contents ++ x := by
  rw [appendSub]
  rcases substr_safe h b a junk hb ha with e | ⟨c, e, lc⟩
  · rw [e]; exact ⟨out, rfl, ho, rfl, [], by simp⟩
  · rw [e, Res.ok_bind]
    rcases append_safe lc ho with e | ⟨o', e, u, m, x⟩
    · rw [e]; exact ⟨out, rfl, ho, rfl, [], by simp⟩
    · rw [e]; exact ⟨o', rfl, u, m, x⟩

/-- One step of `squeeze`. -/
theorem squeeze_cons (cap : Nat) (acc p : List UInt8) (ps : List (List UInt8)) :
    squeeze cap acc (p :: ps) =
      squeeze cap (if acc.length + p.length < cap then acc ++ p else acc) ps := rfl

theorem append_squeeze {c out : DwStr} (hc : Usable c) (ho : Usable out) :
    ∃ o', out.orElse (append c out) = .ok o' ∧ Usable o' ∧ o'.max = out.max ∧
      o'.contents = squeeze out.max out.contents [c.contents] := by
  by_cases hf : out.contents.length + c.contents.length < out.max
  · obtain ⟨t, h1, h2, h3, h4⟩ := (append_exact hc ho).2 hf
    exact ⟨t, by rw [h1]; rfl, h2, h3, by rw [h4]; simp [squeeze, hf]⟩
  · refine ⟨out, by rw [(append_exact hc ho).1 (by omega)]; rfl, ho, rfl, ?_⟩
    simp [squeeze, hf]

theorem appendSub_in {s out : DwStr} (h : Usable s) (ho : Usable out) {b a : Nat}
    (hr : b + a ≤ s.contents.length) (hbig : a + 1 + 1 < 134217728) (junk : List UInt8) :
    ∃ o', s.appendSub b a out junk = .ok o' ∧ Usable o' ∧ o'.max = out.max ∧
      o'.contents = squeeze out.max out.contents [(s.contents.drop b).take a] := by
  obtain ⟨c, h1, h2, h3, h4⟩ := substr_in h b a 1 junk hr hbig
  obtain ⟨o', e1, e2, e3, e4⟩ := append_squeeze h2 ho
  refine ⟨o', ?_, e2, e3, by rw [e4, h4]⟩
  rw [appendSub]
  have h1' : s.substr (b : Int) (a : Int) 1 junk = .ok c := h1
  rw [h1', Res.ok_bind, e1]

theorem addchar_squeeze {out : DwStr} (ho : Usable out) (x : UInt8) :
    ∃ o', out.orElse (addchar x out) = .ok o' ∧ Usable o' ∧ o'.max = out.max ∧
      o'.contents = squeeze out.max out.contents [[x]] := by
  by_cases hf : out.contents.length + 1 < out.max
  · obtain ⟨t, h1, h2, h3, h4⟩ := (addchar_exact x ho).2 hf
    exact ⟨t, by rw [h1]; rfl, h2, h3, by rw [h4]; simp [squeeze, hf]⟩
  · refine ⟨out, by rw [(addchar_exact x ho).1 (by omega)]; rfl, ho, rfl, ?_⟩
    simp [squeeze, hf]

theorem squeeze_append (cap : Nat) (acc : List UInt8) (a b : List (List UInt8)) :
    squeeze cap acc (a ++ b) = squeeze cap (squeeze cap acc a) b := by
  simp [squeeze]

theorem squeeze_ext (cap : Nat) : ∀ (ps : List (List UInt8)) (acc : List UInt8),
    ∃ x, squeeze cap acc ps = acc ++ x := by
  intro ps
  induction ps with
  | nil => intro acc; exact ⟨[], by simp [squeeze]⟩
  | cons p ps ih =>
    intro acc
    rw [squeeze_cons]
    obtain ⟨x, hx⟩ := ih (if acc.length + p.length < cap then acc ++ p else acc)
    rw [hx]
    split_ifs
    · exact ⟨p ++ x, by simp⟩
    · exact ⟨x, rfl⟩

/-! ## Pointers -/

theorem decompOffset_ptr {s : DwStr} (h : Usable s) {i : Nat} {x y : UInt8} (hi : i ≤ s.len)
    (hx : s.peek i = .ok x) (h64 : ¬ x < 64) (hy : s.peek (i + 1) = .ok y) (qlen : Nat) :
    s.decompOffset i qlen = .ok (match ptrTarget s.len qlen (x.toNat % 64 * 256 + y.toNat) with
      | some (true, j) => -2 - (j : Int)
      | some (false, j) => j
      | none => -1) := by
  generalize hv : x.toNat % 64 * 256 + y.toNat = v
  rw [decompOffset]
  simp only [h.sane, Bool.not_true, Bool.false_eq_true, if_false, if_neg (show ¬ i > s.len by omega),
    hx, hy, Res.ok_bind, if_neg h64, hv]
  unfold ptrTarget
  by_cases c1 : v < 12 + qlen ∧ 0 < qlen
  · rw [if_pos (by omega), if_pos c1]
    by_cases c2 : 12 ≤ v
    · rw [if_pos c2]; simp only; congr 1; omega
    · rw [if_neg c2]
      by_cases c3 : v = 11
      · rw [if_pos c3]; simp only; congr 1; omega
      · rw [if_neg c3]; simp only; congr 1; omega
  · rw [if_neg (by omega), if_neg c1]
    by_cases c4 : 14 + qlen ≤ v ∧ v - (14 + qlen) ≤ s.len
    · rw [if_neg (by omega), if_pos c4]; simp only; congr 1; omega
    · rw [if_pos (by omega), if_neg c4]

theorem decompOffset_lit {s : DwStr} (h : Usable s) {i : Nat} {x : UInt8} (hi : i ≤ s.len)
    (hx : s.peek i = .ok x) (h64 : x < 64) (qlen : Int) : s.decompOffset i qlen = .ok (i : Int) := by
  rw [decompOffset]
  simp only [h.sane, Bool.not_true, Bool.false_eq_true, if_false, if_neg (show ¬ i > s.len by omega),
    hx, Res.ok_bind, if_pos h64]

end DwStr
end Dw
