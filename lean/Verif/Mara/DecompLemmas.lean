import Verif.Mara.DecompModel
import Verif.Mara.CompUnique
import Verif.Spec.Unpacked
/-!
# Decompression: names
-/

namespace Mara
namespace Decomp

open Spec
open Dw (Res)
open Comp (Field fields getLabel drop_label)
open Lookup (ofNat_len len_facts encName_cons_length encName_pos)

theorem nameBy_in {m : Mem} {n i : Nat} {ls : Name} (h : NameBy m n i ls) : NameIn m i ls := by
  induction h with
  | root h => exact .root h
  | label h _ ih => exact .label h ih
  | pointer h1 h2 h3 h4 _ _ ih => exact .pointer h1 h2 h3 h4 ih

theorem nameBy_first {m : Mem} {n i : Nat} {ls : Name} (h : NameBy m n i ls) : ∃ x, m i = some x := by
  cases h with
  | root h => exact ⟨_, h⟩
  | label h _ => exact ⟨_, h.len⟩
  | pointer h _ _ _ _ _ => exact ⟨_, h⟩

theorem memOf_lt {c : List UInt8} {i : Nat} {x : UInt8} (h : memOf c i = some x) : i < c.length :=
  (List.getElem?_eq_some_iff.1 h).1

/-- A name that can be read is read. -/
theorem getLabel_by {c : List UInt8} {n i : Nat} {ls : Name} (h : NameBy (memOf c) n i ls) :
    ∀ (N : Nat) (acc : List UInt8), n ≤ N → acc.length + (encName ls).length ≤ 258 →
      getLabel c N i acc = some (acc ++ encName ls) := by
  induction h with
  | @root i h0 =>
    intro N acc hN ha
    obtain ⟨N, rfl⟩ : ∃ k, N = k + 1 := ⟨N - 1, by omega⟩
    have h0 : c[i]? = some 0 := h0
    have : acc.length + 1 ≤ 258 := by simpa [encName, encLabels] using ha
    unfold getLabel
    rw [h0]
    simp only [show ¬ ((0 : UInt8) > 63 ∧ (0 : UInt8) < 192) by decide, show ¬ ((0 : UInt8) ≥ 192) by decide,
      show ¬ ((0 : UInt8) > 0) by decide, if_false]
    rw [if_neg (by omega)]
    rfl
  | @label n i l ls hl hn ih =>
    intro N acc hN ha
    obtain ⟨N, rfl⟩ : ∃ k, N = k + 1 := ⟨N - 1, by omega⟩
    have h0 : c[i]? = some (UInt8.ofNat l.length) := hl.len
    have h1 : 1 ≤ l.length ∧ l.length ≤ 63 := ⟨hl.pos, hl.le⟩
    obtain ⟨x, hx⟩ := nameBy_first hn
    have hlt := memOf_lt hx
    have hp := encName_pos ls
    rw [Lookup.encName_cons] at ha ⊢
    simp only [List.length_append, List.length_cons] at ha
    unfold getLabel
    rw [h0]
    have hf := len_facts ⟨l.length, by omega⟩ (by simp; intro e; simp [e] at h1)
    simp only at hf ⊢
    rw [if_neg (by intro h; exact hf.2.1 h.1), if_neg hf.2.2.2.2, if_pos hf.2.2.2.1, ofNat_len h1.2, if_neg (by omega),
      if_neg (by omega), drop_label hl, ih N _ (by omega) (by simp; omega)]
    simp
  | @pointer n i x y ls hx h1 hy hv h12 _ ih =>
    intro N acc hN ha
    obtain ⟨N, rfl⟩ : ∃ k, N = k + 1 := ⟨N - 1, by omega⟩
    have hx : c[i]? = some x := hx
    have hy : c[i + 1]? = some y := hy
    unfold getLabel
    rw [hx]
    simp only
    rw [if_neg (by rintro ⟨_, h⟩; exact absurd h (by rw [UInt8.not_lt]; exact h1)), if_pos h1, hy]
    simp only
    rw [if_neg (by omega), if_neg (by omega)]
    exact ih N acc (by omega) ha

/-- What is read is a name that is there. -/
theorem getLabel_in {c : List UInt8} : ∀ (n i : Nat) (acc l : List UInt8), getLabel c n i acc = some l →
    ∃ ls, NameIn (memOf c) i ls ∧ l = acc ++ encName ls
  | 0, _, _, _, h => by cases h
  | n + 1, i, acc, l, h => by
    unfold getLabel at h
    cases hb : c[i]? with
    | none => rw [hb] at h; cases h
    | some b =>
      rw [hb] at h
      simp only at h
      split at h
      · cases h
      · rename_i h1
        split at h
        · rename_i h2
          cases hy : c[i + 1]? with
          | none => rw [hy] at h; cases h
          | some y =>
            rw [hy] at h
            simp only at h
            split at h
            · cases h
            · split at h
              · cases h
              · obtain ⟨ls, h3, h4⟩ := getLabel_in n _ acc l h
                exact ⟨ls, .pointer hb h2 hy (by omega) h3, h4⟩
        · rename_i h2
          have hb63 : b.toNat ≤ 63 := by
            by_cases hh : b > 63
            · exact absurd ⟨hh, by rw [ge_iff_le, UInt8.not_le] at h2; exact h2⟩ h1
            · rw [gt_iff_lt, UInt8.not_lt] at hh
              exact UInt8.le_iff_toNat_le.1 hh
          split at h
          · rename_i h3
            have hb1 : 1 ≤ b.toNat := by
              have := UInt8.lt_iff_toNat_lt.1 h3
              have e : (0 : UInt8).toNat = 0 := rfl
              omega
            split at h
            · cases h
            · split at h
              · cases h
              · rename_i h4 h5
                obtain ⟨ls, h6, h7⟩ := getLabel_in n _ _ l h
                have hlen : ((c.drop (i + 1)).take b.toNat).length = b.toNat := by simp; omega
                have hat : LabelAt (memOf c) i ((c.drop (i + 1)).take b.toNat) := by
                  refine ⟨by omega, by omega, by rw [hlen, UInt8.ofNat_toNat]; exact hb, ?_⟩
                  intro j hj
                  show c[i + 1 + j]? = _
                  rw [hlen] at hj
                  rw [List.getElem?_eq_getElem (by omega)]
                  simp
                refine ⟨_ :: ls, .label hat (by rw [hlen]; exact h6), ?_⟩
                rw [h7, Lookup.encName_cons]
                have hd : (c.drop i).take (b.toNat + 1) = b :: (c.drop (i + 1)).take b.toNat := by
                  rw [List.drop_eq_getElem_cons (by omega), List.take_succ_cons]
                  congr 1
                  exact (List.getElem?_eq_some_iff.1 hb).2
                rw [hd, hlen, UInt8.ofNat_toNat]
                simp
          · rename_i h3
            split at h
            · cases h
            · have hb0 : b = 0 := by
                rw [gt_iff_lt, UInt8.not_lt] at h3
                have := UInt8.le_iff_toNat_le.1 h3
                have e : (0 : UInt8).toNat = 0 := rfl
                exact UInt8.toNat_inj.1 (by omega)
              subst hb0
              refine ⟨[], .root hb, ?_⟩
              exact (Option.some.inj h).symm

theorem nameIn_ends {m : Mem} {i : Nat} {ls : Name} (h : NameIn m i ls) : ∃ e, EndsAt m i e := by
  induction h with
  | root h => exact ⟨_, .root h⟩
  | label h _ ih => exact ⟨_, .label h ih.choose_spec⟩
  | pointer h1 h2 _ _ _ _ => exact ⟨_, .pointer h1 h2⟩

/-- `dlabel_length` of a name that is not too long. -/
theorem dlabel_ends {c : List UInt8} {off : Nat} {i : Nat} {ls : Name} (hn : NameIn (memOf c) i ls) :
    ∀ (n k e : Nat), i = k + off → k + (encName ls).length ≤ 256 → ls.length < n → EndsAt (memOf c) i e →
      Lookup.dlabel c off n k = some (e - off) ∧ i < e := by
  induction hn with
  | @root i h0 =>
    intro n k e hi hk hln he
    obtain ⟨n, rfl⟩ : ∃ j, n = j + 1 := ⟨n - 1, by omega⟩
    have h0' : c[k + off]? = some 0 := by rw [← hi]; exact h0
    have hee := Comp.endsAt_unique he (.root h0)
    unfold Lookup.dlabel
    rw [h0']
    simp only
    rw [if_neg (by rintro ⟨_, h, _⟩; exact absurd h (by decide))]
    exact ⟨by congr 1; omega, by omega⟩
  | @label i l ls hl hn ih =>
    intro n k e hi hk hln he
    obtain ⟨n, rfl⟩ : ∃ j, n = j + 1 := ⟨n - 1, by omega⟩
    have h1 : 1 ≤ l.length ∧ l.length ≤ 63 := ⟨hl.pos, hl.le⟩
    have h0 : c[k + off]? = some (UInt8.ofNat l.length) := by rw [← hi]; exact hl.len
    obtain ⟨e', he'⟩ := nameIn_ends hn
    have hee := Comp.endsAt_unique he (.label hl he')
    subst hee
    have hf := len_facts ⟨l.length, by omega⟩ (by simp; intro e; simp [e] at h1)
    rw [encName_cons_length] at hk
    have hp := encName_pos ls
    unfold Lookup.dlabel
    rw [h0]
    simp only at hf ⊢
    rw [if_pos ⟨by omega, hf.2.2.2.1, hf.1⟩, if_neg hf.2.2.2.2, if_neg hf.2.1, ofNat_len h1.2]
    have := ih n (k + l.length + 1) e (by omega) (by omega) (by simp only [List.length_cons] at hln; omega) he'
    exact ⟨this.1, by omega⟩
  | @pointer i x y ls hx h1 hy hv _ ih =>
    intro n k e hi hk hln he
    obtain ⟨n, rfl⟩ : ∃ j, n = j + 1 := ⟨n - 1, by omega⟩
    have h0 : c[k + off]? = some x := by rw [← hi]; exact hx
    have hee := Comp.endsAt_unique he (.pointer hx h1)
    have hy' := memOf_lt hy
    have hp := encName_pos ls
    have hx' := UInt8.le_iff_toNat_le.1 h1
    have e192 : (192 : UInt8).toNat = 192 := rfl
    unfold Lookup.dlabel
    rw [h0]
    simp only
    rw [if_pos ⟨by omega, by
        rw [gt_iff_lt, UInt8.lt_iff_toNat_lt]
        have : (0 : UInt8).toNat = 0 := rfl
        omega, by
        intro e
        rw [e] at hx'
        have : (95 : UInt8).toNat = 95 := rfl
        omega⟩, if_pos h1, if_pos (by omega)]
    exact ⟨by congr 1; omega, by omega⟩

theorem ends_lt {m : Mem} {i e : Nat} (h : EndsAt m i e) : i < e := by
  induction h with
  | root _ => omega
  | pointer _ _ => omega
  | label _ _ ih => omega

theorem dlabel_of {c : List UInt8} {off e : Nat} {ls : Name} (hn : NameIn (memOf c) off ls) (hl : (encName ls).length ≤ 255)
    (he : EndsAt (memOf c) off e) : Lookup.dlabel c off 256 0 = some (e - off) :=
  (dlabel_ends hn 256 0 e (by omega) (by omega) (by have := Lookup.Fits.labels (Comp.NameIn.ok hn); omega) he).1

theorem appendName_legible {c out : List UInt8} {max off e : Nat} {ls : Name} (h : Legible (memOf c) off ls) (he : EndsAt (memOf c) off e)
    (hm : (encName ls).length + out.length < max) : appendName c max out off = .ok (out ++ encName ls, e - off) := by
  obtain ⟨h1, n, h2, h3⟩ := h
  obtain ⟨x, hx⟩ := nameBy_first h3
  have hlt := memOf_lt hx
  unfold appendName
  rw [if_neg (by omega), getLabel_by h3 255 [] h2 (by simp; omega)]
  simp only
  rw [dlabel_of (nameBy_in h3) h1 he]
  simp only [List.nil_append]
  rw [if_neg (by omega)]

/-- Some name in the message has more than 255 bytes. -/
def Overlong (c : List UInt8) : Prop := ∃ i ls, NameIn (memOf c) i ls ∧ 255 < (encName ls).length

theorem appendName_inv {c out out' : List UInt8} {max off len : Nat} (hc : ¬ Overlong c) (h : appendName c max out off = .ok (out', len)) :
    ∃ ls e, NameIn (memOf c) off ls ∧ EndsAt (memOf c) off e ∧ len = e - off ∧ out' = out ++ encName ls ∧
      (encName ls).length + out.length < max := by
  unfold appendName at h
  split at h
  · cases h
  · cases hg : getLabel c 255 off [] with
    | none => rw [hg] at h; cases h
    | some l =>
      rw [hg] at h
      obtain ⟨ls, h1, h2⟩ := getLabel_in _ _ _ _ hg
      obtain ⟨e, he⟩ := nameIn_ends h1
      have hl : (encName ls).length ≤ 255 := by
        by_cases hh : (encName ls).length ≤ 255
        · exact hh
        · exact absurd ⟨off, ls, h1, by omega⟩ hc
      rw [dlabel_of h1 hl he] at h
      simp only at h
      split at h
      · cases h
      · rename_i h3
        cases h
        rw [h2] at h3 ⊢
        exact ⟨ls, e, h1, he, rfl, rfl, by simpa using h3⟩

theorem appendBytes_at {c out x : List UInt8} {max off : Nat} (h : BytesAt (memOf c) off x) (hx : 1 ≤ x.length)
    (hm : x.length + out.length < max) : appendBytes c max out off x.length = .ok (out ++ x) := by
  have hl := memOf_lt (h (x.length - 1) (by omega))
  unfold appendBytes
  rw [if_neg (by omega), if_neg (by omega), if_neg (by omega)]
  congr 2
  apply List.ext_getElem
  · simp; omega
  · intro j h1 h2
    have := (List.getElem?_eq_some_iff.1 (h j h2)).2
    simpa using this

theorem appendBytes_inv {c out out' : List UInt8} {max off len : Nat} (h : appendBytes c max out off len = .ok out') :
    ∃ x, x.length = len ∧ BytesAt (memOf c) off x ∧ out' = out ++ x ∧ len + out.length < max ∧ off + len ≤ c.length := by
  unfold appendBytes at h
  split at h
  · cases h
  · split at h
    · cases h
    · split at h
      · cases h
      · cases h
        refine ⟨_, by simp; omega, ?_, rfl, by omega, by omega⟩
        intro j hj
        simp only [List.length_take, List.length_drop] at hj
        show c[off + j]? = _
        rw [List.getElem?_eq_getElem (by omega)]
        simp

end Decomp
end Mara
