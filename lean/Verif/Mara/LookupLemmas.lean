import Verif.Mara.LookupModel
import Verif.Mara.JsProps
import Verif.Spec.Zone
/-!
# Lemmas: the keys of the big hash
-/

namespace Mara
namespace Lookup

open Dw (Res)
open Spec

/-- Two bytes of a number. -/
def u16 (t : Nat) : List UInt8 := [UInt8.ofNat (t / 256), UInt8.ofNat t]

/-- The key of a name and a type. -/
def key (ls : Name) (t : Nat) : List UInt8 := encName ls ++ u16 t

/-- Names that fit the strings of `proc_query`. -/
def Fits (ls : Name) : Prop := LabelsOk ls ∧ (encName ls).length ≤ 253

theorem encName_nil : encName [] = [0] := rfl

theorem encName_cons (l : List UInt8) (ls : Name) :
    encName (l :: ls) = UInt8.ofNat l.length :: (l ++ encName ls) := by
  simp [encName, encLabels_cons]

theorem encName_cons_length (l : List UInt8) (ls : Name) :
    (encName (l :: ls)).length = l.length + 1 + (encName ls).length := by
  rw [encName_cons]; simp; omega

theorem Fits.tail {l : List UInt8} {ls : Name} (h : Fits (l :: ls)) : Fits ls := by
  refine ⟨h.1.tail, ?_⟩
  have := h.2
  rw [encName_cons_length] at this
  omega

theorem Fits.labels : ∀ {ls : Name}, LabelsOk ls → 2 * ls.length + 1 ≤ (encName ls).length
  | [], _ => by simp [encName_nil]
  | l :: ls, h => by
    have h1 := h.head
    have h2 := Fits.labels h.tail
    rw [encName_cons_length]
    simp only [List.length_cons]
    omega

theorem encName_pos (ls : Name) : 1 ≤ (encName ls).length := by simp [encName]

theorem key_length (ls : Name) (t : Nat) : (key ls t).length = (encName ls).length + 2 := by
  simp [key, u16]

theorem changeRtype_app (l : List UInt8) (hl : 1 ≤ l.length) (t u : Nat) (hu : u < 65536) :
    changeRtype (l ++ u16 t) u = some (l ++ u16 u) := by
  unfold changeRtype
  have h1 : (l ++ u16 t).length = l.length + 2 := by simp [u16]
  rw [if_neg (by omega), if_neg (by omega), h1, Nat.add_sub_cancel, List.take_left]
  rfl

theorem changeRtype_key (ls : Name) (t u : Nat) (hu : u < 65536) :
    changeRtype (key ls t) u = some (key ls u) := changeRtype_app _ (encName_pos ls) t u hu

theorem changeRtype_skey (ls : Name) (t u : Nat) (hu : u < 65536) :
    changeRtype (95 :: key ls t) u = some (95 :: key ls u) := by
  have := changeRtype_app (95 :: encName ls) (by simp) t u hu
  exact this

theorem getRtype_key (ls : Name) (t : Nat) (ht : t < 65536) : getRtype (key ls t) = some t := by
  unfold getRtype
  have h1 := key_length ls t
  have h2 := encName_pos ls
  rw [if_neg (by omega), h1]
  have e1 : (key ls t).getD ((encName ls).length + 2 - 2) 0 = UInt8.ofNat (t / 256) := by
    rw [Nat.add_sub_cancel]
    simp [key, u16, List.getElem?_append_right]
  have e2 : (key ls t).getD ((encName ls).length + 2 - 1) 0 = UInt8.ofNat t := by
    rw [show (encName ls).length + 2 - 1 = (encName ls).length + 1 by omega]
    simp [key, u16, List.getElem?_append_right]
  rw [e1, e2]
  simp only [UInt8.toNat_ofNat']
  congr 1
  omega

theorem lower_len : ∀ n : Fin 64, Js.lower (UInt8.ofNat n) = UInt8.ofNat n := by decide +kernel

theorem encName_lower : ∀ {ls : Name}, LabelsOk ls → (encName ls).map Js.lower = encName (lowName ls)
  | [], _ => by decide +kernel
  | l :: ls, h => by
    have h1 := h.head
    have ih := encName_lower h.tail
    have e : lowName (l :: ls) = (l.map lower) :: lowName ls := rfl
    rw [e, encName_cons, encName_cons, List.map_cons, List.map_append, ih,
      lower_len ⟨l.length, by omega⟩, List.length_map]
    congr 2

theorem foldCase_key {ls : Name} (h : LabelsOk ls) (t : Nat) :
    foldCase (key ls t) = key (lowName ls) t := by
  unfold foldCase
  have e : (key ls t).length - 2 = (encName ls).length := by rw [key_length]; omega
  rw [e]
  unfold key
  rw [List.take_left, List.drop_left, encName_lower h]

theorem lowName_ok {ls : Name} (h : LabelsOk ls) : LabelsOk (lowName ls) := by
  intro x hx
  obtain ⟨l, hl, rfl⟩ := List.mem_map.1 hx
  rw [List.length_map]
  exact h l hl

theorem Fits.lower {ls : Name} (h : Fits ls) : Fits (lowName ls) := by
  refine ⟨lowName_ok h.1, ?_⟩
  have e := congrArg List.length (encName_lower h.1)
  rw [List.length_map] at e
  rw [← e]
  exact h.2

theorem lowName_idem (ls : Name) : lowName (lowName ls) = lowName ls := by
  have hl : ∀ c : UInt8, Spec.lower (Spec.lower c) = Spec.lower c := by
    have : ∀ n : Fin 256, Spec.lower (Spec.lower (UInt8.ofNat n)) = Spec.lower (UInt8.ofNat n) := by
      decide +kernel
    intro c
    simpa only [UInt8.ofNat_toNat] using this ⟨c.toNat, c.toNat_lt⟩
  simp only [lowName, List.map_map]
  apply List.map_congr_left
  intro l _
  simp only [Function.comp, List.map_map]
  exact List.map_congr_left fun c _ => hl c

theorem ofNat_len {l : List UInt8} (h : l.length ≤ 63) : (UInt8.ofNat l.length).toNat = l.length := by
  rw [UInt8.toNat_ofNat']; omega

theorem len_facts : ∀ n : Fin 64, n.val ≠ 0 → UInt8.ofNat n ≠ 95 ∧ ¬ UInt8.ofNat n > 63 ∧ UInt8.ofNat n ≠ 0
    ∧ UInt8.ofNat n > 0 ∧ ¬ UInt8.ofNat n ≥ 192 := by decide +kernel

theorem key_cons (l : List UInt8) (ls : Name) (t : Nat) :
    key (l :: ls) t = UInt8.ofNat l.length :: (l ++ key ls t) := by
  simp [key, encName_cons]

theorem bobbitLabel_cons {l : List UInt8} {ls : Name} (h : Fits (l :: ls)) (t : Nat) :
    bobbitLabel (key (l :: ls) t) = .done 1 (key ls t) := by
  have h1 := h.1.head
  have hf := len_facts ⟨l.length, by omega⟩ (by simp; intro e; simp [e] at h1)
  have hlen := key_length (l :: ls) t
  have h2 := h.2
  have hk := key_length ls t
  have hx := encName_cons_length l ls
  unfold bobbitLabel
  rw [if_neg (by omega), key_cons]
  simp only at hf ⊢
  rw [if_neg hf.1, ofNat_len h1.2, if_neg (by
    simp only [List.length_cons, List.length_append, not_or]
    exact ⟨by omega, hf.2.1⟩), if_neg hf.2.2.1, List.drop_succ_cons, List.drop_left]

theorem bobbitLabel_nil (t : Nat) : bobbitLabel (key [] t) = .zero (key [] t) := by
  simp [bobbitLabel, key, encName_nil, u16]

theorem makeStar_cons {l : List UInt8} {ls : Name} (h : Fits (l :: ls)) (t : Nat) :
    makeStar (key (l :: ls) t) = .done 1 (95 :: key ls t) := by
  have h1 := h.1.head
  have hf := len_facts ⟨l.length, by omega⟩ (by simp; intro e; simp [e] at h1)
  have hlen := key_length (l :: ls) t
  have h2 := h.2
  have hk := key_length ls t
  have hx := encName_cons_length l ls
  unfold makeStar
  rw [if_neg (by omega), key_cons]
  obtain ⟨d, r, hd⟩ : ∃ d r, l ++ key ls t = d :: r := by
    cases hh : l ++ key ls t with
    | nil => exact absurd (congrArg List.length hh) (by rw [List.length_append, hk]; simp)
    | cons d r => exact ⟨d, r, rfl⟩
  rw [hd]
  simp only at hf ⊢
  rw [if_neg hf.1, ofNat_len h1.2, if_neg (by
    rw [← hd]
    simp only [List.length_cons, List.length_append, not_or]
    exact ⟨by omega, hf.2.1⟩), if_neg hf.2.2.1, List.drop_succ_cons, ← hd, List.drop_left]

theorem bobbitStar_cons {l : List UInt8} {ls : Name} (h : LabelsOk (l :: ls))
    (h2 : (encName (l :: ls)).length ≤ 252) (t : Nat) :
    bobbitStar (95 :: key (l :: ls) t) = .done 1 (95 :: key ls t) := by
  have h1 := h.head
  have hf := len_facts ⟨l.length, by omega⟩ (by simp; intro e; simp [e] at h1)
  have hlen := key_length (l :: ls) t
  have hk := key_length ls t
  have hx := encName_cons_length l ls
  unfold bobbitStar
  rw [if_neg (by simp only [List.length_cons]; omega), key_cons]
  simp only at hf ⊢
  rw [if_neg (by simp), ofNat_len h1.2, if_neg (by
    simp only [List.length_cons, List.length_append, not_or]
    exact ⟨by omega, hf.2.1⟩), if_neg hf.2.2.1, List.drop_succ_cons, List.drop_succ_cons, List.drop_left]

theorem bobbitStar_nil (t : Nat) : bobbitStar (95 :: key [] t) = .zero (95 :: key [] t) := by
  simp [bobbitStar, key, encName_nil, u16]

/-- The length of a name in a message. -/
theorem dlabel_name : ∀ {ls : Name}, LabelsOk ls → ∀ (pre rest : List UInt8) (o n k : Nat), pre.length = k + o →
    ls.length < n → k + (encName ls).length ≤ 256 →
    dlabel (pre ++ (encName ls ++ rest)) o n k = some (k + (encName ls).length)
  | [], _, pre, rest, o, n + 1, k, hp, _, hk => by
    unfold dlabel
    have : (pre ++ (encName [] ++ rest))[k + o]? = some 0 := by
      rw [← hp]; simp [encName_nil]
    rw [this]
    simp [encName_nil]
  | l :: ls, h, pre, rest, o, n + 1, k, hp, hn, hk => by
    have h1 := h.head
    have hf := len_facts ⟨l.length, by omega⟩ (by simp; intro e; simp [e] at h1)
    have hx := encName_cons_length l ls
    have hpos := encName_pos ls
    have ih := dlabel_name h.tail (pre ++ UInt8.ofNat l.length :: l) rest o n (k + l.length + 1)
      (by simp; omega) (by simpa using hn) (by omega)
    have e : pre ++ (encName (l :: ls) ++ rest) = pre ++ UInt8.ofNat l.length :: l ++ (encName ls ++ rest) := by
      rw [encName_cons]; simp
    unfold dlabel
    have h0 : (pre ++ (encName (l :: ls) ++ rest))[k + o]? = some (UInt8.ofNat l.length) := by
      rw [← hp, encName_cons]; simp
    rw [h0]
    simp only at hf ⊢
    rw [if_pos ⟨by omega, hf.2.2.2.1, hf.1⟩, if_neg hf.2.2.2.2, if_neg hf.2.1, ofNat_len h1.2, e, ih, hx]
    congr 1
    omega

/-- `dlabel_length` looks at the contents of the string only. -/
theorem dlabelLoop_list {s : Js} (hs : Js.Ok s) (o : Nat) : ∀ (n k : Nat) (c : UInt8), k + o ≤ s.count →
    Js.rd s.buf (k + o) = .ok c →
    dlabelLoop s o n k c = match dlabel s.contents o n k with | some x => .ok x | none => .err
  | 0, _, _, _, _ => rfl
  | n + 1, k, c, hk, hc => by
    have hb := hs.block
    have hfit := hs.fits
    have hlen : s.contents.length = s.count := by
      unfold Js.contents; rw [List.length_take]; omega
    unfold dlabelLoop dlabel
    by_cases hin : k + o < s.count
    · have e : s.contents[k + o]? = some c := by
        unfold Js.contents
        rw [List.getElem?_take_of_lt hin]
        unfold Js.rd at hc
        split at hc
        · rename_i x hx; rw [hx]; injection hc with hc; rw [hc]
        · cases hc
      rw [e]
      simp only
      split
      · split
        · rw [hlen]; split <;> rfl
        · split
          · rfl
          · rename_i h1 h2 h3
            by_cases hle : k + c.toNat + 1 + o > s.count
            · rw [if_pos hle]
              unfold dlabel
              cases n with
              | zero => rfl
              | succ n =>
                simp only
                rw [List.getElem?_eq_none (by omega)]
            · rw [if_neg hle]
              obtain ⟨d, hd⟩ : ∃ d, Js.rd s.buf (k + c.toNat + 1 + o) = .ok d := by
                unfold Js.rd
                rw [List.getElem?_eq_getElem (by omega)]
                exact ⟨_, rfl⟩
              rw [hd, Dw.Res.ok_bind]
              exact dlabelLoop_list hs o n _ d (by omega) hd
      · rw [if_pos (by omega)]
    · have e : s.contents[k + o]? = none := List.getElem?_eq_none (by omega)
      rw [e]
      simp only
      split
      · split
        · rw [if_neg (by omega)]
        · split
          · rfl
          · rw [if_pos (by omega)]
      · rw [if_neg (by omega)]

theorem dlabelLength_list {s : Js} (hs : Js.Ok s) (o : Nat) (ho : o ≤ s.count) :
    dlabelLength s o = match dlabel s.contents o 256 0 with | some x => .ok x | none => .err := by
  unfold dlabelLength
  have hb := hs.block
  have hfit := hs.fits
  rw [if_neg (by simp [Js.sane]; omega), if_neg (by omega)]
  obtain ⟨d, hd⟩ : ∃ d, Js.rd s.buf o = .ok d := by
    unfold Js.rd
    rw [List.getElem?_eq_getElem (by omega)]
    exact ⟨_, rfl⟩
  rw [hd, Dw.Res.ok_bind]
  exact dlabelLoop_list hs o 256 0 d (by omega) (by rw [Nat.zero_add]; exact hd)

end Lookup
end Mara
