import Verif.Mara.FetchText
import Verif.Mara.BigHashLoad
import Verif.Mara.Csv2Names
/-!
# Names in fetchzone

How they are read, translated and printed.
-/

namespace Mara
namespace Fetch

open Spec (ascii Name encName dotted lower LabelsOk encName_cons dotted_cons)
open Spec.ZoneText
open Spec.Transfer (PlainName)

/-! ## Translation -/

/-- Text with another separator after the first label. -/
def sepd (sep : UInt8) : Name → List UInt8
  | [] => []
  | l :: ls => l ++ sep :: dotted ls

theorem sepd_dot : ∀ ls : Name, sepd 46 ls = dotted ls
  | [] => rfl
  | l :: ls => (dotted_cons l ls).symm

theorem len_byte {l : List UInt8} (h : 1 ≤ l.length ∧ l.length ≤ 63) : (UInt8.ofNat l.length).toNat = l.length ∧
    (UInt8.ofNat l.length > 0) ∧ ¬ (UInt8.ofNat l.length > 63) ∧ UInt8.ofNat l.length ≠ 0 ∧ UInt8.ofNat l.length ≠ 95 := by
  have h1 : (UInt8.ofNat l.length).toNat = l.length := by simp [UInt8.toNat_ofNat']; omega
  refine ⟨h1, ?_, ?_, ?_, ?_⟩
  · rw [gt_iff_lt, UInt8.lt_iff_toNat_lt, h1]; exact h.1
  · rw [gt_iff_lt, UInt8.lt_iff_toNat_lt, h1]; have := h.2; simp; omega
  · intro h0; rw [h0] at h1; simp at h1; omega
  · intro h0; rw [h0] at h1; simp at h1; omega

theorem encName_eq_cons (ls : Name) : ∃ c r, encName ls = c :: r := by
  cases ls with
  | nil => exact ⟨0, [], rfl⟩
  | cons l ls => exact ⟨_, _, encName_cons l ls⟩

theorem labels_lt (ls : Name) : ls.length < (encName ls).length := by
  induction ls with
  | nil => simp [encName]
  | cons l ls ih => rw [encName_cons]; simp only [List.length_append, List.length_cons]; omega

theorem trLoop_run (junk : UInt8) : ∀ (ls : Name) (n : Nat) (sep x c : UInt8) (pre r : List UInt8), LabelsOk ls → encName ls = c :: r →
    ls.length < n → pre.length + (encName ls).length ≤ 257 →
    trLoop junk n sep pre.length c (pre ++ x :: r) = some (pre ++ x :: sepd sep ls)
  | [], n + 1, sep, x, c, pre, r, _, he, _, _ => by
    cases he
    rw [trLoop, if_neg (by simp)]; rfl
  | l :: ls, n + 1, sep, x, c, pre, r, hl, he, hn, hs => by
    rw [encName_cons, List.cons_append] at he hs
    obtain ⟨rfl, rfl⟩ := List.cons.inj he
    have hb := len_byte hl.head
    obtain ⟨c', r', he'⟩ := encName_eq_cons ls
    simp only [List.length_append, List.length_cons] at hs
    have hp : 1 ≤ (encName ls).length := by rw [he']; simp
    have hk : (pre ++ x :: l).length = pre.length + (l.length + 1) := by simp
    rw [trLoop, if_pos ⟨by omega, hb.2.1⟩, if_neg hb.2.2.1]
    simp only [hb.1]
    rw [if_neg (by simp only [List.length_append, List.length_cons]; omega), he']
    rw [show pre ++ x :: (l ++ c' :: r') = (pre ++ x :: l) ++ c' :: r' by simp, ← hk]
    have e1 : ((pre ++ x :: l) ++ c' :: r').getD (pre ++ x :: l).length junk = c' := by
      rw [List.getD_eq_getElem?_getD, List.getElem?_append_right (by omega)]; simp
    have e2 : ((pre ++ x :: l) ++ c' :: r').set (pre ++ x :: l).length sep = (pre ++ x :: l) ++ sep :: r' := by
      rw [List.set_append_right _ _ (by omega)]; simp
    rw [e1, e2, trLoop_run junk ls n 46 sep c' _ r' hl.tail he' (by simp at hn; omega) (by rw [hk]; omega), sepd_dot, sepd]
    simp

theorem hname_run (junk first : UInt8) {ls : Name} (hl : LabelsOk ls) (hs : (encName ls).length ≤ 257) :
    hname junk first (encName ls) = some (first :: if ls = [] then [46] else dotted ls) := by
  cases ls with
  | nil => rfl
  | cons l ls =>
    have hc := Nat.lt_of_lt_of_le (labels_lt (l :: ls)) hs
    rw [if_neg (by simp), ← sepd_dot, encName_cons, List.cons_append, hname]
    · have := trLoop_run junk (l :: ls) 257 46 first _ [] _ hl (encName_cons l ls) hc (by simpa using hs)
      simpa using this
    · simp [encName]

theorem email_run (junk : UInt8) {ls : Name} (hl : LabelsOk ls) (hs : (encName ls).length ≤ 257) :
    email junk (encName ls) = some (124 :: sepd 64 ls) := by
  have hc := Nat.lt_of_lt_of_le (labels_lt ls) hs
  obtain ⟨c, r, he⟩ := encName_eq_cons ls
  have := trLoop_run junk ls 257 64 124 c [] r hl he hc (by simpa using hs)
  rw [he, email]
  simpa using this

/-! ## Reading -/

theorem nameLen_run : ∀ (ls : Name) (a rest : List UInt8) (off n k : Nat), LabelsOk ls → a.length = off + k → ls.length < n →
    k + (encName ls).length ≤ 256 → nameLen (a ++ (encName ls ++ rest)) off n k = some (k + (encName ls).length)
  | [], a, rest, off, n + 1, k, _, ha, _, hs => by
    have he : encName [] = [0] := rfl
    rw [he] at hs ⊢
    simp only [List.length_cons, List.length_nil] at hs
    rw [nameLen, if_neg (by omega), List.getElem?_append_right (by omega), show off + k - a.length = 0 by omega]
    simp
  | l :: ls, a, rest, off, n + 1, k, hl, ha, hn, hs => by
    have hb := len_byte hl.head
    rw [encName_cons] at hs ⊢
    simp only [List.length_append, List.length_cons] at hs
    have hp : 1 ≤ (encName ls).length := by
      obtain ⟨c', r', he'⟩ := encName_eq_cons ls
      rw [he']; simp
    rw [nameLen, if_neg (by omega), List.getElem?_append_right (by omega), show off + k - a.length = 0 by omega]
    simp only [List.cons_append, List.getElem?_cons_zero]
    rw [if_neg hb.2.2.1, if_neg hb.2.2.2.1, hb.1, if_pos ⟨by omega, by simp only [List.length_append, List.length_cons]; omega⟩]
    rw [show a ++ UInt8.ofNat l.length :: (l ++ encName ls ++ rest) = (a ++ UInt8.ofNat l.length :: l) ++ (encName ls ++ rest) by simp,
      nameLen_run ls _ rest off n _ hl.tail (by simp; omega) (by simp at hn; omega) (by omega)]
    simp only [List.length_append, List.length_cons]
    congr 1
    omega

theorem take_add {α} (l : List α) (a b : Nat) : l.take (a + b) = l.take a ++ (l.drop a).take b := by
  rw [List.take_add]

theorem nameLen_inv {l : List UInt8} {off : Nat} : ∀ (n k m : Nat), nameLen l off n k = some m →
    ∃ ls, LabelsOk ls ∧ m = k + (encName ls).length ∧ (l.drop (off + k)).take (encName ls).length = encName ls ∧ m ≤ 256 ∧ off + m ≤ l.length
  | 0, _, _, h => by cases h
  | n + 1, k, m, h => by
    rw [nameLen] at h
    split at h
    · cases h
    · rename_i hk
      split at h
      · cases h
      · rename_i c hc
        obtain ⟨hlt, hget⟩ := List.getElem?_eq_some_iff.1 hc
        have hdrop : l.drop (off + k) = c :: l.drop (off + k + 1) := by
          rw [List.drop_eq_getElem_cons hlt, hget]
        split at h
        · cases h
        · rename_i h63
          split at h
          · rename_i h0
            cases h
            subst h0
            refine ⟨[], fun _ h => (by cases h), rfl, ?_, by omega, by omega⟩
            rw [hdrop]; rfl
          · rename_i h0
            split at h
            · rename_i hc2
              obtain ⟨ls, h1, h2, h3, h4, h5⟩ := nameLen_inv n _ _ h
              have hlen : ((l.drop (off + k + 1)).take c.toNat).length = c.toNat := by
                rw [List.length_take, List.length_drop]; omega
              have hc63 : c.toNat ≤ 63 := by
                rw [gt_iff_lt, UInt8.lt_iff_toNat_lt] at h63; simp at h63; exact h63
              have hc0 : c.toNat ≠ 0 := fun e => h0 (by rw [← UInt8.ofNat_toNat (x := c), e]; rfl)
              refine ⟨(l.drop (off + k + 1)).take c.toNat :: ls, ?_, ?_, ?_, h4, h5⟩
              · intro x hx
                rcases List.mem_cons.1 hx with rfl | hx
                · omega
                · exact h1 x hx
              · rw [encName_cons, List.length_append, List.length_cons, hlen]; omega
              · rw [encName_cons, hlen, UInt8.ofNat_toNat, List.length_append, List.length_cons, hlen, hdrop, List.cons_append,
                  show c.toNat + 1 + (encName ls).length = (c.toNat + (encName ls).length) + 1 by omega, List.take_succ_cons, take_add,
                  List.drop_drop, show off + k + 1 + c.toNat = off + (k + (c.toNat + 1)) by omega, h3]
            · cases h

/-! ## Lower case -/

/-- All letters but the last one. -/
def foldLabels : Name → Name
  | [] => []
  | [l] => [l.dropLast.map lower ++ l.drop (l.length - 1)]
  | l :: ls => l.map lower :: foldLabels ls

theorem foldLabels_two (l l' : List UInt8) (ls : Name) : foldLabels (l :: l' :: ls) = l.map lower :: foldLabels (l' :: ls) := by
  rw [foldLabels]
  simp

theorem lower_len {n : Nat} (h : n ≤ 63) : lower (UInt8.ofNat n) = UInt8.ofNat n := by
  have h1 : (UInt8.ofNat n).toNat = n := by simp [UInt8.toNat_ofNat']; omega
  unfold lower
  rw [if_neg (by omega)]

theorem foldCase_cons (c : UInt8) (l : List UInt8) (h : 2 ≤ l.length) : foldCase (c :: l) = lower c :: foldCase l := by
  unfold foldCase
  rw [List.length_cons, show l.length + 1 - 2 = (l.length - 2) + 1 by omega, List.take_succ_cons, List.drop_succ_cons]
  rfl

theorem foldCase_append (a l : List UInt8) (h : 2 ≤ l.length) : foldCase (a ++ l) = a.map lower ++ foldCase l := by
  induction a with
  | nil => rfl
  | cons c a ih => rw [List.cons_append, foldCase_cons _ _ (by simp; omega), ih]; rfl

theorem foldLabels_ok : ∀ {ls : Name}, LabelsOk ls → LabelsOk (foldLabels ls) ∧ foldCase (encName ls) = encName (foldLabels ls) ∧
    (encName (foldLabels ls)).length = (encName ls).length
  | [], _ => ⟨fun _ h => (by cases h), rfl, rfl⟩
  | [l], h => by
    have hl := h.head
    have hlen : (l.dropLast.map lower ++ l.drop (l.length - 1)).length = l.length := by simp
    have e : encName [l] = (UInt8.ofNat l.length :: l.dropLast) ++ (l.drop (l.length - 1) ++ [0]) := by
      rw [encName_cons, List.cons_append, List.cons_append, ← List.append_assoc]
      congr 2
      rw [List.dropLast_eq_take, List.take_append_drop]
    have h2 : (l.drop (l.length - 1)).length = 1 := by simp; omega
    refine ⟨?_, ?_, ?_⟩
    · intro x hx
      rw [foldLabels, List.mem_singleton] at hx
      subst hx
      omega
    · rw [e, foldCase_append _ _ (by simp; omega), foldLabels, encName_cons, hlen]
      have : foldCase (l.drop (l.length - 1) ++ [0]) = l.drop (l.length - 1) ++ [0] := by
        unfold foldCase
        rw [List.length_append, h2]
        simp
      rw [this, List.map_cons, lower_len hl.2]
      simp [encName, Spec.encLabels]
    · rw [foldLabels, encName_cons, encName_cons]
      simp only [List.cons_append, List.length_append, List.length_cons] at hlen ⊢
      omega
  | l :: l' :: ls, h => by
    obtain ⟨h1, h2, h3⟩ := foldLabels_ok h.tail
    have hl := h.head
    have h4 : 2 ≤ (encName (l' :: ls)).length := by
      rw [encName_cons]; simp only [List.length_append, List.length_cons]
      have := h.tail.head
      omega
    refine ⟨?_, ?_, ?_⟩
    · intro x hx
      rw [foldLabels_two] at hx
      rcases List.mem_cons.1 hx with rfl | hx
      · rw [List.length_map]; exact hl
      · exact h1 x hx
    · rw [encName_cons, foldCase_append _ _ h4, h2, foldLabels_two, encName_cons, List.length_map, List.map_cons, lower_len hl.2]
    · rw [foldLabels_two, encName_cons, encName_cons, List.length_append, List.length_append, h3]
      simp

theorem lower_same {c : UInt8} (h : ¬ (65 ≤ c ∧ c ≤ 90)) : lower c = c := by
  unfold lower
  rw [if_neg]
  intro h'
  exact h ⟨UInt8.le_iff_toNat_le.2 h'.1, UInt8.le_iff_toNat_le.2 h'.2⟩

theorem map_lower_same {l : List UInt8} (h : ∀ c ∈ l, ¬ (65 ≤ c ∧ c ≤ 90)) : l.map lower = l := by
  induction l with
  | nil => rfl
  | cons c l ih => rw [List.map_cons, lower_same (h c (by simp)), ih fun x hx => h x (by simp [hx])]

theorem foldLabels_same : ∀ {ls : Name}, (∀ l ∈ ls, ∀ c ∈ l, ¬ (65 ≤ c ∧ c ≤ 90)) → foldLabels ls = ls
  | [], _ => rfl
  | [l], h => by
    rw [foldLabels, map_lower_same fun c hc => h l (by simp) c (List.dropLast_subset _ hc), List.dropLast_eq_take, List.take_append_drop]
  | l :: l' :: ls, h => by
    rw [foldLabels_two, map_lower_same (h l (by simp)), foldLabels_same fun x hx => h x (List.mem_cons_of_mem _ hx)]

/-! ## Names in the zone -/

theorem bobbit_label {l : List UInt8} {ls : Name} (h : 1 ≤ l.length ∧ l.length ≤ 63) : bobbit (encName (l :: ls)) = encName ls := by
  have hb := len_byte h
  rw [encName_cons, List.cons_append, bobbit]
  rw [if_neg hb.2.2.2.2, if_neg, if_neg hb.2.2.2.1, hb.1, List.drop_succ_cons, List.drop_left]
  rintro (h' | h')
  · rw [hb.1] at h'
    simp only [List.length_cons, List.length_append] at h'
    omega
  · exact hb.2.2.1 h'

theorem enc_inj {a b : Name} (ha : LabelsOk a) (hb : LabelsOk b) (h : encName a = encName b) : a = b := by
  have := Big.encName_inj (r := []) (s := []) ha hb (by rw [h])
  exact this.1

theorem enc_suffix {z ls : Name} (h : z <:+ ls) : (encName z).length ≤ (encName ls).length ∧ (z ≠ ls → (encName z).length < (encName ls).length) := by
  obtain ⟨p, rfl⟩ := h
  have : encName (p ++ z) = Spec.encLabels p ++ encName z := by simp [encName, Spec.encLabels_append]
  rw [this, List.length_append]
  refine ⟨by omega, fun hne => ?_⟩
  cases p with
  | nil => exact absurd rfl hne
  | cons l p => rw [Spec.encLabels_cons]; simp only [List.length_append, List.length_cons]; omega

theorem inZone_iff {z : Name} (hz : LabelsOk z) : ∀ {ls : Name} (n : Nat), LabelsOk ls → ls.length < n →
    (inZone (encName z) n (encName ls) = true ↔ z <:+ ls)
  | ls, 0, _, h => by omega
  | [], n + 1, hl, hn => by
    rw [inZone]
    by_cases h : encName [] = encName z
    · rw [if_pos h]
      have := enc_inj hl hz h
      subst this
      simp
    · rw [if_neg h, if_neg]
      · constructor
        · intro h'; cases h'
        · intro h'
          rw [List.suffix_nil] at h'
          subst h'
          exact absurd rfl h
      · obtain ⟨c, r, he⟩ := encName_eq_cons z
        rw [he]
        simp [encName, Spec.encLabels]
  | l :: ls, n + 1, hl, hn => by
    rw [inZone]
    by_cases h : encName (l :: ls) = encName z
    · rw [if_pos h]
      have := enc_inj hl hz h
      subst this
      simp
    · have hne : z ≠ l :: ls := fun e => h (by rw [e])
      rw [if_neg h]
      by_cases hlen : (encName (l :: ls)).length > (encName z).length
      · rw [if_pos hlen, bobbit_label hl.head, inZone_iff hz n hl.tail (by simp at hn; omega), List.suffix_cons_iff]
        simp [hne]
      · rw [if_neg hlen]
        constructor
        · intro h'; cases h'
        · intro h'
          exact absurd ((enc_suffix h').2 hne) hlen

/-! ## Printing -/

theorem plain_safe_facts : ∀ n : Fin 256, (isPlain (UInt8.ofNat n) = true ∨ UInt8.ofNat n = 46 ∨ UInt8.ofNat n = 64) → isSafe (UInt8.ofNat n) = true ∧
    UInt8.ofNat n ≠ 32 ∧ UInt8.ofNat n ≠ 42 := by decide +kernel

theorem plain_safe {c : UInt8} (h : isPlain c = true ∨ c = 46 ∨ c = 64) : isSafe c = true ∧ c ≠ 32 ∧ c ≠ 42 := by
  have := plain_safe_facts ⟨c.toNat, c.toNat_lt⟩
  simp only [UInt8.ofNat_toNat] at this
  exact this h

theorem safeChars {l : List UInt8} (h : ∀ c ∈ l, isPlain c = true ∨ c = 46 ∨ c = 64) : l.flatMap safeChar = l := by
  induction l with
  | nil => rfl
  | cons c l ih =>
    rw [List.flatMap_cons, ih fun x hx => h x (by simp [hx]), safeChar, if_pos (plain_safe (h c (by simp))).1]
    rfl

theorem safeEsc_plain {l : List UInt8} (h : ∀ c ∈ l, isPlain c = true ∨ c = 46 ∨ c = 64) : safeEsc l = l := by
  cases l with
  | nil => rfl
  | cons c l =>
    have := plain_safe (h c (by simp))
    rw [safeEsc, if_neg this.2.1, if_neg (fun h' => this.2.2 h'.1), safeChar, if_pos this.1, safeChars fun x hx => h x (by simp [hx])]
    rfl

theorem safeEsc_space {l : List UInt8} (h : ∀ c ∈ l, isPlain c = true ∨ c = 46 ∨ c = 64) : safeEsc (32 :: l) = 32 :: l := by
  rw [safeEsc, if_pos rfl, safeChars h]
  rfl

theorem dotted_plain {n : Name} (h : ∀ l ∈ n, ∀ c ∈ l, isPlain c = true) : ∀ c ∈ dotted n, isPlain c = true ∨ c = 46 ∨ c = 64 := by
  intro c hc
  obtain ⟨l, hl, hc⟩ := List.mem_flatMap.1 hc
  rcases List.mem_append.1 hc with hc | hc
  · exact .inl (h l hl c hc)
  · exact .inr (.inl (List.mem_singleton.1 hc))

theorem safeEsc_star {n : Name} (h : PlainName n) : safeEsc (dotted ([42] :: n)) = 42 :: 46 :: dotted n := by
  have hp := dotted_plain fun l hl => (h.2 l hl).2.2
  rw [dotted_cons, List.cons_append, List.nil_append, safeEsc, if_neg (by decide), if_pos]
  · rw [List.flatMap_cons, safeChars hp]; rfl
  · refine ⟨rfl, ?_, rfl⟩
    match n, h with
    | l :: n, h => rw [dotted_cons]; simp; omega

end Fetch
end Mara
