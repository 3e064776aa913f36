import Verif.Deadwood.SynthReplyModel
import Verif.Deadwood.HeaderProps
import Verif.Deadwood.Name2Props
import Verif.Spec.Refusal
import Mathlib.Tactic.SplitIfs
/-!
# Lemmas: made-up answers
-/

namespace Dw
namespace SR
open Acl (rd wr) 
open Spec

theorem rd_ok {a : List UInt8} {i : Nat} (h : i < a.length) : rd a i = .ok a[i] := by
  simp [rd, h]

theorem wrC_next (p : List UInt8) (x : Option UInt8) (t : Cells) (v : UInt8) {i : Nat} (hi : i = p.length) :
    wrC (p.map some ++ x :: t) i v = .ok ((p ++ [v]).map some ++ t) := by
  subst hi
  rw [wrC, if_pos (by simp)]
  simp

theorem copyN_exact (a : List UInt8) (d n i : Nat) (p : List UInt8) (t : Cells) (hp : p.length = d + i)
    (ha : i + n ≤ a.length) (ht : n ≤ t.length) :
    copyN a d n i (p.map some ++ t) = .ok ((p ++ (a.drop i).take n).map some ++ t.drop n) := by
  induction n generalizing i p t with
  | zero => simp [copyN]
  | succ n ih =>
    match t, ht with
    | x :: t, ht =>
      rw [copyN, rd_ok (by omega)]
      simp only [Res.ok_bind]
      rw [wrC_next _ _ _ _ hp.symm]
      simp only [Res.ok_bind]
      rw [ih (i + 1) (p ++ [a[i]]) t (by simp; omega) (by omega) (by simpa using ht)]
      have e : (a.drop i).take (n + 1) = a[i] :: (a.drop (i + 1)).take n := by
        rw [List.drop_eq_getElem_cons (by omega : i < a.length), List.take_succ_cons]
      rw [e, List.drop_succ_cons]
      simp only [List.append_assoc, List.cons_append, List.nil_append]

/-- The first zero byte of `a` from `i` on. -/
def FirstZero (a : List UInt8) (i k : Nat) : Prop := i ≤ k ∧ a[k]? = some 0 ∧ ∀ j, i ≤ j → j < k → a[j]? ≠ some 0

theorem FirstZero.unique {a : List UInt8} {i k l : Nat} (h : FirstZero a i k) (h' : FirstZero a i l) : k = l := by
  rcases Nat.lt_trichotomy k l with g | g | g
  · exact absurd h.2.1 (h'.2.2 k h.1 g)
  · exact g
  · exact absurd h'.2.1 (h.2.2 l h'.1 g)

/-- The loop stops at the first zero byte, or at the end. -/
theorem copyName_exact (a : List UInt8) (count n i : Nat) (t : Cells) (hc : count ≤ a.length) (hi : i ≤ count)
    (hn : 520 ≤ i + n) (ht : count ≤ i + t.length) :
    ∃ k, copyName a count n i ((a.take i).map some ++ t) = .ok ((a.take k).map some ++ t.drop (k - i), k) ∧
      i ≤ k ∧ k ≤ count ∧ (∀ j, i ≤ j → j < k → a[j]? ≠ some 0) ∧ (k < count → k < 520 → a[k]? = some 0) := by
  induction n generalizing i t with
  | zero =>
    exact ⟨i, by simp [copyName], Nat.le_refl _, hi, by omega, by omega⟩
  | succ n ih =>
    rw [copyName]
    by_cases h : i < 520 ∧ i < count
    · rw [if_pos h, rd_ok (by omega)]
      simp only [Res.ok_bind]
      by_cases h0 : a[i] = 0
      · rw [if_pos h0]
        exact ⟨i, by simp, Nat.le_refl _, hi, by omega, fun _ _ => by
          rw [List.getElem?_eq_getElem (by omega), h0]⟩
      · rw [if_neg h0]
        match t, ht with
        | [], ht => simp at ht; omega
        | x :: t, ht =>
          rw [wrC_next _ _ _ _ (by simp; omega)]
          simp only [Res.ok_bind]
          have e : a.take i ++ [a[i]] = a.take (i + 1) := by
            rw [List.take_append_getElem]
          rw [e]
          obtain ⟨k, h1, h2, h3, h4, h5⟩ := ih (i + 1) t (by omega) (by omega) (by simp at ht; omega)
          refine ⟨k, ?_, by omega, h3, fun j hj hk => ?_, h5⟩
          · rw [h1]
            have : k - i = (k - (i + 1)) + 1 := by omega
            rw [this, List.drop_succ_cons]
          · rcases Nat.lt_or_ge i j with g | g
            · exact h4 j g hk
            · have : j = i := by omega
              subst this
              rw [List.getElem?_eq_getElem (by omega)]
              simpa using h0
    · rw [if_neg h]
      exact ⟨i, by simp, Nat.le_refl _, hi, by omega, by omega⟩

/-- The block that is built, for every packet. -/
theorem makeSynth_cases (a : List UInt8) (count : Nat) (synth : List UInt8) (hc : count ≤ a.length) (h12 : 12 ≤ count) :
    (makeSynth a count false synth = .err ∧ ¬ ∃ k, FirstZero a 12 k ∧ k + 5 ≤ count ∧ k ≤ 512) ∨
    (∃ k, FirstZero a 12 k ∧ k + 5 ≤ count ∧ k ≤ 512 ∧
      makeSynth a count false synth =
        .ok ((a.take (k + 5) ++ synth).map some ++ List.replicate (count - (k + 5) + 3) none, k + 5)) := by
  have hm : min 12 count = 12 := by omega
  have e0 : copyN a 0 12 0 (List.replicate (count + synth.length + 3) (none : Option UInt8)) =
      .ok ((a.take 12).map some ++ (List.replicate (count + synth.length + 3) (none : Option UInt8)).drop 12) := by
    have := copyN_exact a 0 12 0 [] (List.replicate (count + synth.length + 3) none) rfl (by omega) (by simp; omega)
    simpa using this
  obtain ⟨k, h1, h2, h3, h4, h5⟩ := copyName_exact a count 520 12
    ((List.replicate (count + synth.length + 3) (none : Option UInt8)).drop 12) hc h12 (by omega) (by simp; omega)
  unfold makeSynth
  simp only [Bool.false_eq_true, if_false, hm]
  rw [e0]
  simp only [Res.ok_bind]
  rw [h1]
  simp only [Res.ok_bind]
  by_cases hb : count < k + 5 ∨ k > 512
  · rw [if_pos hb]
    refine Or.inl ⟨rfl, ?_⟩
    rintro ⟨l, g1, g2, g3⟩
    rcases Nat.lt_or_ge l k with g | g
    · exact h4 l g1.1 g g1.2.1
    · rcases Nat.lt_or_ge k l with g' | g'
      · exact g1.2.2 k h2 g' (h5 (by omega) (by omega))
      · omega
  · rw [if_neg hb]
    refine Or.inr ⟨k, ⟨h2, h5 (by omega) (by omega), h4⟩, by omega, by omega, ?_⟩
    rw [List.drop_drop, List.drop_replicate]
    rw [copyN_exact a 0 5 k (a.take k) _ (by simp; omega) (by omega) (by simp; omega)]
    simp only [Res.ok_bind]
    rw [← List.take_add]
    rw [copyN_exact synth (k + 5) synth.length 0 (a.take (k + 5)) _ (by simp; omega) (by omega) (by simp; omega)]
    simp only [Res.ok_bind, List.drop_zero, List.take_length, List.drop_replicate]
    congr 4
    omega

/-- Set the bytes that make an answer of a packet. -/
theorem finish_exact (h : Header) (p : List UInt8) (t : Cells) :
    finish ((h.enc ++ p).map some ++ t) true = .ok ((h.refusal.enc ++ p).map some ++ t) := by
  have f : ∀ (qr : Bool) (op : Fin 16) (aa tc rd : Bool), flags1 qr op aa tc rd ||| 0x80 = flags1 true op aa tc rd := by
    decide +kernel
  have g : ∀ (ra z ad cd : Bool) (rc : Fin 16), flags2 ra z ad cd rc ||| 0x80 = flags2 true z ad cd rc := by
    decide +kernel
  simp [finish, Header.enc, Header.refusal, Header.oneAuthority, word, rdC, wrC, f, g]

theorem finish_exact' (h : Header) (p : List UInt8) (t : Cells) :
    finish ((h.enc ++ p).map some ++ t) false = .ok ((h.oneAuthority.enc ++ p).map some ++ t) := by
  have f : ∀ (qr : Bool) (op : Fin 16) (aa tc rd : Bool), flags1 qr op aa tc rd ||| 0x80 = flags1 true op aa tc rd := by
    decide +kernel
  simp [finish, Header.enc, Header.oneAuthority, word, rdC, wrC, f]

theorem enc_length (h : Header) : h.enc.length = 12 := by simp [Header.enc, word]

theorem ofLen_ne {n : Nat} (h1 : 1 ≤ n) (h2 : n ≤ 63) : UInt8.ofNat n ≠ 0 := by
  intro h
  have := congrArg UInt8.toNat h
  rw [UInt8.toNat_ofNat', UInt8.toNat_zero] at this
  omega

theorem encLabels_nonzero {ls : List (List UInt8)} (hok : LabelsOk ls) (hc : NoCtl ls) : ∀ x ∈ encLabels ls, x ≠ 0 := by
  intro x hx
  simp only [encLabels, List.mem_flatMap, List.mem_cons] at hx
  obtain ⟨l, hl, h | h⟩ := hx
  · rw [h]; exact ofLen_ne (hok l hl).1 (hok l hl).2
  · have := hc l hl x h
    intro h0
    subst h0
    exact absurd this (by decide)

/-- Where the name of the question ends. -/
theorem firstZero_name (h : Header) {ls : List (List UInt8)} (hok : LabelsOk ls) (hc : NoCtl ls) (rest : List UInt8) :
    FirstZero (h.enc ++ (encName ls ++ rest)) 12 (12 + (encLabels ls).length) := by
  have hl := enc_length h
  refine ⟨by omega, ?_, fun j h1 h2 => ?_⟩
  · rw [List.getElem?_append_right (by omega), encName, hl]
    simp
  · rw [List.getElem?_append_right (by omega), encName, List.append_assoc, List.getElem?_append_left (by omega)]
    intro h3
    exact encLabels_nonzero hok hc 0 (List.mem_of_getElem? h3) rfl

theorem notThere_soa : notThere = soaNone := by decide +kernel

end SR
end Dw
