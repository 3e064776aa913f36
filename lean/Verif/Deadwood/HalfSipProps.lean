import Verif.Deadwood.HalfSipModel
import Verif.Deadwood.RgProps
import Verif.Spec.HalfSip
/-!
# The hash of block files is HalfSipHash-1-3
-/

namespace Dw
namespace HS
open Spec

/-- The same registers. -/
def toSpec (v : V) : HalfSip.V := ⟨v.v0, v.v1, v.v2, v.v3⟩

theorem rotl_eq (x : UInt32) (r : Nat) (h0 : 0 < r) (h : r < 32) :
    (x <<< UInt32.ofNat r) ||| (x >>> UInt32.ofNat (32 - r)) = HalfSip.rotl x r := by
  apply UInt32.eq_of_toBitVec_eq
  unfold HalfSip.rotl
  simp only [UInt32.toBitVec_or, UInt32.toBitVec_shiftRight, UInt32.toBitVec_shiftLeft,
    BitVec.rotateLeft, BitVec.rotateLeftAux, Nat.mod_eq_of_lt h]
  congr 1
  · rw [BitVec.shiftLeft_eq', BitVec.toNat_umod]
    simp; congr 1; omega
  · rw [BitVec.ushiftRight_eq', BitVec.toNat_umod]
    simp; congr 1; omega

theorem perm_spec (v : V) : toSpec (perm v) = HalfSip.round (toSpec v) := by
  unfold perm HalfSip.round toSpec
  simp only
  have r5 : ∀ x : UInt32, (x <<< 5) ||| (x >>> 27) = HalfSip.rotl x 5 := fun x => rotl_eq x 5 (by decide) (by decide)
  have r7 : ∀ x : UInt32, (x <<< 7) ||| (x >>> 25) = HalfSip.rotl x 7 := fun x => rotl_eq x 7 (by decide) (by decide)
  have r8 : ∀ x : UInt32, (x <<< 8) ||| (x >>> 24) = HalfSip.rotl x 8 := fun x => rotl_eq x 8 (by decide) (by decide)
  have r13 : ∀ x : UInt32, (x <<< 13) ||| (x >>> 19) = HalfSip.rotl x 13 :=
    fun x => rotl_eq x 13 (by decide) (by decide)
  have r16 : ∀ x : UInt32, (x <<< 16) ||| (x >>> 16) = HalfSip.rotl x 16 :=
    fun x => rotl_eq x 16 (by decide) (by decide)
  simp only [r5, r7, r8, r13, r16]

/-- Input of one word, as the code does it. -/
def feed (v : V) (m : UInt32) : V :=
  let w := perm { v with v3 := v.v3 ^^^ m }
  { w with v0 := w.v0 ^^^ m }

theorem feed_spec (v : V) (m : UInt32) : toSpec (feed v m) = HalfSip.word (toSpec v) m := by
  have h := perm_spec { v with v3 := v.v3 ^^^ m }
  unfold feed HalfSip.word
  unfold toSpec at h ⊢
  simp only at h ⊢
  rw [← h]

theorem le_word' (a b c d : UInt8) :
    ((0 : UInt32) ||| (UInt32.ofNat a.toNat <<< 0) ||| (UInt32.ofNat b.toNat <<< 8) |||
      (UInt32.ofNat c.toNat <<< 16) ||| (UInt32.ofNat d.toNat <<< 24)) = HalfSip.le a b c d := by
  rw [Rg.le_word]; rfl

/-- One byte inside a word. -/
theorem outer_byte {str : List UInt8} {l n o s : Nat} {m : UInt32} {v : V} {x : UInt8}
    (ho : o < l) (hx : str[o]? = some x) (hs : s < 24) :
    outer str l (n + 1) ⟨o, s, m, v⟩ =
      outer str l n ⟨o + 1, s + 8, m ||| (UInt32.ofNat x.toNat <<< UInt32.ofNat s), v⟩ := by
  rw [outer]
  simp only [show o ≤ l by omega, ho, hx, if_true, Res.ok_bind]
  unfold inner
  simp only [show ¬ (s + 8 ≥ 32 ∨ o = l) by omega, if_false]

/-- The last byte of a word. -/
theorem outer_byte4 {str : List UInt8} {l n o : Nat} {m : UInt32} {v : V} {x : UInt8}
    (ho : o < l) (hx : str[o]? = some x) :
    outer str l (n + 1) ⟨o, 24, m, v⟩ =
      outer str l n ⟨o + 1, 0, 0, feed v (m ||| (UInt32.ofNat x.toNat <<< 24))⟩ := by
  rw [outer]
  simp only [show o ≤ l by omega, ho, hx, if_true, Res.ok_bind]
  unfold inner pass
  simp only [show (24 + 8 ≥ 32 ∨ o = l) by omega, if_true, show ¬ (o = l ∧ 24 + 8 ≠ 32) by omega, if_false,
    show ¬ (0 ≥ 32 ∨ o = l) by omega]
  rfl

/-- The end of the message. -/
theorem outer_end {str : List UInt8} {l n s : Nat} {m : UInt32} {v : V} (hs : s < 32) :
    outer str l (n + 1) ⟨l, s, m, v⟩ = .ok (feed v (m ||| (UInt32.ofNat (l % 256) <<< 24))) := by
  rw [outer]
  simp only [Nat.le_refl, if_true, Nat.lt_irrefl, if_false, Res.ok_bind]
  unfold inner pass
  have hs' : s ≠ 32 := by omega
  simp only [or_true, if_true, hs', ne_eq, not_false_eq_true, and_self,
    show ¬ (0 ≥ 32 ∨ l + 1 = l) by omega, if_false]
  cases n with
  | zero => rfl
  | succ n =>
    rw [outer]
    simp only [show ¬ (l + 1 + 1 ≤ l) by omega, if_false]
    rfl

theorem drop_get {str : List UInt8} {o : Nat} {x : UInt8} {t : List UInt8} {l : Nat} (h : (str.take l).drop o = x :: t) :
    o < l ∧ str[o]? = some x ∧ (str.take l).drop (o + 1) = t := by
  have h1 : (str.take l)[o]? = some x := by
    rw [← List.head?_drop, h]; rfl
  have h2 : o < (str.take l).length := by
    have := List.getElem?_eq_some_iff.1 h1; exact this.1
  rw [List.length_take] at h2
  refine ⟨by omega, ?_, ?_⟩
  · rw [List.getElem?_take] at h1; simp only [show o < l by omega, if_true] at h1; exact h1
  · rw [← List.drop_drop, h]; rfl

theorem outer_exact (str : List UInt8) (l : Nat) (hl : l ≤ str.length) (o n : Nat) (v : V) (ho : o ≤ l)
    (hn : l + 2 ≤ n + o) :
    ∃ w, outer str l n ⟨o, 0, 0, v⟩ = .ok w ∧
      toSpec w = HalfSip.absorb (UInt8.ofNat l) (toSpec v) ((str.take l).drop o) := by
  induction hk : l - o using Nat.strongRecOn generalizing o n v with
  | _ k ih =>
    have hlen : ((str.take l).drop o).length = l - o := by
      rw [List.length_drop, List.length_take]; omega
    have hm : UInt32.ofNat (l % 256) = UInt32.ofNat (UInt8.ofNat l).toNat := by simp
    match hd : (str.take l).drop o with
    | [] =>
      have : o = l := by rw [hd] at hlen; simp at hlen; omega
      subst this
      obtain ⟨n, rfl⟩ : ∃ n', n = n' + 1 := ⟨n - 1, by omega⟩
      refine ⟨_, outer_end (by omega), ?_⟩
      rw [feed_spec, HalfSip.absorb, hm, ← le_word']
      simp
    | [a] =>
      have : l = o + 1 := by rw [hd] at hlen; simp at hlen; omega
      obtain ⟨n, rfl⟩ : ∃ n', n = n' + 2 := ⟨n - 2, by omega⟩
      obtain ⟨h1, h2, -⟩ := drop_get hd
      subst this
      refine ⟨_, (outer_byte h1 h2 (by omega)).trans (outer_end (by omega)), ?_⟩
      rw [feed_spec, HalfSip.absorb, hm, ← le_word']
      simp
    | [a, b] =>
      have : l = o + 2 := by rw [hd] at hlen; simp at hlen; omega
      obtain ⟨n, rfl⟩ : ∃ n', n = n' + 3 := ⟨n - 3, by omega⟩
      obtain ⟨h1, h2, hd⟩ := drop_get hd
      obtain ⟨h3, h4, hd⟩ := drop_get hd
      subst this
      refine ⟨_, (outer_byte h1 h2 (by omega)).trans ((outer_byte h3 h4 (by omega)).trans (outer_end (by omega))), ?_⟩
      rw [feed_spec, HalfSip.absorb, hm, ← le_word']
      simp
    | [a, b, c] =>
      have : l = o + 3 := by rw [hd] at hlen; simp at hlen; omega
      obtain ⟨n, rfl⟩ : ∃ n', n = n' + 4 := ⟨n - 4, by omega⟩
      obtain ⟨h1, h2, hd⟩ := drop_get hd
      obtain ⟨h3, h4, hd⟩ := drop_get hd
      obtain ⟨h5, h6, hd⟩ := drop_get hd
      subst this
      refine ⟨_, (outer_byte h1 h2 (by omega)).trans ((outer_byte h3 h4 (by omega)).trans
        ((outer_byte h5 h6 (by omega)).trans (outer_end (by omega)))), ?_⟩
      rw [feed_spec, HalfSip.absorb, hm, ← le_word']
      simp
    | a :: b :: c :: d :: t =>
      rw [hd] at hlen
      simp only [List.length_cons] at hlen
      obtain ⟨n, rfl⟩ : ∃ n', n = n' + 4 := ⟨n - 4, by omega⟩
      obtain ⟨h1, h2, hd⟩ := drop_get hd
      obtain ⟨h3, h4, hd⟩ := drop_get hd
      obtain ⟨h5, h6, hd⟩ := drop_get hd
      obtain ⟨h7, h8, hd⟩ := drop_get hd
      have e := (outer_byte (n := n + 3) (m := 0) (v := v) h1 h2 (show 0 < 24 by omega)).trans
        ((outer_byte (n := n + 2) h3 h4 (by omega)).trans
        ((outer_byte (n := n + 1) h5 h6 (by omega)).trans (outer_byte4 (n := n) h7 h8)))
      obtain ⟨w, hw1, hw2⟩ := ih (l - (o + 1 + 1 + 1 + 1)) (by omega) (o + 1 + 1 + 1 + 1) n
        (feed v (HalfSip.le a b c d)) (by omega) (by omega) rfl
      refine ⟨w, ?_, ?_⟩
      · rw [← hw1, e, ← le_word']; rfl
      · rw [hw2, hd, HalfSip.absorb, feed_spec]

/-- For every key and every string inside the buffer, the hash of the code is
HalfSipHash-1-3 and nothing outside the string is read. -/
theorem halfSip13_exact (str : List UInt8) (l : Nat) (k1 k2 : UInt32) (hl : l ≤ str.length) :
    halfSip13 str l k1 k2 = .ok (HalfSip.hash k1 k2 (str.take l)) := by
  obtain ⟨w, h1, h2⟩ := outer_exact str l hl 0 (l + 2) ⟨k1, k2, k1 ^^^ 0x6c796765, k2 ^^^ 0x74656462⟩
    (by omega) (by omega)
  rw [halfSip13, h1]
  simp only [Res.ok_bind]
  rw [HalfSip.hash, List.length_take, Nat.min_eq_left hl, show HalfSip.init k1 k2 =
    toSpec ⟨k1, k2, k1 ^^^ 0x6c796765, k2 ^^^ 0x74656462⟩ from rfl]
  rw [List.drop_zero] at h2
  rw [← h2, HalfSip.finish]
  rw [show ({ toSpec w with v2 := (toSpec w).v2 ^^^ 0xff } : HalfSip.V) = toSpec { w with v2 := w.v2 ^^^ 255 } from rfl,
    ← perm_spec, ← perm_spec, ← perm_spec]
  rfl

/-- Three bytes of five in the buffer. -/
example : ∃ x, halfSip13 [1, 2, 3, 4, 5] 3 7 8 = .ok x := ⟨_, halfSip13_exact _ _ _ _ (by decide)⟩

end HS
end Dw
