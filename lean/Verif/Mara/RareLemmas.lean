import Verif.Mara.RareModel
import Verif.Mara.Csv2Fields
import Verif.Spec.Rare

/-!
# Lemmas: NSAP and LOC records
-/

namespace Mara
namespace Csv2

open Dw (Res)
open Spec.ZoneText Spec.Rare

/-- A byte that can be read as a character. -/
def Rd (c : UInt8) : Prop := c ≠ 123 ∧ c ≠ 126 ∧ c.toNat < 128

theorem read_rd {s : Stream} (h : Plain s) (j c : UInt8) (r : List UInt8) (hc : Rd c) :
    readUnicode (s.here j (c :: r)) = .ok (some (c.toNat : Int), s.here c r) :=
  readUnicode_here h j c r hc.1 hc.2.1 hc.2.2

theorem rd_digit {c : UInt8} (h : isDigit c = true) : Rd c := by
  have key : ∀ n : Fin 256, isDigit (UInt8.ofNat n) = true → UInt8.ofNat n ≠ 123 ∧ UInt8.ofNat n ≠ 126 ∧
      (UInt8.ofNat n).toNat < 128 := by decide +kernel
  have := key ⟨c.toNat, c.toNat_lt⟩
  simp only [UInt8.ofNat_toNat] at this
  exact this h

theorem digit_sub {c : UInt8} (h : isDigit c = true) : (c.toNat : Int) - 48 = ((c.toNat - 48 : Nat) : Int) := by
  have h1 := (digit_facts c h).2.2.2.2.1
  have : 48 ≤ c.toNat := h1
  omega

theorem value_fold (l : List UInt8) : ∀ v, l.foldl (fun v c => v * 10 + (c.toNat - 48)) v = v * 10 ^ l.length + value l := by
  induction l with
  | nil => intro v; simp [value]
  | cons c l ih =>
    intro v
    have e : value (c :: l) = (c.toNat - 48) * 10 ^ l.length + value l := by
      rw [value, List.foldl_cons, ih]; simp
    rw [List.foldl_cons, ih, e, List.length_cons, Nat.pow_succ, Nat.add_mul, Nat.mul_assoc, Nat.mul_comm 10]
    omega

theorem value_cons (c : UInt8) (l : List UInt8) : value (c :: l) = (c.toNat - 48) * 10 ^ l.length + value l := by
  rw [value, List.foldl_cons, value_fold]; simp

theorem int32_ok {x : Int} (h : -2147483648 ≤ x ∧ x ≤ 2147483647) {s : Stream} : int32 x s = .ok (some x, s) := by
  rw [int32, if_neg (by omega)]; rfl

/-- A byte at which a number ends. -/
structure Stop (e : UInt8) : Prop where
  rd : Rd e
  num : isNumber e.toNat = false
  dot : e ≠ 46

theorem fracLoop_run {s : Stream} (h : Plain s) (e : UInt8) (he : Stop e) (r : List UInt8) :
    ∀ (f : List UInt8) (k : Nat) (d : Int) (c : UInt8) (t : List UInt8), f ++ e :: r = c :: t →
      (∀ x ∈ f, isDigit x = true) → f.length ≤ k →
      fracLoop k c.toNat d (s.here c t) = .ok (some (d + (value f * 10 ^ (k - f.length) : Nat)), s.here e r)
  | [], k, d, c, t, heq, _, _ => by
    simp only [List.nil_append, List.cons.injEq] at heq
    obtain ⟨rfl, rfl⟩ := heq
    have e0 : d + (value [] * 10 ^ (k - ([] : List UInt8).length) : Nat) = d := by simp [value]
    rw [e0]
    cases k with
    | zero => rfl
    | succ k => rw [fracLoop, he.num]; rfl
  | x :: f, 0, _, _, _, _, _, hl => by simp at hl
  | x :: f, k + 1, d, c, t, heq, hd, hl => by
    simp only [List.cons_append, List.cons.injEq] at heq
    obtain ⟨rfl, rfl⟩ := heq
    have hx := hd x (by simp)
    obtain ⟨c2, t2, e2, hr2⟩ : ∃ c2 t2, f ++ e :: r = c2 :: t2 ∧ Rd c2 := by
      cases f with
      | nil => exact ⟨e, r, rfl, he.rd⟩
      | cons y f => exact ⟨y, f ++ e :: r, rfl, rd_digit (hd y (by simp))⟩
    have ih := fracLoop_run h e he r f k (d + ((x.toNat : Int) - 48) * (10 ^ k : Nat)) c2 t2 e2
      (fun y hy => hd y (by simp [hy])) (by simp at hl; omega)
    rw [fracLoop, if_pos (digit_facts x hx).1, e2, bind_ok (read_rd h x c2 t2 hr2), ih]
    congr 3
    simp only [List.length_cons] at hl
    have e3 : k + 1 - (x :: f).length = k - f.length := by simp
    have e4 : 10 ^ f.length * 10 ^ (k - f.length) = 10 ^ k := by
      rw [← Nat.pow_add]; congr 1; omega
    rw [e3, value_cons, digit_sub hx, Nat.add_mul, Nat.mul_assoc, e4]
    push_cast
    omega

theorem intLoop_digits {s : Stream} (h : Plain s) (m : Nat) (sign : Int) (c' : UInt8) (t' : List UInt8) (hc' : Rd c') :
    ∀ (l : List UInt8) (n : Nat) (out : Nat) (c : UInt8) (t : List UInt8), l ++ c' :: t' = c :: t →
      (∀ x ∈ l, isDigit x = true) → l.foldl (fun v c => v * 10 + (c.toNat - 48)) out ≤ 2147483647 →
      intLoop m sign (n + l.length) c.toNat out (s.here c t) =
        intLoop m sign n c'.toNat (l.foldl (fun v c => v * 10 + (c.toNat - 48)) out : Nat) (s.here c' t')
  | [], n, out, c, t, heq, _, _ => by
    simp only [List.nil_append, List.cons.injEq] at heq
    obtain ⟨rfl, rfl⟩ := heq
    rfl
  | x :: l, n, out, c, t, heq, hd, hs => by
    simp only [List.cons_append, List.cons.injEq] at heq
    obtain ⟨rfl, rfl⟩ := heq
    have hx := hd x (by simp)
    obtain ⟨c2, t2, e2, hr2⟩ : ∃ c2 t2, l ++ c' :: t' = c2 :: t2 ∧ Rd c2 := by
      cases l with
      | nil => exact ⟨c', t', rfl, hc'⟩
      | cons y l => exact ⟨y, l ++ c' :: t', rfl, rd_digit (hd y (by simp))⟩
    simp only [List.foldl_cons] at hs ⊢
    have ih := intLoop_digits h m sign c' t' hc' l n (out * 10 + (x.toNat - 48)) c2 t2 e2
      (fun y hy => hd y (by simp [hy])) hs
    have hb := value_ge l (out * 10 + (x.toNat - 48))
    have e3 : (out : Int) * 10 + ((x.toNat : Int) - 48) = ((out * 10 + (x.toNat - 48) : Nat) : Int) := by
      rw [digit_sub hx]; push_cast; omega
    rw [List.length_cons, ← Nat.add_assoc, intLoop, if_pos (digit_facts x hx).1, e3,
      bind_ok (int32_ok (by omega)), e2, bind_ok (read_rd h x c2 t2 hr2), ih]

/-- A number after its sign. -/
theorem dec_run {s : Stream} (h : Plain s) (m : Nat) (sign : Int) (d : Dec) (hd : d.Ok m) (e : UInt8)
    (he : Stop e) (r : List UInt8) (c : UInt8) (t : List UInt8) (heq : d.text ++ e :: r = c :: t) :
    intLoop m sign 100 c.toNat 0 (s.here c t) = .ok (some ((d.scaled m : Nat) * sign), s.here e r) := by
  have hsmall := hd.small
  have hlen := hd.short
  have hpow : 0 < 10 ^ m := Nat.pow_pos (by omega)
  have hv : value d.whole * 10 ^ m ≤ 2147483647 := by
    unfold Dec.scaled at hsmall; omega
  have hv1 : value d.whole ≤ 2147483647 := by
    calc value d.whole = value d.whole * 1 := by omega
      _ ≤ value d.whole * 10 ^ m := Nat.mul_le_mul_left _ hpow
      _ ≤ _ := hv
  obtain ⟨n, hn⟩ : ∃ n, 100 = (n + 1) + d.whole.length := ⟨99 - d.whole.length, by omega⟩
  cases hf : d.frac with
  | none =>
    have e1 : d.whole ++ e :: r = c :: t := by simpa [Dec.text, hf] using heq
    have e2 : d.scaled m = value d.whole * 10 ^ m := by simp [Dec.scaled, hf]
    rw [hn]
    have := intLoop_digits h m sign e r he.rd d.whole (n + 1) 0 c t e1 hd.digits hv1
    rw [show ((0 : Nat) : Int) = 0 from rfl] at this
    rw [this, intLoop, he.num, if_neg (by decide), if_neg (show ¬ ((e.toNat : Int) = 46) from toNat_ne he.dot)]
    have e3 : ((value d.whole : Nat) : Int) * (10 ^ m : Nat) = ((value d.whole * 10 ^ m : Nat) : Int) := by
      push_cast; rfl
    show (int32 ((value d.whole : Nat) * (10 ^ m : Nat)) >>= fun r => pure (r * sign)) (s.here e r) = _
    rw [e3, bind_ok (int32_ok (by omega)), e2]
    rfl
  | some f =>
    have e1 : d.whole ++ 46 :: (f ++ e :: r) = c :: t := by simpa [Dec.text, hf] using heq
    have e2 : d.scaled m = value d.whole * 10 ^ m + value f * 10 ^ (m - f.length) := by simp [Dec.scaled, hf]
    have hfd := hd.fdigits f hf
    obtain ⟨c2, t2, e4, hr2⟩ : ∃ c2 t2, f ++ e :: r = c2 :: t2 ∧ Rd c2 := by
      cases f with
      | nil => exact ⟨e, r, rfl, he.rd⟩
      | cons y f => exact ⟨y, f ++ e :: r, rfl, rd_digit (hfd y (by simp))⟩
    rw [hn]
    have := intLoop_digits h m sign 46 (f ++ e :: r) (by unfold Rd; decide) d.whole (n + 1) 0 c t e1 hd.digits hv1
    rw [show ((0 : Nat) : Int) = 0 from rfl] at this
    rw [this, intLoop, if_neg (by decide), if_pos (by decide)]
    have e3 : ((value d.whole : Nat) : Int) * (10 ^ m : Nat) = ((value d.whole * 10 ^ m : Nat) : Int) := by
      push_cast; rfl
    show (int32 ((value d.whole : Nat) * (10 ^ m : Nat)) >>= _) (s.here 46 (f ++ e :: r)) = _
    rw [e3, bind_ok (int32_ok (by omega)), e4, bind_ok (read_rd h 46 c2 t2 hr2),
      bind_ok (fracLoop_run h e he r f m 0 c2 t2 e4 hfd (hd.fshort f hf)),
      bind_ok (int32_ok (by omega)), pure_run, e2]
    congr 4
    push_cast
    omega

/-- A number without sign. -/
theorem getInt_run {s : Stream} (h : Plain s) (m : Nat) (d : Dec) (hd : d.Ok m) (e : UInt8)
    (he : Stop e) (r : List UInt8) (c : UInt8) (t : List UInt8) (heq : d.text ++ e :: r = c :: t) :
    getInt m (s.here c t) = .ok (some (d.scaled m : Nat), s.here e r) := by
  obtain ⟨x, w, hw⟩ := List.exists_cons_of_ne_nil hd.some
  have hx := hd.digits x (by simp [hw])
  have hcx : c = x := by
    rw [Dec.text, hw] at heq
    simp only [List.cons_append, List.cons.injEq] at heq
    exact heq.1.symm
  subst hcx
  have h45 : c ≠ 45 := by rintro rfl; exact absurd hx (by decide)
  rw [getInt, bind_get, just_here h, if_neg (show ¬ ((c.toNat : Int) = 45) from toNat_ne h45), dec_run h m 1 d hd e he r c t heq]
  simp

theorem getInt_neg {s : Stream} (h : Plain s) (m : Nat) (d : Dec) (hd : d.Ok m) (e : UInt8)
    (he : Stop e) (r : List UInt8) :
    getInt m (s.here 45 (d.text ++ e :: r)) = .ok (some (-(d.scaled m : Nat)), s.here e r) := by
  obtain ⟨x, w, hw⟩ := List.exists_cons_of_ne_nil hd.some
  have hx := hd.digits x (by simp [hw])
  obtain ⟨t, ht⟩ : ∃ t, d.text ++ e :: r = x :: t := by
    rw [Dec.text, hw]; exact ⟨_, rfl⟩
  rw [ht, getInt, bind_get, just_here h, if_pos (by decide), bind_ok (read_rd h 45 x t (rd_digit hx)),
    dec_run h m (-1) d hd e he r x t ht]
  congr 3
  omega

end Csv2
end Mara
