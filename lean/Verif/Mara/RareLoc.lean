import Verif.Mara.RareLemmas

/-!
# Lemmas: LOC records
-/

namespace Mara
namespace Csv2

open Dw (Res)
open Spec.ZoneText Spec.Rare

theorem gap_cons {g : Gap} (hg : GapOk g) (r : List UInt8) : g.text ++ r = last g.first :: (pieces g.rest ++ r) := by
  have h := hg.2
  cases hf : g.first with
  | blank c => simp [Gap.text, hf, Piece.text, last]
  | pipe => simp [Gap.text, hf, Piece.text, last]
  | comment t e => simp [hf, Piece.isComment] at h

theorem stop_gap {g : Gap} (hg : GapOk g) : Stop (last g.first) := by
  rcases last_delim hg.1.first with h | h | h | h | h <;> rw [h] <;> constructor <;> first | decide | (unfold Rd; decide)

theorem dec_cons {m : Nat} {d : Dec} (hd : d.Ok m) (r : List UInt8) : ∃ x t, isDigit x = true ∧ d.text ++ r = x :: t := by
  obtain ⟨x, w, hw⟩ := List.exists_cons_of_ne_nil hd.some
  exact ⟨x, _, hd.digits x (by simp [hw]), by rw [Dec.text, hw]; rfl⟩

theorem mem_ints (l : List UInt8) (c : UInt8) : (c.toNat : Int) ∈ l.map (fun c => (c.toNat : Int)) ↔ c ∈ l := by
  constructor
  · intro h
    obtain ⟨d, hd, he⟩ := List.mem_map.mp h
    have : d = c := UInt8.toNat_inj.mp (by exact_mod_cast he)
    exact this ▸ hd
  · intro h; exact List.mem_map.mpr ⟨c, h, rfl⟩

theorem number_alphanum {x : UInt8} (h : isDigit x = true) : isAlphanum x.toNat = true := by
  have key : ∀ n : Fin 256, isDigit (UInt8.ofNat n) = true → isAlphanum (UInt8.ofNat n).toNat = true := by decide +kernel
  have := key ⟨x.toNat, x.toNat_lt⟩
  simp only [UInt8.ofNat_toNat] at this
  exact this h

/-- A latitude or longitude after a gap, up to the byte after it. -/
theorem lonLat_run {s : Stream} (h : Plain s) (pos neg : List UInt8)
    (hL : ∀ c : UInt8, c ∈ pos ∨ c ∈ neg → isAlphanum c.toNat = true ∧ c.toNat < 128 ∧ isNumber c.toNat = false)
    (g : Gap) (hg : g.Ok) (a : Angle) (ha : a.Ok pos neg) (e : UInt8) (he : Rd e) (r : List UInt8) :
    lonLat (pos.map fun c => (c.toNat : Int)) (neg.map fun c => (c.toNat : Int))
        (s.here (last g.first) (pieces g.rest ++ (a.text ++ e :: r))) =
      .ok (some (a.val pos), s.here e r) := by
  have hdig : ∀ x : UInt8, isDigit x = true →
      ¬ ((x.toNat : Int) ∈ pos.map (fun c => (c.toNat : Int)) ∨ (x.toNat : Int) ∈ neg.map (fun c => (c.toNat : Int))) := by
    intro x hx hm
    rw [mem_ints, mem_ints] at hm
    have := (hL x hm).2.2
    rw [(digit_facts x hx).1] at this
    exact absurd this (by decide)
  have etext : a.text ++ e :: r = a.deg.text ++ (a.g1.text ++ (a.mins.text ++ (a.g2.text ++ (a.secs.text ++ (a.g3.text ++
      a.letter :: e :: r))))) := by simp [Angle.text]
  rw [etext, gap_cons ha.g1, gap_cons ha.g2, gap_cons ha.g3]
  obtain ⟨x1, t1, hx1, e1⟩ := dec_cons ha.deg (last a.g1.first :: (pieces a.g1.rest ++ (a.mins.text ++
    last a.g2.first :: (pieces a.g2.rest ++ (a.secs.text ++ last a.g3.first :: (pieces a.g3.rest ++ a.letter :: e :: r))))))
  obtain ⟨x2, t2, hx2, e2⟩ := dec_cons ha.mins (last a.g2.first :: (pieces a.g2.rest ++ (a.secs.text ++
    last a.g3.first :: (pieces a.g3.rest ++ a.letter :: e :: r))))
  obtain ⟨x3, t3, hx3, e3⟩ := dec_cons ha.secs (last a.g3.first :: (pieces a.g3.rest ++ a.letter :: e :: r))
  rw [e1, lonLat, bind_ok (get1st_gap h skips_number g hg x1 (digit_facts x1 hx1).1 (digit_facts x1 hx1).2.1 t1),
    if_neg (by decide), bind_ok (getInt_run h 0 a.deg ha.deg _ (stop_gap ha.g1) _ x1 t1 e1), e2,
    bind_ok (get1st_gap h skips_alphanum a.g1 ha.g1.1 x2 (number_alphanum hx2) (digit_facts x2 hx2).2.1 t2),
    if_neg (by decide), bind_get, just_here h, if_neg (hdig x2 hx2), if_neg (by rw [(digit_facts x2 hx2).1]; decide),
    bind_ok (getInt_run h 0 a.mins ha.mins _ (stop_gap ha.g2) _ x2 t2 e2), e3,
    bind_ok (get1st_gap h skips_alphanum a.g2 ha.g2.1 x3 (number_alphanum hx3) (digit_facts x3 hx3).2.1 t3),
    if_neg (by decide), bind_get, just_here h, if_neg (hdig x3 hx3), if_neg (by rw [(digit_facts x3 hx3).1]; decide),
    bind_ok (getInt_run h 3 a.secs ha.secs _ (stop_gap ha.g3) _ x3 t3 e3),
    bind_ok (get1st_gap h skips_alphanum a.g3 ha.g3.1 a.letter (hL _ ha.letter).1 (hL _ ha.letter).2.1 (e :: r)),
    if_neg (by decide), bind_get, just_here h, lonLatEnd]
  have hin : ¬ ((a.letter.toNat : Int) ∉ pos.map (fun c => (c.toNat : Int)) ∧
      (a.letter.toNat : Int) ∉ neg.map (fun c => (c.toNat : Int))) := by
    rw [mem_ints, mem_ints]
    intro hh
    exact ha.letter.elim hh.1 hh.2
  have hsm := ha.small
  have hms : a.ms = a.deg.scaled 0 * 3600000 + a.mins.scaled 0 * 60000 + a.secs.scaled 3 := rfl
  rw [if_neg hin, bind_ok (int32_ok (by omega)), bind_ok (int32_ok (by omega)), bind_ok (int32_ok (by omega)),
    bind_ok (int32_ok (by omega)), bind_ok (read_rd h a.letter e r he), pure_run]
  congr 3
  by_cases hp : a.letter ∈ pos
  · rw [if_pos ((mem_ints _ _).mpr hp), Angle.val, if_pos hp]; omega
  · rw [if_neg (fun hh => hp ((mem_ints _ _).mp hh)), Angle.val, if_neg hp]; omega

/-! ## Sizes -/

/-- How a number of metres grows. -/
def grow (g : Option Nat) (c : UInt8) : Option Nat := some (g.getD 0 * 10 + (c.toNat - 48))

theorem grow_some (l : List UInt8) : ∀ v, l.foldl grow (some v) = some (l.foldl (fun v c => v * 10 + (c.toNat - 48)) v) := by
  induction l with
  | nil => intro v; rfl
  | cons c l ih => intro v; exact ih _

theorem grow_value (l : List UInt8) (hl : l ≠ []) : l.foldl grow none = some (value l) := by
  cases l with
  | nil => exact absurd rfl hl
  | cons c l =>
    rw [List.foldl_cons, show grow none c = some (0 * 10 + (c.toNat - 48)) from rfl, grow_some]; rfl

theorem digit_not {x : UInt8} (hx : isDigit x = true) : (x.toNat : Int) ≠ -2 ∧ (x.toNat : Int) ≠ 10 ∧ (x.toNat : Int) ≠ 13 ∧
    (x.toNat : Int) ≠ 35 ∧ isWks x.toNat = false := by
  have key : ∀ n : Fin 256, isDigit (UInt8.ofNat n) = true → ((UInt8.ofNat n).toNat : Int) ≠ -2 ∧ ((UInt8.ofNat n).toNat : Int) ≠ 10 ∧
    ((UInt8.ofNat n).toNat : Int) ≠ 13 ∧ ((UInt8.ofNat n).toNat : Int) ≠ 35 ∧ isWks (UInt8.ofNat n).toNat = false := by decide +kernel
  have := key ⟨x.toNat, x.toNat_lt⟩
  simp only [UInt8.ofNat_toNat] at this
  exact this hx

theorem sizes_digits {s : Stream} (h : Plain s) (c' : UInt8) (t' : List UInt8) (hc' : Rd c') :
    ∀ (l : List UInt8) (n : Nat) (g : Option Nat) (out : List Nat) (c : UInt8) (t : List UInt8), l ++ c' :: t' = c :: t →
      (∀ x ∈ l, isDigit x = true) → l.foldl (fun v c => v * 10 + (c.toNat - 48)) (g.getD 0) ≤ 2147483647 →
      sizesLoop false (n + l.length) c.toNat g out (s.here c t) =
        sizesLoop false n c'.toNat (l.foldl grow g) out (s.here c' t')
  | [], n, g, out, c, t, heq, _, _ => by
    simp only [List.nil_append, List.cons.injEq] at heq
    obtain ⟨rfl, rfl⟩ := heq
    rfl
  | x :: l, n, g, out, c, t, heq, hd, hs => by
    simp only [List.cons_append, List.cons.injEq] at heq
    obtain ⟨rfl, rfl⟩ := heq
    have hx := hd x (by simp)
    obtain ⟨c2, t2, e2, hr2⟩ : ∃ c2 t2, l ++ c' :: t' = c2 :: t2 ∧ Rd c2 := by
      cases l with
      | nil => exact ⟨c', t', rfl, hc'⟩
      | cons y l => exact ⟨y, l ++ c' :: t', rfl, rd_digit (hd y (by simp))⟩
    simp only [List.foldl_cons] at hs ⊢
    have hb := value_ge l (g.getD 0 * 10 + (x.toNat - 48))
    have ih := sizes_digits h c' t' hc' l n (grow g x) out c2 t2 e2 (fun y hy => hd y (by simp [hy])) hs
    obtain ⟨n1, n2, n3, n4, n5⟩ := digit_not hx
    have e3 : ((g.getD 0 : Nat) : Int) * 10 + ((x.toNat : Int) - 48) = ((g.getD 0 * 10 + (x.toNat - 48) : Nat) : Int) := by
      rw [digit_sub hx]; push_cast; omega
    have hends : (decide (isWks (x.toNat : Int) = true ∨ (x.toNat : Int) = 13 ∨ (x.toNat : Int) = 10 ∨ (x.toNat : Int) = -2 ∨
        (x.toNat : Int) = 35)) = false := by
      simp [n1, n2, n3, n4, n5]
    rw [List.length_cons, ← Nat.add_assoc, sizesLoop]
    simp only [hends]
    rw [if_neg (by simp), if_neg (by simp [n1, n2, n3]), if_neg (by simp [n4]), if_neg (by simp), if_neg (by simp),
      if_pos (digit_facts x hx).1]
    simp only [Bool.false_eq_true, if_false]
    rw [e3, bind_ok (int32_ok (by omega)), e2, bind_ok (read_rd h x c2 t2 hr2)]
    exact ih

/-- The bytes of sizes. -/
def sizeBytes (zs : List Size) : List Nat := zs.map fun z => sizeByte (value z.digits)

theorem sizes_run {s : Stream} (h : Plain s) (e : UInt8) (he : e = 10 ∨ e = 13) (r : List UInt8) :
    ∀ (zs : List Size) (n : Nat) (g : Option Nat) (out : List Nat) (c : UInt8) (t : List UInt8),
      zs.flatMap Size.text ++ e :: r = c :: t → (∀ z ∈ zs, z.Ok) → out.length + g.toList.length + zs.length ≤ 3 →
      (zs.flatMap Size.text).length < n →
      sizesLoop false n c.toNat g out (s.here c t) =
        .ok (some (out ++ (g.map sizeByte).toList ++ sizeBytes zs), s.here e r)
  | [], 0, _, _, _, _, _, _, _, hn => by simp at hn
  | [], n + 1, g, out, c, t, heq, _, h3, _ => by
    simp only [List.flatMap_nil, List.nil_append, List.cons.injEq] at heq
    obtain ⟨rfl, rfl⟩ := heq
    have hends : (decide (isWks (e.toNat : Int) = true ∨ (e.toNat : Int) = 13 ∨ (e.toNat : Int) = 10 ∨ (e.toNat : Int) = -2 ∨
        (e.toNat : Int) = 35)) = true := by
      rcases he with rfl | rfl <;> decide
    have hnl : ((e.toNat : Int) = -2 ∨ (e.toNat : Int) = 10 ∨ (e.toNat : Int) = 13) := by
      rcases he with rfl | rfl <;> decide
    rw [sizesLoop]
    simp only [hends]
    rw [if_neg, if_pos ⟨trivial, hnl⟩]
    · simp [sizeBytes, pure_run]
    · rintro ⟨-, hs, hl⟩
      cases g with
      | none => simp at hs
      | some v => simp at h3; omega
  | z :: zs, 0, _, _, _, _, _, _, _, hn => by simp at hn
  | z :: zs, n + 1, g, out, c, t, heq, hz, h3, hn => by
    have hzo := hz z (by simp)
    have heq' : z.sep :: (z.digits ++ 109 :: (zs.flatMap Size.text ++ e :: r)) = c :: t := by
      rw [← heq]; simp [Size.text]
    simp only [List.cons.injEq] at heq'
    obtain ⟨rfl, rfl⟩ := heq'
    obtain ⟨x, w, hw⟩ := List.exists_cons_of_ne_nil hzo.some
    have hx := hzo.digits x (by simp [hw])
    obtain ⟨t1, e1⟩ : ∃ t1, z.digits ++ 109 :: (zs.flatMap Size.text ++ e :: r) = x :: t1 := by rw [hw]; exact ⟨_, rfl⟩
    have hends : (decide (isWks (z.sep.toNat : Int) = true ∨ (z.sep.toNat : Int) = 13 ∨ (z.sep.toNat : Int) = 10 ∨
        (z.sep.toNat : Int) = -2 ∨ (z.sep.toNat : Int) = 35)) = true := by
      rcases hzo.sep with hh | hh | hh <;> rw [hh] <;> decide
    have hnot : ¬ ((z.sep.toNat : Int) = -2 ∨ (z.sep.toNat : Int) = 10 ∨ (z.sep.toNat : Int) = 13) ∧ (z.sep.toNat : Int) ≠ 35 ∧
        isNumber z.sep.toNat = false ∧ isWks z.sep.toNat = true := by
      rcases hzo.sep with hh | hh | hh <;> rw [hh] <;> decide
    rw [sizesLoop]
    simp only [hends]
    rw [if_neg, if_neg (fun hh => hnot.1 hh.2), if_neg (fun hh => hnot.2.1 hh.2), if_neg (by simp), if_neg (by simp),
      if_neg (by rw [hnot.2.2.1]; decide), if_pos (Or.inl hnot.2.2.2), e1, bind_ok (read_rd h z.sep x t1 (rd_digit hx))]
    · simp only [if_true]
      have hlen : ((z :: zs).flatMap Size.text).length = z.digits.length + 2 + (zs.flatMap Size.text).length := by
        simp [Size.text]; omega
      rw [hlen] at hn
      obtain ⟨k, hk⟩ : ∃ k, n = (k + 1) + z.digits.length := ⟨n - z.digits.length - 1, by omega⟩
      obtain ⟨c2, t2, e2, hr2⟩ : ∃ c2 t2, zs.flatMap Size.text ++ e :: r = c2 :: t2 ∧ Rd c2 := by
        cases zs with
        | nil => exact ⟨e, r, rfl, by rcases he with rfl | rfl <;> unfold Rd <;> decide⟩
        | cons y l =>
          refine ⟨y.sep, _, rfl, ?_⟩
          rcases (hz y (by simp)).sep with hh | hh | hh <;> rw [hh] <;> unfold Rd <;> decide
      have ih := sizes_run h e he r zs k (some (value z.digits)) (out ++ (g.map sizeByte).toList) c2 t2 e2
        (fun y hy => hz y (by simp [hy])) (by cases g <;> simp at h3 ⊢ <;> omega) (by omega)
      rw [hk, sizes_digits h 109 _ (by unfold Rd; decide) z.digits (k + 1) none _ x t1 e1 hzo.digits hzo.small,
        grow_value _ hzo.some, sizesLoop]
      have hm : (decide (isWks ((109 : UInt8).toNat : Int) = true ∨ ((109 : UInt8).toNat : Int) = 13 ∨ ((109 : UInt8).toNat : Int) = 10 ∨
        ((109 : UInt8).toNat : Int) = -2 ∨ ((109 : UInt8).toNat : Int) = 35)) = false := by decide
      simp only [hm]
      rw [if_neg (by simp), if_neg (by decide), if_neg (by decide), if_neg (by decide), if_neg (by decide), if_neg (by decide),
        if_pos (by decide), e2, bind_ok (read_rd h 109 c2 t2 hr2)]
      simp only [Bool.false_eq_true, if_false]
      rw [ih]
      simp [sizeBytes]
    · rintro ⟨-, hs, hl⟩
      cases g with
      | none => simp at hs
      | some v => simp at h3; omega

theorem sizeLoop_says : ∀ (n g q : Nat), g < 10 ^ (n + 1) → (sizeLoop n g q).1 ≤ 9 ∧
    (0 < g → 0 < (sizeLoop n g q).1) ∧ ∃ k, (sizeLoop n g q).2 = q + k ∧ k ≤ n ∧
    (sizeLoop n g q).1 * 10 ^ k ≤ g ∧ g < ((sizeLoop n g q).1 + 1) * 10 ^ k
  | 0, g, q, hg => ⟨by simp [sizeLoop] at *; omega, fun h => h, 0, rfl, Nat.le_refl _, by simp [sizeLoop], by simp [sizeLoop]⟩
  | n + 1, g, q, hg => by
    rw [sizeLoop]
    split
    · obtain ⟨h1, h0, k, h2, h3, h4, h5⟩ := sizeLoop_says n (g / 10) (q + 1) (by rw [Nat.pow_succ] at hg; omega)
      refine ⟨h1, fun _ => h0 (by omega), k + 1, by omega, by omega, ?_, ?_⟩
      · rw [Nat.pow_succ, ← Nat.mul_assoc]; omega
      · rw [Nat.pow_succ, ← Nat.mul_assoc]; omega
    · exact ⟨by simp only; omega, fun h => h, 0, rfl, by omega, by simp, by simp⟩

theorem sizeByte_says (g : Nat) (hg : g ≤ 2147483647) : Tells (sizeByte g) g ∧ sizeByte g < 256 := by
  obtain ⟨h1, h0, k, h2, h3, h4, h5⟩ := sizeLoop_says 9 g 1 (by omega)
  have hq : (sizeLoop 9 g 1).2 + 1 = k + 2 := by omega
  have hb : sizeByte g = (sizeLoop 9 g 1).1 * 16 + (k + 2) := by
    rw [sizeByte]; simp only [hq]; omega
  have hd : sizeByte g / 16 = (sizeLoop 9 g 1).1 := by omega
  have hm : sizeByte g % 16 = k + 2 := by omega
  refine ⟨⟨by omega, fun h => by rw [hd]; exact h0 h, ?_, ?_⟩, by omega⟩
  · rw [cm, hd, hm, Nat.pow_add, ← Nat.mul_assoc]; omega
  · rw [cm, hd, hm, Nat.pow_add, ← Nat.mul_assoc]
    rw [Nat.add_mul, Nat.one_mul] at h5
    omega

end Csv2
end Mara
