import Verif.Mara.RareLoc

/-!
# Lemmas: NSAP records
-/

namespace Mara
namespace Csv2

open Dw (Res)
open Spec.ZoneText Spec.Rare

/-- What the parser takes a digit for. -/
def low (c : UInt8) : Nat := (hexNybble c.toNat).getD 0

/-- The byte the parser reads. -/
def asRead (h : HexByte) : UInt8 := UInt8.ofNat (low h.left * 16 + low h.right)

theorem nybble_facts (c : UInt8) (h : (hexDigit c).isSome = true) : hexNybble c.toNat = some (low c) ∧ Rd c ∧ c ≠ 46 ∧
    (hexDigit c).getD 0 < 16 ∧ (hexDigit c).getD 0 = low c + (if isDigit c then 0 else 10) := by
  have key : ∀ n : Fin 256, (hexDigit (UInt8.ofNat n)).isSome = true → hexNybble (UInt8.ofNat n).toNat = some (low (UInt8.ofNat n)) ∧
      (UInt8.ofNat n ≠ 123 ∧ UInt8.ofNat n ≠ 126 ∧ (UInt8.ofNat n).toNat < 128) ∧ UInt8.ofNat n ≠ 46 ∧
      (hexDigit (UInt8.ofNat n)).getD 0 < 16 ∧
      (hexDigit (UInt8.ofNat n)).getD 0 = low (UInt8.ofNat n) + (if isDigit (UInt8.ofNat n) then 0 else 10) := by decide +kernel
  have := key ⟨c.toNat, c.toNat_lt⟩
  simp only [UInt8.ofNat_toNat] at this
  exact this h

theorem asRead_iff {b : HexByte} (hb : b.Ok) : asRead b = b.data ↔ b.decimal = true := by
  obtain ⟨-, -, -, l1, l2⟩ := nybble_facts b.left hb.left
  obtain ⟨-, -, -, r1, r2⟩ := nybble_facts b.right hb.right
  have e : asRead b = b.data ↔ low b.left * 16 + low b.right = (hexDigit b.left).getD 0 * 16 + (hexDigit b.right).getD 0 := by
    rw [asRead, HexByte.data, ← UInt8.toNat_inj, UInt8.toNat_ofNat', UInt8.toNat_ofNat']
    have a1 : low b.left ≤ (hexDigit b.left).getD 0 := by omega
    have a2 : low b.right ≤ (hexDigit b.right).getD 0 := by omega
    rw [Nat.mod_eq_of_lt (by omega), Nat.mod_eq_of_lt (by omega)]
  rw [e, HexByte.decimal]
  cases hl : isDigit b.left <;> cases hr : isDigit b.right <;> simp only [hl, hr] at l2 r2 <;> simp at l2 r2 ⊢ <;> omega

theorem skipDots_run {s : Stream} (h : Plain s) (x : UInt8) (hx : Rd x) (h46 : x ≠ 46) (t : List UInt8) :
    ∀ (k n : Nat) (c : UInt8) (rest : List UInt8), List.replicate k 46 ++ x :: t = c :: rest → k < n →
      skipDots n c.toNat (s.here c rest) = .ok (some (x.toNat : Int), s.here x t)
  | _, 0, _, _, _, hk => by omega
  | 0, n + 1, c, rest, heq, _ => by
    simp only [List.replicate_zero, List.nil_append, List.cons.injEq] at heq
    obtain ⟨rfl, rfl⟩ := heq
    rw [skipDots, if_neg (show ¬ ((x.toNat : Int) = 46) from toNat_ne h46)]; rfl
  | k + 1, n + 1, c, rest, heq, hk => by
    simp only [List.replicate_succ, List.cons_append, List.cons.injEq] at heq
    obtain ⟨rfl, rfl⟩ := heq
    obtain ⟨c2, t2, e2, hr2⟩ : ∃ c2 t2, List.replicate k 46 ++ x :: t = c2 :: t2 ∧ Rd c2 := by
      cases k with
      | zero => exact ⟨x, t, rfl, hx⟩
      | succ k => exact ⟨46, List.replicate k 46 ++ x :: t, rfl, by unfold Rd; decide⟩
    rw [skipDots, if_pos (by decide), e2, bind_ok (read_rd h 46 c2 t2 hr2)]
    exact skipDots_run h x hx h46 t k n c2 t2 e2 (by omega)

theorem dots_run {s : Stream} (h : Plain s) (x : UInt8) (hx : Rd x) (h46 : x ≠ 46) (t : List UInt8) (k : Nat) (hk : k < 10000)
    (j : UInt8) : (readUnicode >>= skipDots 10000) (s.here j (List.replicate k 46 ++ x :: t)) =
      .ok (some (x.toNat : Int), s.here x t) := by
  obtain ⟨c2, t2, e2, hr2⟩ : ∃ c2 t2, List.replicate k 46 ++ x :: t = c2 :: t2 ∧ Rd c2 := by
    cases k with
    | zero => exact ⟨x, t, rfl, hx⟩
    | succ k => exact ⟨46, List.replicate k 46 ++ x :: t, rfl, by unfold Rd; decide⟩
  rw [e2, bind_ok (read_rd h j c2 t2 hr2)]
  exact skipDots_run h x hx h46 t k 10000 c2 t2 e2 hk

theorem hex_run {s : Stream} (h : Plain s) (e : UInt8) (he : Rd e) (hd : isDelim e.toNat = true) (r : List UInt8) :
    ∀ (bs : List HexByte) (n : Nat) (o : List UInt8) (j : UInt8), (∀ b ∈ bs, b.Ok) → bs.length ≤ n →
      hexLoop n o (s.here j (bs.flatMap HexByte.text ++ e :: r)) = .ok (some (o ++ bs.map asRead), s.here e r)
  | [], n, o, j, _, _ => by
    have hn : hexNybble e.toNat = none := by
      have key : ∀ n : Fin 256, isDelim (UInt8.ofNat n).toNat = true → hexNybble (UInt8.ofNat n).toNat = none := by decide +kernel
      have := key ⟨e.toNat, e.toNat_lt⟩
      simp only [UInt8.ofNat_toNat] at this
      exact this hd
    have h46 : e ≠ 46 := by rintro rfl; exact absurd hd (by decide)
    have hr := dots_run h e he h46 r 0 (by omega) j
    rw [show List.replicate 0 (46 : UInt8) ++ e :: r = e :: r from rfl, bind_ok (read_rd h j e r he)] at hr
    rw [hexLoop.eq_def]
    simp only [List.flatMap_nil, List.nil_append]
    rw [bind_ok (read_rd h j e r he), bind_ok hr, hn]
    simp only
    rw [if_pos (Or.inr hd)]
    simp [pure_run]
  | b :: bs, n, o, j, hb, hl => by
    have hbo := hb b (by simp)
    obtain ⟨l1, l2, l3, -⟩ := nybble_facts b.left hbo.left
    obtain ⟨r1, r2, -⟩ := nybble_facts b.right hbo.right
    obtain ⟨n, rfl⟩ : ∃ k, n = k + 1 := ⟨n - 1, by simp at hl; omega⟩
    have ih := hex_run h e he hd r bs n (o ++ [asRead b]) b.right (fun y hy => hb y (by simp [hy])) (by simp at hl; omega)
    have et : (b :: bs).flatMap HexByte.text ++ e :: r = List.replicate b.dots 46 ++ b.left :: (b.right ::
        (bs.flatMap HexByte.text ++ e :: r)) := by simp [HexByte.text]
    have hr := dots_run h b.left l2 l3 (b.right :: (bs.flatMap HexByte.text ++ e :: r)) b.dots hbo.dots j
    obtain ⟨c2, t2, e2, hr2⟩ : ∃ c2 t2, List.replicate b.dots 46 ++ b.left :: (b.right :: (bs.flatMap HexByte.text ++ e :: r)) =
        c2 :: t2 ∧ Rd c2 := by
      cases b.dots with
      | zero => exact ⟨_, _, rfl, l2⟩
      | succ k => exact ⟨46, _, rfl, by unfold Rd; decide⟩
    rw [e2, bind_ok (read_rd h j c2 t2 hr2)] at hr
    rw [hexLoop.eq_def, et, e2]
    simp only
    rw [bind_ok (read_rd h j c2 t2 hr2), bind_ok hr, l1]
    simp only
    rw [bind_ok (read_rd h b.left b.right _ r2), r1]
    simp only
    refine Eq.trans ih ?_
    simp

end Csv2
end Mara
