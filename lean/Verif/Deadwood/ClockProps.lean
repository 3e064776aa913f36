import Verif.Deadwood.ClockModel
import Verif.Deadwood.HashProps
import Verif.Spec.Clock

/-!
# C121: the clock of Deadwood
-/

namespace Dw
namespace Clock

open Spec.Clock (second signed32 said)

/-- The moments that are proved about: after March 1979, or, where seconds have 32 bits, from July 2020 to April 2115. -/
def Served (wide : Bool) (w : Nat) : Prop :=
  if wide then 290805600 * second ≤ w else 1595787855 * second ≤ w ∧ w < 4585772896 * second

theorem served_after {wide : Bool} {w : Nat} (h : Served wide w) : 290805600 * second ≤ w := by
  unfold Served second at *
  cases wide <;> simp at h <;> omega

/-! ## The theorems -/

/-- **C121.** The clock of Deadwood shows the 1/256 seconds since a moment in 1979, whatever it showed before; also
on systems whose seconds have run over in 2038. -/
theorem clock_exact_partial {wide : Bool} {w : Nat} (h : Served wide w) (old : Int) :
    setTime wide old (some (said wide w)) = ((w - 290805600 * second) * 256 / second : Nat) := by
  unfold Served second at h
  unfold setTime said second
  have hf : w % 1000000000 / 3906250 < 256 := by omega
  have hb : seconds wide old (if wide = true then ((w / 1000000000 : Nat) : Int) else signed32 ((w / 1000000000 : Nat) : Int)) =
      ((w / 1000000000 : Nat) : Int) - 290805600 := by
    unfold seconds
    cases wide
    · simp at h
      simp only [Bool.false_eq_true, if_false]
      unfold signed32
      split <;> split <;> omega
    · simp at h
      simp only [if_true]
      rw [if_pos (by omega)]
  simp only [hb]
  have h0 : 290805600 * 1000000000 ≤ w := served_after (wide := wide) (by unfold Served second; exact h)
  split <;> omega

/-- **C121.** The clock never goes back while time goes on, and it is off by less than one of its steps over any time. -/
theorem clock_rises_partial {wide : Bool} {a b : Nat} (ha : Served wide a) (hb : Served wide b) (hab : a ≤ b) (x y : Int) :
    let p := setTime wide x (some (said wide a))
    let q := setTime wide y (some (said wide b))
    p ≤ q ∧ (q - p - 1) * second < (b - a : Nat) * 256 ∧ ((b - a : Nat) * 256 : Int) < (q - p + 1) * second := by
  intro p q
  have hp : p = _ := clock_exact_partial ha x
  have hq : q = _ := clock_exact_partial hb y
  have h0 := served_after ha
  have h1 := served_after hb
  unfold second at *
  rw [hp, hq]
  refine ⟨?_, ?_, ?_⟩ <;> omega

/-- **C121.** If the clock of the system cannot be read, the clock stands. -/
theorem clock_stands (wide : Bool) (old : Int) : setTime wide old none = old := rfl

/-- **C121.** What is kept with a lifetime is found for that many seconds (at least 30, at most two years) by the clock of
the system, and is not found any more a 256th of a second later, on systems of both kinds. -/
theorem kept_for_seconds_partial {hf : List UInt8 → Nat} {cs n : Nat} {pre mid : List HOp} {wide : Bool} {a b : Nat} (ha : Served wide a)
    (hb : Served wide b) (hab : a ≤ b) {x y : Int} {k v : List UInt8} {ttl : Int}
    (g : Good hf cs n (pre ++ HOp.put (setTime wide x (some (said wide a))) k v ttl :: mid)) (hpos : 0 < ttl)
    (hnp : isPerm (written k pre) = false) (hmid : ∀ op ∈ mid, touches k op = false) :
    ∃ outs h, (Hash.init cs n).run hf (pre ++ HOp.put (setTime wide x (some (said wide a))) k v ttl :: mid) = .ok (outs, h) ∧
      let found := fun ignore => (h.get hf (setTime wide y (some (said wide b))) k ignore 1).1
      (((b - a : Nat) : Int) ≤ max 30 (min ttl 63072000) * second → found false = found true) ∧
      (max 30 (min ttl 63072000) * second + 3906250 ≤ ((b - a : Nat) : Int) → found false = none) := by
  obtain ⟨outs, h, h1, h2⟩ := served_iff_not_expired g hpos hnp hmid (setTime wide y (some (said wide b)))
  refine ⟨outs, h, h1, ?_, ?_⟩
  · intro hl
    show (h.get hf _ k false 1).1 = (h.get hf _ k true 1).1
    rw [h2, if_pos]
    rw [clock_exact_partial ha, clock_exact_partial hb]
    have h0 := served_after ha
    unfold second at *
    omega
  · intro hl
    show (h.get hf _ k false 1).1 = none
    rw [h2, if_neg]
    rw [clock_exact_partial ha, clock_exact_partial hb]
    have h0 := served_after ha
    unfold second at *
    omega

/-- **C121, refuted after 2115.** Where seconds have 32 bits, the clock falls back by 136 years in April 2115, though the
smallest time allowed (`DW_MINTIME`) tells times apart until 2156. -/
theorem clock_falls (x y : Int) {w : Nat} (h1 : 4585772896 * second ≤ w) (h2 : w < (1595787855 + 4294967296) * second) :
    setTime false x (some (said false w)) = setTime true y (some (said true w)) - 4294967296 * 256 := by
  unfold setTime said seconds signed32 second at *
  simp only [Bool.false_eq_true, if_false, if_true]
  have hf : w % 1000000000 / 3906250 < 256 := by omega
  split <;> split <;> split <;> split <;> omega

/-! ## Examples -/

-- the second after the last one of 32 bits, and a half
example : said false (2147483648 * second + 500000000) = (-2147483648, 500000000) ∧
    setTime false 7 (some (-2147483648, 500000000)) = 475309580416 := by decide

example : setTime false 7 (some (said false (2147483648 * second + 500000000))) =
    ((2147483648 * second + 500000000 - 290805600 * second) * 256 / second : Nat) :=
  clock_exact_partial (by unfold Served; decide) 7

example : setTime false 7 (some (said false (2147483647 * second + 999999999))) ≤ setTime false 8 (some (said false (2147483648 * second))) :=
  (clock_rises_partial (by unfold Served; decide) (by unfold Served; decide) (by decide) 7 8).1

example : setTime false 7 (some (said false (4585772896 * second))) = 0 ∧ setTime false 7 (some (said false (4585772895 * second))) = 1099511627520 := by
  decide

example : setTime false 0 (some (said false (4585772896 * second))) =
    setTime true 0 (some (said true (4585772896 * second))) - 4294967296 * 256 := clock_falls 0 0 (by decide) (by decide)

-- kept for a minute, over the moment when seconds of 32 bits run over
example (hf : List UInt8 → Nat) (x y : Int) :
    let now := setTime false x (some (said false (2147483620 * second)))
    ∃ outs h, (Hash.init 0 9).run hf ([] ++ HOp.put now [1] [10] 60 :: [.look now [1] false]) = .ok (outs, h) ∧
      (h.get hf (setTime false y (some (said false (2147483680 * second)))) [1] false 1).1 =
        (h.get hf (setTime false y (some (said false (2147483680 * second)))) [1] true 1).1 := by
  intro now
  have h0 : 0 ≤ now := by
    rw [show now = _ from clock_exact_partial (by unfold Served; decide) x]
    exact Int.natCast_nonneg _
  have g : Good hf 0 9 ([] ++ HOp.put now [1] [10] 60 :: [.look now [1] false]) :=
    good_of_startup (a := []) (by simp) (by simp; intro t _ _ _ e _ _ _; rw [← e]; exact h0) (by decide)
  obtain ⟨o, h, h1, h2, -⟩ := kept_for_seconds_partial (wide := false) (a := 2147483620 * second) (b := 2147483680 * second)
    (by unfold Served; decide) (by unfold Served; decide) (by decide) (y := y) g (by decide) (by decide) (by simp [touches])
  exact ⟨o, h, h1, h2 (by decide)⟩

end Clock
end Dw
