import Verif.Mara.StampModel
import Verif.Mara.SerialProps
import Verif.Spec.Stamp
/-!
# C127: the time shown in front of messages
-/

namespace Mara
namespace Stamp

open Dw (Res)
open Spec.Serial (Date dateAt)
open Spec.Stamp

/-- Reading digits on from a value. -/
def run (v : Nat) (s : List UInt8) : Nat :=
  (s.filter fun c => decide (48 ≤ c.toNat ∧ c.toNat ≤ 57)).foldl (fun v c => v * 10 + (c.toNat - 48)) v

theorem run_append (v : Nat) (a b : List UInt8) : run v (a ++ b) = run (run v a) b := by
  simp [run, List.filter_append, List.foldl_append]

theorem run_digit (v : Nat) {d : Nat} (h : d < 10) : run v [UInt8.ofNat (48 + d)] = v * 10 + d := by
  have : (UInt8.ofNat (48 + d)).toNat = 48 + d := by simp; omega
  simp only [run, List.filter_cons, this, List.filter_nil]
  rw [if_pos (by simp; omega)]
  simp only [List.foldl_cons, List.foldl_nil, this]
  omega

theorem run_decF : ∀ f n, n ≤ f → run 0 (decF f n) = n
  | 0, n, h => by
    have : n = 0 := by omega
    subst this
    rfl
  | f + 1, n, h => by
    unfold decF
    split
    · rename_i hn
      rw [run_digit 0 hn]; omega
    · rw [run_append, run_decF f (n / 10) (by omega), run_digit _ (by omega)]
      omega

theorem run_dec (n : Nat) : run 0 (dec n) = n := run_decF n n (Nat.le_refl _)

theorem two_table : ∀ n : Fin 100, two n.val = [UInt8.ofNat (48 + n.val / 10), UInt8.ofNat (48 + n.val % 10)] := by
  decide +kernel

theorem run_two (v : Nat) {n : Nat} (h : n < 100) : run v (two n) = v * 100 + n := by
  rw [two_table ⟨n, h⟩, show ∀ a b : UInt8, [a, b] = [a] ++ [b] from fun _ _ => rfl, run_append, run_digit _ (by simp only; omega),
    run_digit _ (by simp only; omega)]
  simp only
  omega

/-! ### Unix time -/

/-- The numbers that show Unix time: 0, 1 and all above 7. -/
def Unix (type : Int) : Prop := type = 0 ∨ type = 1 ∨ 7 < type

theorem unix_text {gm loc : Int → Option Tm} {asc : Tm → List UInt8} {type : Int} (h : Unix type) (now : Int) :
    showStamp gm loc asc true type now = .ok ((if type = 1 then [] else label) ++ showInt (toInt now) ++ [32]) := by
  unfold Unix at h
  unfold showStamp
  rw [if_neg (by simp)]
  by_cases h0 : type = 0
  · rw [if_pos h0, if_neg (by omega)]
  · by_cases h1 : type = 1
    · rw [if_neg h0, if_pos h1, if_pos h1]; rfl
    · rw [if_neg h0, if_neg h1, if_neg (by omega), if_neg (by omega), if_neg (by omega), if_neg (by omega), if_neg h1]

/-- **C127 (partial).** Before 19 January 2038, the number shown for a type that shows Unix time is the time.  (Partial:
after that it is not, see `unix_2038`.) -/
theorem unix_shown_partial {gm loc : Int → Option Tm} {asc : Tm → List UInt8} {type : Int} (h : Unix type) {now : Nat}
    (hn : now < 2 ^ 31) :
    ∃ s, showStamp gm loc asc true type now = .ok s ∧ digitsVal s = now ∧ 45 ∉ s := by
  have e := unix_text (gm := gm) (loc := loc) (asc := asc) h (now : Int)
  have hp : (if type = 1 then [] else label) = [] ∨ (if type = 1 then [] else label) = label := by split <;> simp
  generalize (if type = 1 then [] else label) = pre at e hp
  have ht : toInt (now : Int) = now := by unfold toInt; omega
  have hs : showInt (now : Int) = dec now := by
    unfold showInt
    rw [if_neg (by omega)]
    rfl
  refine ⟨_, e, ?_, ?_⟩
  · show run 0 _ = _
    rw [ht, hs, run_append, run_append]
    have : run 0 pre = 0 := by rcases hp with rfl | rfl <;> rfl
    rw [this, run_dec]
    rfl
  · have hd : ∀ f n, 45 ∉ decF f n := by
      intro f
      have one : ∀ d, d < 10 → (45 : UInt8) ∉ [UInt8.ofNat (48 + d)] := by
        intro d hd hm
        have := congrArg UInt8.toNat (List.mem_singleton.1 hm)
        simp at this
        omega
      induction f with
      | zero => intro n; exact one _ (by omega)
      | succ f ih =>
        intro n
        unfold decF
        split
        · exact one _ (by omega)
        · intro hm
          rcases List.mem_append.1 hm with hm | hm
          · exact ih _ hm
          · exact one _ (by omega) hm
    rw [ht, hs]
    intro hm
    rcases List.mem_append.1 hm with hm | hm
    · rcases List.mem_append.1 hm with hm | hm
      · rcases hp with rfl | rfl
        · simp at hm
        · revert hm; decide
      · exact hd _ _ hm
    · revert hm; decide

/-- As the code has it: times 2^32 seconds apart are shown alike, whatever the type that shows Unix time; and from 2038 to
2106 a negative number is shown. -/
theorem unix_2038 {gm loc : Int → Option Tm} {asc : Tm → List UInt8} {type : Int} (h : Unix type) (now : Int) :
    showStamp gm loc asc true type (now + 4294967296) = showStamp gm loc asc true type now ∧
    (2 ^ 31 ≤ now → now < 2 ^ 32 → ∃ s, showStamp gm loc asc true type now = .ok s ∧ 45 ∈ s) := by
  have ht : toInt (now + 4294967296) = toInt now := by unfold toInt; omega
  constructor
  · rw [unix_text h, unix_text h, ht]
  · intro h1 h2
    refine ⟨_, unix_text h now, ?_⟩
    have : toInt now < 0 := by unfold toInt; omega
    unfold showInt
    rw [if_pos this]
    simp

/-! ### Nothing -/

/-- **C127.** Nothing is shown for the type 5, and for no type if a `time_t` has 32 bits. -/
theorem silent (gm loc : Int → Option Tm) (asc : Tm → List UInt8) (wide : Bool) (type now : Int) (h : wide = false ∨ type = 5) :
    showStamp gm loc asc wide type now = .ok [] := by
  unfold showStamp
  rcases h with rfl | rfl
  · simp
  · simp

/-! ### ISO time -/

/-- `gmtime` does what it should. -/
def Right (gm : Int → Option Tm) : Prop := ∀ t : Nat, ∃ wday,
  gm t = some ⟨dateAt t, t % 86400 / 3600, t % 3600 / 60, t % 60, wday⟩

/-- **C127.** For the type 6, the digits shown are those of the year, the month, the day, the hour, the minute and the
second, also after 2038. -/
theorem iso_shown {gm loc : Int → Option Tm} {asc : Tm → List UInt8} (hg : Right gm) (t : Nat) :
    ∃ s, showStamp gm loc asc true 6 t = .ok s ∧ digitsVal s = clockNum t := by
  obtain ⟨w, hw⟩ := hg t
  have hr := Serial.real_days (t / 86400)
  have hm : (dateAt t).month < 100 := by have := hr.month; unfold dateAt; omega
  have hd : (dateAt t).day < 100 := by have := hr.day; unfold dateAt; omega
  refine ⟨dec (dateAt t).year ++ [45] ++ two (dateAt t).month ++ [45] ++ two (dateAt t).day ++ [32] ++
    clock ⟨dateAt t, t % 86400 / 3600, t % 3600 / 60, t % 60, w⟩, ?_, ?_⟩
  · unfold showStamp
    rw [if_neg (by simp), if_neg (by decide), if_neg (by decide), if_neg (by decide), if_neg (by decide), if_neg (by decide),
      if_pos (by decide), if_pos rfl, hw]
  · show run 0 _ = _
    have h45 : ∀ v, run v [45] = v := fun _ => rfl
    have h32 : ∀ v, run v [32] = v := fun _ => rfl
    have h58 : ∀ v, run v [58] = v := fun _ => rfl
    simp only [clock, run_append, run_dec, h45, h32, h58]
    rw [run_two _ hm, run_two _ hd, run_two _ (by omega), run_two _ (by omega), run_two _ (by omega)]
    rfl

/-- **C127.** Of two times shown for the type 6, the later one is the greater number. -/
theorem iso_order {gm loc : Int → Option Tm} {asc : Tm → List UInt8} (hg : Right gm) {t u : Nat} (h : t < u) :
    ∃ a b, showStamp gm loc asc true 6 t = .ok a ∧ showStamp gm loc asc true 6 u = .ok b ∧ digitsVal a < digitsVal b := by
  obtain ⟨a, ha, hav⟩ := iso_shown (gm := gm) (loc := loc) (asc := asc) hg t
  obtain ⟨b, hb, hbv⟩ := iso_shown (gm := gm) (loc := loc) (asc := asc) hg u
  refine ⟨a, b, ha, hb, ?_⟩
  rw [hav, hbv]
  have key : ∀ x, clockNum x = Serial.num (Date.ofDays (x / 86400)) * 1000000 + (x % 86400 / 3600 * 10000 + x % 3600 / 60 * 100 + x % 60) := by
    intro x
    simp only [clockNum, Serial.num, dateAt]
    omega
  rw [key, key]
  obtain ⟨k, hk⟩ : ∃ k, u / 86400 = t / 86400 + k := ⟨u / 86400 - t / 86400, by omega⟩
  have hn := Serial.num_days (t / 86400) k
  rw [hk]
  rcases Nat.eq_zero_or_pos k with rfl | hpos
  · rw [Nat.add_zero]
    omega
  · omega

/-! ### Settings -/

/-- **C127.** A setting that is not one of the documented values makes the server show Unix time (it has the type 0 before
it reads its settings). -/
theorem odd_setting {gm loc : Int → Option Tm} {asc : Tm → List UInt8} {setting : Int} (h : setting < 0 ∨ 7 < setting) {now : Nat}
    (hn : now < 2 ^ 31) :
    ∃ s, showStamp gm loc asc true (setType 0 setting) now = .ok s ∧ digitsVal s = now ∧ 45 ∉ s := by
  refine unix_shown_partial ?_ hn
  unfold Unix setType
  split <;> omega

/-! ### Examples -/

def exGm : Int → Option Tm := fun t => some ⟨dateAt t.toNat, t.toNat % 86400 / 3600, t.toNat % 3600 / 60, t.toNat % 60, 4⟩

theorem exRight : Right exGm := fun _ => ⟨4, rfl⟩

/-- `1970-01-02 01:01:01 ` -/
example : showStamp exGm exGm (fun _ => []) true 6 90061 =
    .ok [49, 57, 55, 48, 45, 48, 49, 45, 48, 50, 32, 48, 49, 58, 48, 49, 58, 48, 49, 32] := by decide +kernel

/-- The second after the last one of 32 bits: `-2147483648 ` -/
theorem shown_wrong : showStamp exGm exGm (fun _ => []) true 1 2147483648 =
    .ok [45, 50, 49, 52, 55, 52, 56, 51, 54, 52, 56, 32] := by decide +kernel

example : Unix 1 ∧ ¬ Unix 6 := by unfold Unix; omega

end Stamp
end Mara
