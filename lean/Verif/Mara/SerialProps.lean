import Verif.Mara.SerialModel
import Verif.Mara.ServeProps
import Verif.Spec.Transfer

/-!
# C120: the serial number of a zone rises when its file is changed
-/

namespace Mara
namespace Serial

open Dw (Res)
open Spec (dotted Name Host ZoneLine encName madeSoa num32 ascii)
open Spec.Serial (newer Date leap monthDays dateAt hourAt)
open Spec.ZoneText
open Spec.Serve

/-! ## The calendar -/

structure Real (d : Date) : Prop where
  month : 1 ≤ d.month ∧ d.month ≤ 12
  day : 1 ≤ d.day ∧ d.day ≤ 31
  year : 1970 ≤ d.year

theorem monthDays_le (y m : Nat) : monthDays y m ≤ 31 := by
  unfold monthDays
  split
  · split <;> omega
  · split <;> omega

theorem real_next {d : Date} (h : Real d) : Real d.next := by
  have := monthDays_le d.year d.month
  obtain ⟨hm, hd, hy⟩ := h
  unfold Date.next
  split
  · exact ⟨hm, ⟨by simp only; omega, by simp only; omega⟩, hy⟩
  · split
    · exact ⟨⟨by simp only; omega, by simp only; omega⟩, ⟨by simp only; omega, by simp only; omega⟩, hy⟩
    · exact ⟨⟨by simp only; omega, by simp only; omega⟩, ⟨by simp only; omega, by simp only; omega⟩, by simp only; omega⟩

theorem real_days : ∀ n, Real (Date.ofDays n)
  | 0 => ⟨by decide, by decide, by decide⟩
  | n + 1 => real_next (real_days n)

/-- The number that a date is written as. -/
def num (d : Date) : Nat := (d.year * 100 + d.month) * 100 + d.day

theorem num_next {d : Date} (h : Real d) : num d < num d.next := by
  obtain ⟨hm, hd, hy⟩ := h
  unfold Date.next num
  split
  · simp only; omega
  · split
    · simp only; omega
    · simp only; omega

theorem num_days (n : Nat) : ∀ k, num (Date.ofDays n) + k ≤ num (Date.ofDays (n + k))
  | 0 => Nat.le_refl _
  | k + 1 => by
    have h1 := num_days n k
    have h2 : num (Date.ofDays (n + k)) < num (Date.ofDays (n + (k + 1))) := num_next (real_days (n + k))
    omega

theorem year_days (n : Nat) : ∀ k, (Date.ofDays n).year ≤ (Date.ofDays (n + k)).year
  | 0 => Nat.le_refl _
  | k + 1 => by
    have h1 := year_days n k
    have h2 : (Date.ofDays (n + k)).year ≤ (Date.ofDays (n + (k + 1))).year := by
      change _ ≤ (Date.ofDays (n + k)).next.year
      unfold Date.next
      split
      · exact Nat.le_refl _
      · split
        · exact Nat.le_refl _
        · exact Nat.le_succ _
    omega

/-- `gmtime_r` follows the calendar, as long as the year has at most four digits and is before 4295. -/
def Follows (gm : Gmtime) : Prop := ∀ t : Nat, (dateAt t).year ≤ 4294 → gm t = some (dateAt t, hourAt t)

theorem stamp_eq {t : Nat} (hy : (dateAt t).year ≤ 4294) : stamp (dateAt t) (hourAt t) = num (dateAt t) * 100 + hourAt t := by
  obtain ⟨hm, hd, -⟩ := real_days (t / 86400)
  change 1 ≤ (dateAt t).month ∧ (dateAt t).month ≤ 12 at hm
  change 1 ≤ (dateAt t).day ∧ (dateAt t).day ≤ 31 at hd
  have hh : hourAt t < 24 := by unfold hourAt; omega
  unfold stamp num
  exact Nat.mod_eq_of_lt (by omega)

theorem sixths_eq {t : Int} (h : 290805600 ≤ t) : (sixths t : Int) = ((t - 290805600) / 6) % 4294967296 := by
  unfold sixths
  rw [Int.tdiv_eq_ediv_of_nonneg (by omega)]
  omega

/-! ## The theorems -/

variable {gm : Gmtime} {size : Nat}

/-- **C120.** By default a zone file that is changed six seconds or more after it was changed before gets a newer serial
number, for all times after 1979, over four hundred years. -/
theorem serial_rises_partial (hs : size < 200) {setting : Nat} (hset : setting ≠ 2) {t u : Int} (ht : 290805600 ≤ t) (h6 : t + 6 ≤ u)
    (hu : u < t + 12884901882) :
    newer (setSerial gm true setting size (some t)) (setSerial gm true setting size (some u)) := by
  have e : ∀ x : Int, setSerial gm true setting size (some x) = sixths x := by
    intro x
    unfold setSerial
    rw [if_neg (by omega)]
    simp only [hset, ne_eq, not_false_eq_true, true_or, if_true, windowed, Bool.true_eq_false, false_and, if_false]
  rw [e, e]
  have h1 := sixths_eq ht
  have h2 := sixths_eq (t := u) (by omega)
  unfold newer
  omega

/-- **C120.** A later change never gives a serial number that is older. -/
theorem serial_kept_partial (hs : size < 200) {setting : Nat} (hset : setting ≠ 2) {t u : Int} (ht : 290805600 ≤ t) (h : t ≤ u)
    (hu : u < t + 12884901882) :
    setSerial gm true setting size (some u) = setSerial gm true setting size (some t) ∨
      newer (setSerial gm true setting size (some t)) (setSerial gm true setting size (some u)) := by
  have e : ∀ x : Int, setSerial gm true setting size (some x) = sixths x := by
    intro x
    unfold setSerial
    rw [if_neg (by omega)]
    simp only [hset, ne_eq, not_false_eq_true, true_or, if_true, windowed, Bool.true_eq_false, false_and, if_false]
  rw [e, e]
  have h1 := sixths_eq ht
  have h2 := sixths_eq (t := u) (by omega)
  unfold newer
  omega

/-- **C120, refuted for quick changes.** Up to six changes, one in every second, have the same serial number. -/
theorem serial_six {setting : Nat} (hset : setting ≠ 2) (n : Nat) {k : Nat} (hk : k < 6) :
    setSerial gm true setting size (some (290805600 + 6 * n + k)) = setSerial gm true setting size (some (290805600 + 6 * n)) := by
  have e : ∀ x : Int, setSerial gm true setting size (some x) = if size ≥ 200 then 1 else sixths x := by
    intro x
    unfold setSerial
    split
    · rfl
    · simp only [hset, ne_eq, not_false_eq_true, true_or, if_true, windowed, Bool.true_eq_false, false_and, if_false]
  rw [e, e]
  split
  · rfl
  · have h1 := sixths_eq (t := 290805600 + 6 * n + k) (by omega)
    have h2 := sixths_eq (t := 290805600 + 6 * n) (by omega)
    omega

/-- The time that a signed `time_t` of 32 bits has for a time. -/
def wrapped (t : Int) : Int := (t + 2147483648) % 4294967296 - 2147483648

/-- **C120.** A system with times of 32 bits, which run over in 2038, gives the same serial number as one with 64 bits
until 2136, by default and also if it is set up to show the hour (which it does not do). -/
theorem serial_narrow {setting : Nat} {t : Int} (h1 : 965067855 ≤ t) (h2 : t < 965067855 + 4294967296) :
    setSerial gm false setting size (some (wrapped t)) = setSerial gm true 1 size (some t) := by
  have e1 : windowed false (wrapped t) = t := by
    unfold windowed wrapped
    simp only [true_and]
    split <;> omega
  have e2 : windowed true t = t := by simp [windowed]
  unfold setSerial
  split
  · rfl
  · simp [e1, e2]

/-- **C120.** With `synth_soa_serial` 2 the serial number is the year, the month, the day and the hour of the change. -/
theorem serial_readable_partial (hg : Follows gm) (hs : size < 200) {t : Nat} (hy : (dateAt t).year ≤ 4294) :
    let s := setSerial gm true 2 size (some t)
    s < 2 ^ 32 ∧ s / 1000000 = (dateAt t).year ∧ s / 10000 % 100 = (dateAt t).month ∧ s / 100 % 100 = (dateAt t).day ∧
      s % 100 = hourAt t := by
  have e : setSerial gm true 2 size (some t) = num (dateAt t) * 100 + hourAt t := by
    unfold setSerial
    rw [if_neg (by omega), ← stamp_eq hy]
    simp [hg t hy]
  obtain ⟨hm, hd, -⟩ := real_days (t / 86400)
  change 1 ≤ (dateAt t).month ∧ (dateAt t).month ≤ 12 at hm
  change 1 ≤ (dateAt t).day ∧ (dateAt t).day ≤ 31 at hd
  have hh : hourAt t < 24 := by unfold hourAt; omega
  rw [e]
  unfold num
  refine ⟨?_, ?_, ?_, ?_, ?_⟩ <;> omega

/-- **C120.** With `synth_soa_serial` 2 a zone file that is changed in a later hour gets a newer serial number, if there
are less than 2147 years between. -/
theorem serial_hours_partial (hg : Follows gm) (hs : size < 200) {t u : Nat} (h : t / 3600 < u / 3600)
    (hy : (dateAt u).year ≤ 4294) (hn : (dateAt u).year < (dateAt t).year + 2147) :
    newer (setSerial gm true 2 size (some t)) (setSerial gm true 2 size (some u)) := by
  have hd : t / 86400 ≤ u / 86400 := by omega
  obtain ⟨k, hk⟩ := Nat.exists_eq_add_of_le hd
  have hyt : (dateAt t).year ≤ 4294 := by
    have := year_days (t / 86400) k
    rw [← hk] at this
    exact Nat.le_trans this hy
  have e : ∀ x : Nat, (dateAt x).year ≤ 4294 → setSerial gm true 2 size (some x) = num (dateAt x) * 100 + hourAt x := by
    intro x hx
    unfold setSerial
    rw [if_neg (by omega), ← stamp_eq hx]
    simp [hg x hx]
  rw [e t hyt, e u hy]
  have hnum := num_days (t / 86400) k
  rw [← hk] at hnum
  change num (dateAt t) + k ≤ num (dateAt u) at hnum
  obtain ⟨hm, hd', -⟩ := real_days (t / 86400)
  change 1 ≤ (dateAt t).month ∧ (dateAt t).month ≤ 12 at hm
  change 1 ≤ (dateAt t).day ∧ (dateAt t).day ≤ 31 at hd'
  obtain ⟨hm2, hd2, -⟩ := real_days (u / 86400)
  change 1 ≤ (dateAt u).month ∧ (dateAt u).month ≤ 12 at hm2
  change 1 ≤ (dateAt u).day ∧ (dateAt u).day ≤ 31 at hd2
  have ht : hourAt t < 24 := by unfold hourAt; omega
  have hu : hourAt u < 24 := by unfold hourAt; omega
  have hlt : num (dateAt t) * 100 + hourAt t < num (dateAt u) * 100 + hourAt u := by
    rcases Nat.eq_zero_or_pos k with h0 | h0
    · have : hourAt t < hourAt u := by unfold hourAt; omega
      omega
    · omega
  left
  refine ⟨hlt, ?_⟩
  unfold num
  omega

/-- **C120, refuted for long names.** A file whose name has two hundred bytes or more always has the serial number 1. -/
theorem serial_stuck (hs : 200 ≤ size) (wide : Bool) (setting : Nat) (mtime : Option Int) :
    setSerial gm wide setting size mtime = 1 := by
  unfold setSerial
  rw [if_pos hs]

theorem serial_lt (wide : Bool) (setting : Nat) (mtime : Option Int) : setSerial gm wide setting size mtime < 2 ^ 32 := by
  unfold setSerial
  split
  · decide
  · split
    · decide
    · split
      · unfold sixths; omega
      · split
        · decide
        · unfold stamp; omega

/-! ## What other servers see -/

/-- The serial number in a SOA record: the first of the five numbers its data end with. -/
def soaSerial (c : Copy) : Nat := Spec.Transfer.num32At c.data (c.data.length - 20)

theorem num32At_made (a : List UInt8) {s : Nat} (hs : s < 2 ^ 32) (b : List UInt8) (hb : b.length = 16) :
    Spec.Transfer.num32At (a ++ (num32 s ++ b)) ((a ++ (num32 s ++ b)).length - 20) = s := by
  have hl : (a ++ (num32 s ++ b)).length - 20 = a.length := by simp [num32, hb]
  rw [hl]
  unfold Spec.Transfer.num32At
  have g : ∀ k, (a ++ (num32 s ++ b)).getD (a.length + k) 0 = (num32 s ++ b).getD k 0 := by
    intro k
    simp [List.getD_eq_getElem?_getD, List.getElem?_append_right]
  have g0 := g 0
  rw [Nat.add_zero] at g0
  rw [g0, g 1, g 2, g 3]
  simp [num32]
  omega

theorem soaSerial_made {h : Host} (hs : h.serial < 2 ^ 32) (zone : Name) {es : List ZoneLine}
    (hn : ∀ e, es.head? = some e → e.type ≠ 6) : soaSerial (soaOf h zone es) = h.serial := by
  have e : soaOf h zone es = copy 86400 (madeSoa h zone) := by
    cases es with
    | nil => rfl
    | cons e r => simp [soaOf, hn e rfl]
  rw [e]
  unfold soaSerial copy madeSoa
  simp only [List.append_assoc]
  rw [← List.append_assoc]
  exact num32At_made _ hs _ (by simp [num32])

/-- **C120.** Another server that gets the zone before and after its file is changed, six seconds or more between the
changes, sees a newer serial number in the first record that is sent, if the file has no SOA record of its own. -/
theorem transfer_newer_partial (hs : size < 200) {setting : Nat} (hset : setting ≠ 2) {t u : Int} (ht : 290805600 ≤ t) (h6 : t + 6 ≤ u)
    (hu : u < t + 12884901882)
    {ips : List Nat} {origin : Option (List UInt8)} {a b : Host}
    (ha : a = ⟨ips, setSerial gm true setting size (some t), origin⟩) (hb : b = ⟨ips, setSerial gm true setting size (some u), origin⟩)
    (files : List UInt8 → Option (List UInt8)) {mode : Nat} {zone : Name} {f g : File}
    (hf : Csv2.ZoneText.Ok a mode (zone, f)) (hg : Csv2.ZoneText.Ok b mode (zone, g))
    (hca : a.chosen.length ≤ 13) (hcb : b.chosen.length ≤ 13)
    (hnf : f.records a.serial zone ≠ []) (hng : g.records b.serial zone ≠ [])
    (hsf : ∀ e, (f.records a.serial zone).head? = some e → e.type ≠ 6)
    (hsg : ∀ e, (g.records b.serial zone).head? = some e → e.type ≠ 6)
    (hff : ∀ c ∈ zoneSent a zone (f.records a.serial zone), Spec.Serve.Fits (soaOf a zone (f.records a.serial zone)) c)
    (hfg : ∀ c ∈ zoneSent b zone (g.records b.serial zone), Spec.Serve.Fits (soaOf b zone (g.records b.serial zone)) c)
    {q : List UInt8} {hd : Reply.Hdr} (hq : Reply.readHdr q = some hd) :
    ∃ before after x y, Serve.serve files mode (Serve.env2 a zone) (dotted zone) hd false f.text = .ok (some (sending q (before :: x), true)) ∧
      Serve.serve files mode (Serve.env2 b zone) (dotted zone) hd false g.text = .ok (some (sending q (after :: y), true)) ∧
      before.type = 6 ∧ after.type = 6 ∧ newer (soaSerial before) (soaSerial after) := by
  have la : a.serial < 2 ^ 32 := by simpa [ha] using serial_lt (gm := gm) (size := size) true setting (some t)
  have lb : b.serial < 2 ^ 32 := by simpa [hb] using serial_lt (gm := gm) (size := size) true setting (some u)
  have six : ∀ (h : Host) (es : List ZoneLine), (soaOf h zone es).type = 6 := by
    intro h es
    cases es with
    | nil => rfl
    | cons e r => simp only [soaOf]; split <;> rfl
  refine ⟨soaOf a zone (f.records a.serial zone), soaOf b zone (g.records b.serial zone), _, _,
    Serve.serve_exact files hf la hca hnf (fun e he h => absurd h (hsf e he)) hff hq,
    Serve.serve_exact files hg lb hcb hng (fun e he h => absurd h (hsg e he)) hfg hq, six _ _, six _ _, ?_⟩
  rw [soaSerial_made la zone hsf, soaSerial_made lb zone hsg, ha, hb]
  exact serial_rises_partial hs hset ht h6 hu

/-! ## Examples -/

def exGm : Gmtime := fun t => some (dateAt t.toNat, hourAt t.toNat)

theorem exFollows : Follows exGm := fun _ _ => rfl

example : (⟨2000, 2, 28⟩ : Date).next = ⟨2000, 2, 29⟩ ∧ (⟨2100, 2, 28⟩ : Date).next = ⟨2100, 3, 1⟩ ∧ Date.ofDays 58 = ⟨1970, 2, 28⟩ ∧
    Date.ofDays 59 = ⟨1970, 3, 1⟩ ∧ Date.ofDays 364 = ⟨1970, 12, 31⟩ ∧ Date.ofDays 365 = ⟨1971, 1, 1⟩ := by decide +kernel

-- the end of the serial numbers, when they begin again with 0
example : setSerial exGm true 1 20 (some 26060609370) = 4294967295 ∧ setSerial exGm true 1 20 (some 26060609376) = 0 := by decide +kernel

example : newer (setSerial exGm true 1 20 (some 26060609370)) (setSerial exGm true 1 20 (some 26060609376)) :=
  serial_rises_partial (by decide) (by decide) (by decide) (by decide) (by decide)

example : newer (setSerial exGm true 1 20 (some 1794964470)) (setSerial exGm true 1 20 (some 1794964476)) :=
  serial_rises_partial (by decide) (by decide) (by decide) (by decide) (by decide)

example : setSerial exGm true 1 20 (some 1794964470) = 250693145 := by decide +kernel

example : setSerial exGm true 1 20 (some 1794964471) = setSerial exGm true 1 20 (some 1794964470) ∨
    newer (setSerial exGm true 1 20 (some 1794964470)) (setSerial exGm true 1 20 (some 1794964471)) :=
  serial_kept_partial (by decide) (by decide) (by decide) (by decide) (by decide)

example : setSerial exGm true 1 20 (some (290805600 + 6 * (250693145 : Nat) + (5 : Nat))) =
    setSerial exGm true 1 20 (some (290805600 + 6 * (250693145 : Nat))) := serial_six (by decide) _ (by decide)

-- a day in 2050, with times that have run over
example : wrapped 2524608000 = -1770359296 ∧
    setSerial exGm false 2 20 (some (wrapped 2524608000)) = setSerial exGm true 1 20 (some 2524608000) :=
  ⟨by decide, serial_narrow (by decide) (by decide)⟩

-- the last hour of 1970, and the first one of 1971
example : setSerial exGm true 2 20 (some 31535999) = 1970123123 ∧ setSerial exGm true 2 20 (some 31536000) = 1971010100 := by decide +kernel

example : newer (setSerial exGm true 2 20 (some (31535999 : Nat))) (setSerial exGm true 2 20 (some (31536000 : Nat))) :=
  serial_hours_partial exFollows (by decide) (by decide) (by decide +kernel) (by decide +kernel)

example : setSerial exGm true 2 20 (some (31535999 : Nat)) / 1000000 = (dateAt 31535999).year :=
  (serial_readable_partial exFollows (by decide) (t := 31535999) (by decide +kernel)).2.1

example : setSerial exGm true 1 200 (some 1794964470) = 1 := serial_stuck (by decide) _ _ _

-- the file changed again six seconds later, and sent both times
def exLater : Host := { Csv2.exHost with serial := 2 }

theorem exLater_ok : Csv2.ZoneText.Ok exLater 2 (Csv2.exZone, Csv2.exFile) := by
  have h := Csv2.exText_ok _ List.mem_cons_self
  have hf := Csv2.exFile_ok
  exact ⟨⟨h.zone.1, h.zone.2, h.zone.3, h.zone.4, (by intro o ho; cases ho), by decide⟩, h.bytes,
    { head := hf.head, pipes := hf.pipes, short := hf.short, line := hf.line, lines := hf.lines, style := hf.style, first := hf.first,
      pushes := hf.pushes, few := hf.few }, by decide +kernel, by decide +kernel⟩

example {hd : Reply.Hdr} (hq : Reply.readHdr Serve.exQ = some hd) :
    ∃ before after x y, Serve.serve (fun _ => none) 2 (Serve.env2 Csv2.exHost Csv2.exZone) (dotted Csv2.exZone) hd false Csv2.exFile.text =
        .ok (some (sending Serve.exQ (before :: x), true)) ∧
      Serve.serve (fun _ => none) 2 (Serve.env2 exLater Csv2.exZone) (dotted Csv2.exZone) hd false Csv2.exFile.text =
        .ok (some (sending Serve.exQ (after :: y), true)) ∧
      before.type = 6 ∧ after.type = 6 ∧ newer (soaSerial before) (soaSerial after) :=
  transfer_newer_partial (gm := exGm) (size := 20) (setting := 1) (t := 290805606) (u := 290805612) (by decide) (by decide) (by decide) (by decide)
    (by decide) (ips := [167772161]) (origin := none) (by rfl) (by rfl) _ (Csv2.exText_ok _ List.mem_cons_self) exLater_ok (by decide) (by decide)
    (by decide) (by decide) (by intro e he; cases he; decide) (by intro e he; cases he; decide) (by decide +kernel) (by decide +kernel) hq

end Serial
end Mara
