import Verif.Mara.JsSearch
import Verif.Spec.Net
/-!
# Strings of MaraDNS as lists

The models of the code that uses the string library work on the contents of strings.  The
theorems here say that the functions below are what the library functions of `JsModel` do.
-/

namespace Mara
namespace L

open Dw (Res)
open Spec

/-- `js_match_offset` (`want = true`) and `js_notmatch_offset` (`want = false`) for an offset
that is not negative and a list that is not empty; none is -2. -/
def find (want : Bool) (e l : List UInt8) (o : Nat) : Option Nat :=
  ((l.drop o).findIdx? (fun c => decide (c ∈ e) == want)).map (· + o)

/-- `js_atoi`. -/
def atoi (l : List UInt8) (o : Int) : Res Nat :=
  if o < 0 ∨ (l.length : Int) ≤ o then .ok 0
  else if Js.digits 0 (l.drop o.toNat) > 2147483647 then .ub
  else .ok (Js.digits 0 (l.drop o.toNat))

/-- `js_substr` into a string with the limit `max`. -/
def substr (l : List UInt8) (i n max : Nat) : Option (List UInt8) :=
  if i < l.length ∧ i + n ≤ l.length ∧ n < max then some ((l.drop i).take n) else none

theorem find_hit {want : Bool} {e pre mid post : List UInt8} {x : UInt8}
    (hm : ∀ c ∈ mid, ¬ (c ∈ e ↔ want = true)) (hx : x ∈ e ↔ want = true) :
    find want e (pre ++ (mid ++ x :: post)) pre.length = some (pre.length + mid.length) := by
  unfold find
  rw [List.drop_left]
  have : (mid ++ x :: post).findIdx? (fun c => decide (c ∈ e) == want) = some mid.length := by
    rw [List.findIdx?_append]
    have h1 : mid.findIdx? (fun c => decide (c ∈ e) == want) = none := by
      rw [List.findIdx?_eq_none_iff]
      intro c hc
      have := hm c hc
      cases want <;> simp at this ⊢ <;> exact this
    have h2 : (decide (x ∈ e) == want) = true := by
      cases want <;> simp at hx ⊢ <;> exact hx
    simp [h1, List.findIdx?_cons, h2]
  rw [this]
  simp [Nat.add_comm]

theorem find_none {want : Bool} {e pre mid : List UInt8}
    (hm : ∀ c ∈ mid, ¬ (c ∈ e ↔ want = true)) : find want e (pre ++ mid) pre.length = none := by
  unfold find
  rw [List.drop_left]
  have h1 : mid.findIdx? (fun c => decide (c ∈ e) == want) = none := by
    rw [List.findIdx?_eq_none_iff]
    intro c hc
    have := hm c hc
    cases want <;> simp at this ⊢ <;> exact this
  rw [h1]; rfl

theorem find_spec (want : Bool) (e l : List UInt8) (o : Nat) :
    match find want e l o with
    | some i => o ≤ i ∧ Js.Hit want e l i ∧ ∀ j, o ≤ j → j < i → ¬ Js.Hit want e l j
    | none => ∀ j, o ≤ j → ¬ Js.Hit want e l j := by
  have hit : ∀ j, Js.Hit want e l (o + j) ↔ ∃ h : j < (l.drop o).length, (decide ((l.drop o)[j] ∈ e) == want) = true := by
    intro j
    unfold Js.Hit
    simp only [List.length_drop, List.getElem_drop]
    constructor
    · rintro ⟨h, g⟩
      exact ⟨by omega, by cases want <;> simp at g ⊢ <;> exact g⟩
    · rintro ⟨h, g⟩
      exact ⟨by omega, by cases want <;> simp at g ⊢ <;> exact g⟩
  unfold find
  cases hf : (l.drop o).findIdx? (fun c => decide (c ∈ e) == want) with
  | none =>
    simp only [Option.map_none]
    rw [List.findIdx?_eq_none_iff] at hf
    intro j hj
    obtain ⟨k, rfl⟩ := Nat.exists_eq_add_of_le hj
    rw [hit]
    rintro ⟨h, g⟩
    exact absurd (hf _ (List.getElem_mem h)) (by rw [g]; simp)
  | some i =>
    simp only [Option.map_some]
    rw [List.findIdx?_eq_some_iff_getElem] at hf
    obtain ⟨h1, h2, h3⟩ := hf
    refine ⟨by omega, ?_, ?_⟩
    · rw [Nat.add_comm, hit]; exact ⟨h1, h2⟩
    · intro j hj hji
      obtain ⟨k, rfl⟩ := Nat.exists_eq_add_of_le hj
      rw [hit]
      rintro ⟨h, g⟩
      have := h3 k (by omega)
      rw [g] at this; simp at this

/-- The library search is `find`. -/
theorem find_bridge {e s : Js} (he : Js.Ok e) (hs : Js.Ok s) (h0 : 0 < e.count) (want : Bool) (o : Nat) :
    Js.matchOffset want e s o = .ok (match find want e.contents s.contents o with | some i => (i : Int) | none => -2) := by
  obtain ⟨r, h1, h2⟩ := Js.match_exact he hs h0 want o
  rw [h1]
  have h3 := find_spec want e.contents s.contents o
  congr 1
  cases r with
  | ofNat i =>
    obtain ⟨a, b, c⟩ := h2
    cases hf : find want e.contents s.contents o with
    | none => rw [hf] at h3; exact absurd b (h3 i a)
    | some k =>
      rw [hf] at h3
      obtain ⟨a', b', c'⟩ := h3
      rcases Nat.lt_trichotomy i k with h | h | h
      · exact absurd b (c' i a h)
      · subst h; rfl
      · exact absurd b' (c k a' h)
  | negSucc n =>
    obtain ⟨a, b⟩ := h2
    subst a
    cases hf : find want e.contents s.contents o with
    | none => rfl
    | some k => rw [hf] at h3; exact absurd h3.2.1 (b k h3.1)

/-- The library conversion is `atoi`. -/
theorem atoi_bridge {s : Js} (hs : Js.Ok s) (o : Int) (h1 : -2147483648 ≤ o) (h2 : o < 2147483648) :
    Js.atoi s o = atoi s.contents o := by
  have hl := hs.len
  have hf := hs.fits
  have hsm := hs.small
  have hb := hs.block
  unfold Js.atoi atoi
  simp only [hs.sane, Bool.not_true, Bool.false_eq_true, if_false]
  by_cases hn : o < 0
  · have := Js.u32_neg hn h1
    rw [if_pos (by omega), if_pos (Or.inl hn)]
  · obtain ⟨k, rfl⟩ := Int.eq_ofNat_of_zero_le (by omega : 0 ≤ o)
    rw [Js.u32_nat (by omega)]
    by_cases hk : s.count ≤ k
    · rw [if_pos hk, if_pos (Or.inr (by omega))]
    · rw [if_neg hk, if_neg (by omega), Int.toNat_natCast]
      rw [Js.rds_in (by omega)]
      have : (s.buf.drop k).take (s.count - k) = s.contents.drop k := by
        rw [Js.contents, List.drop_take]
      simp only [Dw.Res.ok_bind, this]

/-- The library substring is `substr`. -/
theorem substr_bridge {s d : Js} (hs : Js.Ok s) (hd : Js.Ok d) (i n : Nat) (hi : i < 1073741824) (hn : n < 1073741824) :
    match substr s.contents i n d.max with
    | some l => ∃ d', Js.substr s d i n = .ok d' ∧ d'.contents = l
    | none => Js.substr s d i n = .err := by
  have h := Js.substr_exact hs hd i n hi hn
  unfold substr
  unfold JStr.substr at h
  change Js.Did _ (if i < s.contents.length ∧ i + n ≤ s.contents.length ∧ n < d.max then
    some ⟨d.max, (s.contents.drop i).take n⟩ else none) at h
  by_cases hc : i < s.contents.length ∧ i + n ≤ s.contents.length ∧ n < d.max
  · rw [if_pos hc] at h ⊢
    generalize Js.substr s d i n = x at h ⊢
    cases x with
    | ok d' => exact ⟨d', rfl, congrArg JStr.bytes h.2⟩
    | err => exact h.elim
    | ub => exact h.elim
  · rw [if_neg hc] at h ⊢
    generalize Js.substr s d i n = x at h ⊢
    cases x with
    | ok d' => exact h.elim
    | err => rfl
    | ub => exact h.elim

theorem digits_dec : ∀ (ds : List UInt8) (post : List UInt8) (acc : Nat), (∀ d ∈ ds, 48 ≤ d ∧ d ≤ 57) →
    (∀ c ∈ post.head?, ¬ (48 ≤ c ∧ c ≤ 57)) →
    Js.digits acc (ds ++ post) = ds.foldl (fun v d => v * 10 + (d.toNat - 48)) acc := by
  intro ds
  induction ds with
  | nil =>
    intro post acc _ hp
    cases post with
    | nil => rfl
    | cons c post => simp only [List.nil_append, Js.digits, List.foldl_nil]; rw [if_neg (hp c rfl)]
  | cons d ds ih =>
    intro post acc hd hp
    rw [List.cons_append, Js.digits, if_pos (hd d (by simp)), ih post _ (fun x hx => hd x (by simp [hx])) hp]
    rfl

theorem atoi_dec {pre ds post : List UInt8} (hd : IsDec ds) (hp : ∀ c ∈ post.head?, ¬ (48 ≤ c ∧ c ≤ 57))
    (hv : decVal ds ≤ 2147483647) : atoi (pre ++ (ds ++ post)) pre.length = .ok (decVal ds) := by
  obtain ⟨x, ds', rfl⟩ := List.exists_cons_of_ne_nil hd.1
  unfold atoi
  rw [if_neg (by simp; omega), Int.toNat_natCast, List.drop_left, digits_dec _ _ _ hd.2 hp]
  have : List.foldl (fun v d => v * 10 + (UInt8.toNat d - 48)) 0 (x :: ds') = decVal (x :: ds') := rfl
  rw [this, if_neg (by omega)]

end L
end Mara
