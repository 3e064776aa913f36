import Verif.Spec.Wire
import Verif.Mara.JsModel
import Verif.Spec.JStr
import Mathlib.Tactic.SplitIfs
/-!
# C55, C56: the string library of MaraDNS
-/

namespace Mara
namespace Js

open Dw (Res)
open Spec

/-- A live string: the block has three spare bytes. -/
structure Ok (s : Js) : Prop where
  block : s.buf.length = s.max + 3
  fits : s.count ≤ s.max
  small : s.max < 2147483644

/-- What a user sees of a string. -/
def abs (s : Js) : JStr := ⟨s.max, s.contents⟩

/-- The operation did what it should: an error exactly if it should fail, otherwise a live string
with the right limit and contents.  In particular no access was outside a block. -/
def Did : Res Js → Option JStr → Prop
  | .ok s, some j => Ok s ∧ s.abs = j
  | .err, none => True
  | _, _ => False

theorem Ok.len {s : Js} (h : Ok s) : s.contents.length = s.count := by
  have := h.block; have := h.fits
  simp [contents]; omega

theorem Ok.sane {s : Js} (h : Ok s) : s.sane = true := by simp [Js.sane, h.fits]

theorem u32_nat {n : Nat} (h : n < 4294967296) : u32 n = n := by unfold u32; omega

theorem u32_neg {i : Int} (h : i < 0) (h' : -2147483648 ≤ i) : 2147483648 ≤ u32 i := by
  unfold u32; omega

theorem rds_in {b : List UInt8} {i n : Nat} (h : i + n ≤ b.length) : rds b i n = .ok ((b.drop i).take n) := by
  unfold rds
  split_ifs with h0
  · simp [h0]
  · rfl

theorem wrs_in {b : List UInt8} {i : Nat} {l : List UInt8} (h : i + l.length ≤ b.length) :
    wrs b i l = .ok (b.take i ++ l ++ b.drop (i + l.length)) := by
  unfold wrs
  split_ifs with h0
  · simp [h0]
  · rfl

theorem rd_in {b : List UInt8} {i : Nat} (h : i < b.length) : rd b i = .ok b[i] := by
  unfold rd; rw [List.getElem?_eq_getElem h]

theorem contents_rds {s : Js} (h : Ok s) : rds s.buf 0 s.count = .ok s.contents := by
  rw [rds_in (by have := h.block; have := h.fits; omega)]; rfl

/-- Writing at the end of the contents. -/
theorem did_append {t : Js} (h : Ok t) (l : List UInt8) (hl : t.count + l.length ≤ t.max) :
    ∃ buf, wrs t.buf t.count l = .ok buf ∧
      Ok { t with count := t.count + l.length, buf := buf } ∧
      (Js.contents { t with count := t.count + l.length, buf := buf }) = t.contents ++ l := by
  have hb := h.block
  have hf := h.fits
  refine ⟨_, wrs_in (by omega), ⟨?_, hl, h.small⟩, ?_⟩
  · simp; omega
  · simp only [contents]
    exact List.take_left' (by simp; omega)

/-- Writing new contents at the front. -/
theorem did_front {t : Js} (h : Ok t) (l : List UInt8) (hl : l.length ≤ t.max) :
    ∃ buf, wrs t.buf 0 l = .ok buf ∧
      Ok { t with count := l.length, buf := buf } ∧
      (Js.contents { t with count := l.length, buf := buf }) = l := by
  have hb := h.block
  refine ⟨_, wrs_in (by omega), ⟨?_, hl, h.small⟩, ?_⟩
  · simp; omega
  · simp only [contents, List.take_zero, List.nil_append]
    exact List.take_left' rfl

/-! ### Two strings for the examples -/

def exA : Js := ⟨2, 8, [65, 98, 9, 9, 9, 9, 9, 9, 9, 9, 9]⟩
def exT : Js := ⟨3, 8, [99, 100, 101, 7, 7, 7, 7, 7, 7, 7, 7]⟩

theorem exA_ok : Ok exA := ⟨rfl, by decide, by decide⟩
theorem exT_ok : Ok exT := ⟨rfl, by decide, by decide⟩

/-! ### C55: building strings -/

/-- A new string is empty. -/
theorem create_ok {max : Nat} (h : max < 2147483644) (junk : List UInt8) :
    Ok (create max junk) ∧ (create max junk).abs = ⟨max, []⟩ := by
  refine ⟨⟨?_, ?_, h⟩, ?_⟩
  · simp [create]
  · simp [create]
  · simp [create, abs, contents]

/-- **C55**: `js_append`. -/
theorem append_exact {a t : Js} (ha : Ok a) (ht : Ok t) : Did (append a t) (JStr.append a.abs t.abs) := by
  unfold append JStr.append
  have e1 : a.abs.bytes.length = a.count := ha.len
  have e2 : t.abs.bytes.length = t.count := ht.len
  rw [e1, e2]
  simp only [ha.sane, ht.sane, Bool.not_true, Bool.or_self, Bool.false_eq_true, if_false]
  by_cases h : a.count + t.count < t.max
  · rw [if_neg (by omega), if_pos (show a.count + t.count < t.abs.max from h), contents_rds ha, Res.ok_bind]
    obtain ⟨buf, hw, hok, hc⟩ := did_append ht a.contents (by rw [ha.len]; omega)
    rw [hw, Res.ok_bind]
    rw [ha.len] at hok hc
    exact ⟨hok, by simp only [abs, hc]⟩
  · rw [if_pos (by omega), if_neg (show ¬ a.count + t.count < t.abs.max from h)]
    trivial

example : Did (append exA exT) (some ⟨8, [99, 100, 101, 65, 98]⟩) := append_exact exA_ok exT_ok

/-- **C55**: `js_insert` with a place counted from the front. -/
theorem insert_exact {a t : Js} (ha : Ok a) (ht : Ok t) (i : Nat) (hi : i < 2147483648) :
    Did (insert a t i) (JStr.insert a.abs t.abs i) := by
  have e1 : a.abs.bytes.length = a.count := ha.len
  have e2 : t.abs.bytes.length = t.count := ht.len
  unfold insert JStr.insert
  rw [u32_nat (by omega), e1, e2]
  simp only [ha.sane, ht.sane, Bool.not_true, Bool.or_self, Bool.false_eq_true, if_false]
  by_cases h1 : i > t.count
  · rw [if_pos h1, if_neg (by omega), if_neg (by omega)]; trivial
  rw [if_neg h1]
  by_cases h2 : i = t.count
  · rw [if_pos h2, if_pos h2]; exact append_exact ha ht
  rw [if_neg h2, if_neg h2]
  by_cases h3 : a.count + t.count > t.max
  · rw [if_pos h3, if_neg (show ¬ (i < t.count ∧ a.count + t.count ≤ t.abs.max) by
      have : t.abs.max = t.max := rfl
      omega)]; trivial
  rw [if_neg h3, if_pos (show i < t.count ∧ a.count + t.count ≤ t.abs.max by
      have : t.abs.max = t.max := rfl
      omega)]
  simp only [if_neg (show ¬ ((i : Int) < 0) by omega), contents_rds ha, contents_rds ht, Res.ok_bind,
    Int.toNat_natCast]
  have hlen : (t.contents.take i ++ a.contents ++ t.contents.drop i).length = t.count + a.count := by
    simp [ha.len, ht.len]; omega
  obtain ⟨buf, hw, hok, hc⟩ := did_front ht (t.contents.take i ++ a.contents ++ t.contents.drop i) (by omega)
  rw [hw, Res.ok_bind]
  rw [hlen] at hok hc
  exact ⟨hok, by simp only [abs, hc]⟩

example : Did (insert exA exT 1) (some ⟨8, [99, 65, 98, 100, 101]⟩) :=
  insert_exact exA_ok exT_ok 1 (by decide)

/-- A negative place, which the description of `js_insert` explains, is always refused: the test
for "beyond the end" takes it for a huge number. -/
theorem insert_negative_refused {a t : Js} (ha : Ok a) (ht : Ok t) {i : Int} (hi : i < 0)
    (hi' : -2147483648 ≤ i) : insert a t i = .err := by
  unfold insert
  have := u32_neg hi hi'
  have := ht.fits
  have := ht.small
  simp only [ha.sane, ht.sane, Bool.not_true, Bool.or_self, Bool.false_eq_true, if_false]
  rw [if_pos (by omega)]

example : insert exA exT (-1) = .err := insert_negative_refused exA_ok exT_ok (by decide) (by decide)

/-- **C55**: `js_substr`. -/
theorem substr_exact {s d : Js} (hs : Ok s) (hd : Ok d) (i n : Nat) (hi : i < 1073741824) (hn : n < 1073741824) :
    Did (substr s d i n) (JStr.substr s.abs d.abs i n) := by
  have e1 : s.abs.bytes.length = s.count := hs.len
  have hf := hs.fits
  have hb := hs.block
  unfold substr JStr.substr
  rw [u32_nat (by omega), show ((i : Int) + n) = ((i + n : Nat) : Int) by omega, u32_nat (by omega),
    u32_nat (by omega), e1]
  simp only [hs.sane, hd.sane, Bool.not_true, Bool.or_self, Bool.false_eq_true, if_false,
    if_neg (show ¬ ((n : Int) < 0) by omega)]
  by_cases h : i < s.count ∧ i + n ≤ s.count ∧ n < d.max
  · obtain ⟨h1, h2, h3⟩ := h
    rw [if_neg (by omega), if_neg (by omega), if_neg (by omega), if_neg (by omega),
      if_pos (show i < s.count ∧ i + n ≤ s.count ∧ n < d.abs.max from ⟨h1, h2, h3⟩)]
    simp only [Int.toNat_natCast]
    rw [rds_in (by omega), Res.ok_bind]
    have e : (s.buf.drop i).take n = (s.contents.drop i).take n := by
      simp only [contents]
      rw [List.drop_take, List.take_take, Nat.min_eq_left (by omega)]
    rw [e]
    have hlen : ((s.contents.drop i).take n).length = n := by
      simp [hs.len]; omega
    obtain ⟨buf, hw, hok, hc⟩ := did_front hd ((s.contents.drop i).take n) (by omega)
    rw [hw, Res.ok_bind]
    rw [hlen] at hok hc
    exact ⟨hok, by simp only [abs, hc]⟩
  · rw [if_neg (show ¬ (i < s.count ∧ i + n ≤ s.count ∧ n < d.abs.max) from h)]
    split_ifs <;> first | trivial | omega

example : Did (substr exT exA 1 2) (some ⟨8, [100, 101]⟩) :=
  substr_exact exT_ok exA_ok 1 2 (by decide) (by decide)

/-- A negative start is refused. -/
theorem substr_negative_refused {s d : Js} (hs : Ok s) {i n : Int} (hi : i < 0)
    (hi' : -2147483648 ≤ i) : substr s d i n = .err := by
  unfold substr
  have := u32_neg hi hi'
  have := hs.fits
  have := hs.small
  split_ifs <;> first | rfl | omega

/-- **C55**: `js_copy`. -/
theorem copy_exact {s d : Js} (hs : Ok s) (hd : Ok d) : Did (copy s d) (JStr.copy s.abs d.abs) := by
  unfold copy JStr.copy
  have e1 : s.abs.bytes.length = s.count := hs.len
  rw [e1]
  simp only [hs.sane, hd.sane, Bool.not_true, Bool.or_self, Bool.false_eq_true, if_false]
  by_cases h : s.count < d.max
  · rw [if_neg (by omega), if_pos (show s.count < d.abs.max from h), contents_rds hs, Res.ok_bind]
    obtain ⟨buf, hw, hok, hc⟩ := did_front hd s.contents (by rw [hs.len]; omega)
    rw [hw, Res.ok_bind]
    rw [hs.len] at hok hc
    exact ⟨hok, by simp only [abs, hc]⟩
  · rw [if_pos (by omega), if_neg (show ¬ s.count < d.abs.max from h)]; trivial

example : Did (copy exA exT) (some ⟨8, [65, 98]⟩) := copy_exact exA_ok exT_ok

theorem add_exact {s : Js} (hs : Ok s) (l : List UInt8) :
    Did (if s.count + l.length ≥ s.max then .err else do
      let buf ← wrs s.buf s.count l
      .ok { s with count := s.count + l.length, buf := buf }) (JStr.add s.abs l) := by
  unfold JStr.add
  have e1 : s.abs.bytes.length = s.count := hs.len
  rw [e1]
  by_cases h : s.count + l.length < s.max
  · rw [if_neg (by omega), if_pos (show s.count + l.length < s.abs.max from h)]
    obtain ⟨buf, hw, hok, hc⟩ := did_append hs l (by omega)
    rw [hw, Res.ok_bind]
    exact ⟨hok, by simp only [abs, hc]⟩
  · rw [if_pos (by omega), if_neg (show ¬ s.count + l.length < s.abs.max from h)]; trivial

/-- **C55**: `js_addbyte`. -/
theorem addbyte_exact {s : Js} (hs : Ok s) (b : UInt8) : Did (addbyte s b) (JStr.add s.abs [b]) := by
  unfold addbyte
  simp only [hs.sane, Bool.not_true, Bool.false_eq_true, if_false]
  exact add_exact hs [b]

example : Did (addbyte exA 33) (some ⟨8, [65, 98, 33]⟩) := addbyte_exact exA_ok 33

/-- **C55**: `js_adduint16`: two bytes, the higher one first. -/
theorem adduint16_exact {s : Js} (hs : Ok s) (n : Nat) (hn : n ≤ 65535) :
    Did (adduint16 s n) (JStr.add s.abs [UInt8.ofNat (n / 256), UInt8.ofNat (n % 256)]) := by
  unfold adduint16
  simp only [hs.sane, Bool.not_true, Bool.false_eq_true, if_false]
  rw [if_neg (show ¬ ((n : Int) < 0 ∨ (n : Int) > 65535) by omega)]
  exact add_exact hs [UInt8.ofNat (n / 256), UInt8.ofNat (n % 256)]

example : Did (adduint16 exA 258) (some ⟨8, [65, 98, 1, 2]⟩) := adduint16_exact exA_ok 258 (by decide)

theorem adduint16_range {s : Js} {n : Int} (h : n < 0 ∨ n > 65535) : adduint16 s n = .err := by
  unfold adduint16
  split_ifs <;> rfl

/-- **C55**: `js_adduint32`: four bytes, the highest one first. -/
theorem adduint32_exact {s : Js} (hs : Ok s) (n : Nat) :
    Did (adduint32 s n) (JStr.add s.abs [UInt8.ofNat (n / 16777216), UInt8.ofNat (n / 65536 % 256),
      UInt8.ofNat (n / 256 % 256), UInt8.ofNat (n % 256)]) := by
  unfold adduint32
  simp only [hs.sane, Bool.not_true, Bool.false_eq_true, if_false]
  exact add_exact hs [UInt8.ofNat (n / 16777216), UInt8.ofNat (n / 65536 % 256),
    UInt8.ofNat (n / 256 % 256), UInt8.ofNat (n % 256)]

example : Did (adduint32 exA 16909060) (some ⟨8, [65, 98, 1, 2, 3, 4]⟩) := adduint32_exact exA_ok 16909060

/-- **C55**: `js_changebyte`. -/
theorem changebyte_exact {s : Js} (hs : Ok s) (b : UInt8) (i : Nat) (hi : i < 4294967296) :
    Did (changebyte s b i) (JStr.change s.abs i b) := by
  unfold changebyte JStr.change
  have e1 : s.abs.bytes.length = s.count := hs.len
  have hb := hs.block
  have hf := hs.fits
  rw [e1, u32_nat hi]
  simp only [hs.sane, Bool.not_true, Bool.false_eq_true, if_false, Int.toNat_natCast]
  by_cases h : i < s.count
  · rw [if_neg (by omega), if_pos h, wrs_in (by simp; omega), Res.ok_bind]
    refine ⟨⟨by simp; omega, hf, hs.small⟩, ?_⟩
    simp only [abs, contents, JStr.mk.injEq, true_and]
    rw [List.set_eq_take_append_cons_drop, if_pos (by simp; omega), List.take_take,
      Nat.min_eq_left (by omega), List.drop_take]
    simp only [List.append_assoc, List.cons_append, List.nil_append, List.length_cons, List.length_nil]
    rw [List.take_append, List.length_take, Nat.min_eq_left (by omega), List.take_take,
      Nat.min_eq_right (by omega), show s.count - i = (s.count - (i + 1)) + 1 by omega, List.take_succ_cons]
  · rw [if_pos (by omega), if_neg h]; trivial

example : Did (changebyte exT 33 1) (some ⟨8, [99, 33, 101]⟩) := changebyte_exact exT_ok 33 1 (by decide)

/-- **C55**: `js_str2js` with a string that is long enough. -/
theorem str2js_exact {s : Js} (hs : Ok s) (str : List UInt8) (n : Nat) (hn : n ≤ str.length)
    (hn' : n < 4294967296) :
    Did (str2js s str n) (if n ≤ s.max then some ⟨s.max, str.take n⟩ else none) := by
  unfold str2js
  rw [u32_nat hn']
  by_cases h : n ≤ s.max
  · rw [if_neg (by omega), if_pos h]
    simp only [hs.sane, Bool.not_true, Bool.false_eq_true, if_false, Int.toNat_natCast]
    rw [rds_in (by omega), Res.ok_bind, List.drop_zero]
    have hl : (str.take n).length = n := by simp; omega
    obtain ⟨buf, hw, hok, hc⟩ := did_front hs (str.take n) (by omega)
    rw [hw, Res.ok_bind]
    rw [hl] at hok hc
    exact ⟨hok, by simp only [abs, hc]⟩
  · rw [if_pos (by omega), if_neg h]; trivial

example : Did (str2js exA [1, 2, 3] 2) (some ⟨8, [1, 2]⟩) :=
  str2js_exact exA_ok [1, 2, 3] 2 (by decide) (by decide)

/-- **C55**: `js_substr_append`. -/
theorem substrAppend_exact {s d : Js} (hs : Ok s) (hd : Ok d) (i n : Nat) (hi : i < 1073741824)
    (hn : n < 1073741824) (junk : List UInt8) :
    Did (substrAppend s d i n junk)
      (if i < s.count ∧ i + n ≤ s.count then JStr.add d.abs ((s.contents.drop i).take n) else none) := by
  unfold substrAppend
  rw [show ((n : Int) + 2) = ((n + 2 : Nat) : Int) by omega, u32_nat (by omega),
    show ((i : Int) + n) = ((i + n : Nat) : Int) by omega, u32_nat (by omega)]
  obtain ⟨htok, htabs⟩ := create_ok (max := n + 2) (by omega) junk
  simp only
  have hsub := substr_exact hs htok i n hi hn
  rw [htabs] at hsub
  unfold JStr.substr at hsub
  have e1 : s.abs.bytes.length = s.count := hs.len
  rw [e1] at hsub
  by_cases h2 : s.count < i + n
  · rw [if_pos h2, if_neg (by omega)]; trivial
  rw [if_neg h2]
  by_cases h1 : i < s.count
  · rw [if_pos (show i < s.count ∧ i + n ≤ s.count ∧ n < n + 2 by omega)] at hsub
    rw [if_pos (show i < s.count ∧ i + n ≤ s.count by omega)]
    cases ht : substr s (create (n + 2) junk) (↑i) (↑n) with
    | ok t =>
      rw [ht] at hsub
      obtain ⟨tok, tabs⟩ := hsub
      rw [Res.ok_bind]
      have := append_exact tok hd
      rw [tabs] at this
      unfold JStr.append at this
      unfold JStr.add
      rw [show (s.abs.bytes.drop i).take n = (s.contents.drop i).take n from rfl] at this
      simp only [Nat.add_comm] at this ⊢
      exact this
    | err => rw [ht] at hsub; exact hsub.elim
    | ub => rw [ht] at hsub; exact hsub.elim
  · rw [if_neg (by omega)] at hsub
    rw [if_neg (by omega)]
    cases ht : substr s (create (n + 2) junk) (↑i) (↑n) with
    | ok t => rw [ht] at hsub; exact hsub.elim
    | err => trivial
    | ub => rw [ht] at hsub; exact hsub.elim

example : Did (substrAppend exT exA 1 2 []) (some ⟨8, [65, 98, 100, 101]⟩) :=
  substrAppend_exact exT_ok exA_ok 1 2 (by decide) (by decide) []

theorem lower_spec (c : UInt8) : lower c = Spec.lower c := by
  have : ∀ n : Fin 256, lower (UInt8.ofNat n) = Spec.lower (UInt8.ofNat n) := by decide +kernel
  have h := this ⟨c.toNat, c.toNat_lt⟩
  simpa only [UInt8.ofNat_toNat] using h

/-- **C55**: `js_tolower`. -/
theorem tolower_exact {s : Js} (hs : Ok s) :
    Did (tolower s) (some ⟨s.max, s.contents.map Spec.lower⟩) := by
  rw [← funext lower_spec]
  unfold tolower
  simp only [hs.sane, Bool.not_true, Bool.false_eq_true, if_false, contents_rds hs, Res.ok_bind]
  have hl : (s.contents.map lower).length = s.count := by simp [hs.len]
  obtain ⟨buf, hw, hok, hc⟩ := did_front hs (s.contents.map lower) (by rw [hl]; exact hs.fits)
  rw [hw, Res.ok_bind]
  rw [hl] at hok hc
  exact ⟨hok, by simp only [abs, hc]⟩

example : Did (tolower exA) (some ⟨8, [97, 98]⟩) := tolower_exact exA_ok

/-! ### C55: reading strings -/

/-- **C55**: `js_issame` is equality of contents. -/
theorem issame_exact {a b : Js} (ha : Ok a) (hb : Ok b) : issame a b = .ok (a.contents == b.contents) := by
  unfold issame
  simp only [ha.sane, hb.sane, Bool.not_true, Bool.or_self, Bool.false_eq_true, if_false]
  by_cases h : a.count = b.count
  · rw [if_neg (by omega), contents_rds ha, Res.ok_bind, h, contents_rds hb, Res.ok_bind]
  · rw [if_pos h]
    congr 1
    symm
    rw [beq_eq_false_iff_ne]
    intro e
    have := congrArg List.length e
    rw [ha.len, hb.len] at this
    exact h this

example : issame exA exT = .ok false := issame_exact exA_ok exT_ok

theorem rd_contents {s : Js} (hs : Ok s) {i : Nat} (hi : i < s.count) :
    rd s.buf i = .ok (s.contents[i]'(by rw [hs.len]; exact hi)) := by
  have := hs.block; have := hs.fits
  rw [rd_in (by omega)]
  simp [contents]

/-- **C55**: `js_val`. -/
theorem val_exact {s : Js} (hs : Ok s) (i : Nat) (hi : i < 4294967296) :
    val s i = match s.contents[i]? with | some b => .ok b.toNat | none => .err := by
  unfold val
  rw [u32_nat hi]
  simp only [hs.sane, Bool.not_true, Bool.false_eq_true, if_false, Int.toNat_natCast]
  by_cases h : i < s.count
  · rw [if_neg (by omega), rd_contents hs h, Res.ok_bind, List.getElem?_eq_getElem (by rw [hs.len]; exact h)]
  · rw [if_pos (by omega), List.getElem?_eq_none (by rw [hs.len]; omega)]

example : val exT 2 = .ok 101 := val_exact exT_ok 2 (by decide)

/-- **C55**: `js_readuint16` in a string of at least two bytes. -/
theorem readuint16_exact_partial {s : Js} (hs : Ok s) (h2 : 2 ≤ s.count) (i : Nat) :
    readuint16 s i = if h : i + 2 ≤ s.count then
      .ok ((s.contents[i]'(by rw [hs.len]; omega)).toNat * 256 +
        (s.contents[i + 1]'(by rw [hs.len]; omega)).toNat)
    else .err := by
  have hf := hs.fits
  have hsm := hs.small
  unfold readuint16
  rw [show ((s.count : Int) - 2) = ((s.count - 2 : Nat) : Int) by omega, u32_nat (by omega)]
  simp only [hs.sane, Bool.not_true, Bool.false_eq_true, if_false]
  split_ifs with h1 h3 h3
  · omega
  · rfl
  · rw [rd_contents hs (by omega), Res.ok_bind, rd_contents hs (by omega), Res.ok_bind]
  · omega

example : readuint16 exT 1 = .ok 25701 := readuint16_exact_partial exT_ok (by decide) 1

/-- In a shorter string it gives bytes that are not part of the string, or reads outside the
block, instead of an error. -/
theorem readuint16_short_stale :
    ∃ s : Js, Ok s ∧ s.contents = [] ∧ readuint16 s 0 = .ok 258 ∧ readuint16 s 9 = .ub :=
  ⟨⟨0, 1, [1, 2, 3, 4]⟩, ⟨rfl, by decide, by decide⟩, rfl, by decide, by decide⟩

/-- The same for single bytes of an empty string. -/
theorem readbyte_empty_stale :
    ∃ s : Js, Ok s ∧ s.contents = [] ∧ readbyte s 0 = .ok 1 ∧ readbyte s 9 = .ub :=
  ⟨⟨0, 1, [1, 2, 3, 4]⟩, ⟨rfl, by decide, by decide⟩, rfl, by decide, by decide⟩

/-- What `js_adduint16` put at the end of a string is read back. -/
theorem uint16_round_trip {s t : Js} (hs : Ok s) {n : Nat} (hn : n ≤ 65535)
    (h : adduint16 s n = .ok t) : readuint16 t s.count = .ok n := by
  have ha := adduint16_exact hs n hn
  rw [h] at ha
  unfold JStr.add at ha
  split at ha
  · obtain ⟨tok, tabs⟩ := ha
    have hc : t.contents = s.contents ++ [UInt8.ofNat (n / 256), UInt8.ofNat (n % 256)] :=
      congrArg JStr.bytes tabs
    have hl : t.count = s.count + 2 := by
      rw [← tok.len, hc, ← hs.len]; simp
    rw [readuint16_exact_partial tok (by omega), dif_pos (by omega)]
    have e0 : t.contents[s.count]'(by rw [tok.len]; omega) = UInt8.ofNat (n / 256) := by
      simp only [hc]
      rw [List.getElem_append_right (by rw [hs.len]; exact Nat.le_refl _)]
      simp [hs.len]
    have e1 : t.contents[s.count + 1]'(by rw [tok.len]; omega) = UInt8.ofNat (n % 256) := by
      simp only [hc]
      rw [List.getElem_append_right (by rw [hs.len]; omega)]
      simp [hs.len]
    rw [e0, e1, UInt8.toNat_ofNat_of_lt' (show _ < 256 by omega), UInt8.toNat_ofNat_of_lt' (show _ < 256 by omega)]
    congr 1; omega
  · exact ha.elim

example : readuint16 ⟨4, 8, [65, 98, 1, 2, 9, 9, 9, 9, 9, 9, 9]⟩ 2 = .ok 258 :=
  uint16_round_trip (s := exA) exA_ok (n := 258) (by decide) (by decide)

end Js
end Mara
