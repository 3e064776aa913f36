import Verif.Mara.FetchModel
import Verif.Spec.Transfer
/-!
# What fetchzone prints is text of zone files

Numbers, data and names.
-/

namespace Mara
namespace Fetch

open Spec (ascii Name encName dotted lower)
open Spec.ZoneText
open Spec.Transfer (PlainName)

/-! ## Numbers -/

theorem value_snoc (l : List UInt8) (c : UInt8) : value (l ++ [c]) = value l * 10 + (c.toNat - 48) := by
  simp [value, List.foldl_append]

theorem digit_facts : ∀ n : Fin 10, isDigit (UInt8.ofNat (if n.val < 10 then 48 + n.val else 87 + n.val)) = true ∧
    (UInt8.ofNat (if n.val < 10 then 48 + n.val else 87 + n.val)).toNat - 48 = n.val := by decide +kernel

theorem digits_ok : ∀ (f n : Nat), n < 10 ^ f → 0 < f → (∀ c ∈ digits 10 f n, isDigit c = true) ∧ value (digits 10 f n) = n ∧
    digits 10 f n ≠ [] ∧ (digits 10 f n).length ≤ f ∧ (n = 0 → digits 10 f n = [48])
  | 0, _, _, h => absurd h (by omega)
  | f + 1, n, h, _ => by
    have hd := digit_facts ⟨n % 10, by omega⟩
    rw [digits]
    dsimp only at hd ⊢
    by_cases h1 : n < 10
    · rw [if_pos h1]
      refine ⟨by simpa using hd.1, ?_, by simp, by simp, ?_⟩
      · have := value_snoc [] (UInt8.ofNat (if n % 10 < 10 then 48 + n % 10 else 87 + n % 10))
        rw [List.nil_append] at this
        rw [this, hd.2]
        simp [value]
        omega
      · intro h0
        subst h0
        rfl
    · rw [if_neg h1]
      have hf : 0 < f := by
        rcases Nat.eq_zero_or_pos f with h0 | h0
        · subst h0; simp at h; omega
        · exact h0
      obtain ⟨h2, h3, h4, h5, -⟩ := digits_ok f (n / 10) (by rw [Nat.pow_succ] at h; omega) hf
      refine ⟨?_, ?_, by simp, by simp; omega, by omega⟩
      · intro c hc
        rcases List.mem_append.1 hc with hc | hc
        · exact h2 c hc
        · cases List.mem_singleton.1 hc; exact hd.1
      · rw [value_snoc, h3, hd.2]
        omega

theorem dec_ok {n : Nat} (h : n ≤ 2147483647) : NumOk (dec n) ∧ value (dec n) = n := by
  obtain ⟨h1, h2, h3, h4, h5⟩ := digits_ok 20 n (by omega) (by omega)
  exact ⟨⟨h1, h3, by unfold dec; omega, fun h0 => h5 (by unfold dec at h0; omega), by unfold dec; omega⟩, h2⟩

theorem dec_digits {n : Nat} (h : n < 4294967296) : ∀ c ∈ dec n, isDigit c = true :=
  (digits_ok 20 n (by omega) (by omega)).1

theorem dec_length {n : Nat} (h : n < 4294967296) : (dec n).length ≤ 20 :=
  (digits_ok 20 n (by omega) (by omega)).2.2.2.1

/-! ## Groups of IPv6 addresses -/

theorem hex_facts : ∀ n : Fin 16, hexDigit (UInt8.ofNat (if n.val < 10 then 48 + n.val else 87 + n.val)) = some n.val := by decide +kernel

def hexValue (l : List UInt8) : Nat := l.foldl (fun v c => v * 16 + (hexDigit c).getD 0) 0

theorem hexes_ok : ∀ (f n : Nat), n < 16 ^ f → 0 < f → (∀ c ∈ digits 16 f n, (hexDigit c).isSome) ∧ hexValue (digits 16 f n) = n ∧
    digits 16 f n ≠ [] ∧ ∀ k, 0 < k → n < 16 ^ k → (digits 16 f n).length ≤ k
  | 0, _, _, h => absurd h (by omega)
  | f + 1, n, h, _ => by
    have hd := hex_facts ⟨n % 16, by omega⟩
    rw [digits]
    dsimp only at hd ⊢
    by_cases h1 : n < 16
    · rw [if_pos h1]
      refine ⟨?_, ?_, by simp, fun k hk _ => hk⟩
      · intro c hc
        cases List.mem_singleton.1 hc
        rw [hd]; rfl
      · simp only [hexValue, List.foldl_cons, List.foldl_nil, hd, Option.getD_some]
        omega
    · rw [if_neg h1]
      have hf : 0 < f := by
        rcases Nat.eq_zero_or_pos f with h0 | h0
        · subst h0; simp at h; omega
        · exact h0
      obtain ⟨h2, h3, h4, h5⟩ := hexes_ok f (n / 16) (by rw [Nat.pow_succ] at h; omega) hf
      refine ⟨?_, ?_, by simp, ?_⟩
      · intro c hc
        rcases List.mem_append.1 hc with hc | hc
        · exact h2 c hc
        · cases List.mem_singleton.1 hc; rw [hd]; rfl
      · unfold hexValue at h3 ⊢
        simp only [List.foldl_append, List.foldl_cons, List.foldl_nil, hd, Option.getD_some, h3]
        omega
      · intro k hk hn
        match k, hk with
        | k + 1, _ =>
          have hk0 : 0 < k := by
            rcases Nat.eq_zero_or_pos k with h0 | h0
            · subst h0; simp at hn; omega
            · exact h0
          have := h5 k hk0 (by rw [Nat.pow_succ] at hn; omega)
          simp only [List.length_append, List.length_cons, List.length_nil]
          omega

theorem hex_group (a b : UInt8) : Ip6.GroupOk (hex (a.toNat * 256 + b.toNat)) ∧ Ip6.group (hex (a.toNat * 256 + b.toNat)) = [a, b] := by
  have ha := a.toNat_lt
  have hb := b.toNat_lt
  obtain ⟨h1, h2, h3, h4⟩ := hexes_ok 20 (a.toNat * 256 + b.toNat) (by omega) (by omega)
  refine ⟨⟨List.length_pos_iff.2 h3, h4 4 (by omega) (by omega), h1⟩, ?_⟩
  have : Ip6.group (hex (a.toNat * 256 + b.toNat)) = [UInt8.ofNat (hexValue (hex (a.toNat * 256 + b.toNat)) / 256), UInt8.ofNat (hexValue (hex (a.toNat * 256 + b.toNat)))] := rfl
  rw [this]
  unfold hex
  rw [h2, show (a.toNat * 256 + b.toNat) / 256 = a.toNat by omega, UInt8.ofNat_toNat]
  congr 2
  apply UInt8.toNat_inj.1
  simp only [UInt8.toNat_ofNat']
  omega

/-- The groups as the specification has them. -/
def groupList : List UInt8 → List (List UInt8)
  | a :: b :: r => hex (a.toNat * 256 + b.toNat) :: groupList r
  | _ => []

theorem groupList_ok : ∀ (d : List UInt8), d.length % 2 = 0 → (∀ g ∈ groupList d, Ip6.GroupOk g) ∧ (groupList d).flatMap Ip6.group = d ∧
    (groupList d).length = d.length / 2 ∧ (d ≠ [] → Ip6.join (groupList d) ++ [58] = groups d)
  | [], _ => ⟨fun _ h => (by cases h), rfl, rfl, fun h => absurd rfl h⟩
  | [_], h => absurd h (by simp)
  | a :: b :: r, h => by
    obtain ⟨h1, h2, h3, h4⟩ := groupList_ok r (by simp only [List.length_cons] at h; omega)
    have hg := hex_group a b
    refine ⟨?_, ?_, ?_, fun _ => ?_⟩
    · intro g hg'
      rcases List.mem_cons.1 hg' with rfl | hg'
      · exact hg.1
      · exact h1 g hg'
    · rw [groupList, List.flatMap_cons, hg.2, h2]; rfl
    · simp only [groupList, List.length_cons, h3]; omega
    · rw [groupList, groups]
      match r, h4 with
      | [], _ => rfl
      | [_], _ => simp at h
      | x :: y :: r', h4 =>
        have := h4 (by simp)
        rw [← this, groupList, Ip6.join]
        · simp
        · simp

/-! ## Data -/

theorem nibble_hex : ∀ n : Fin 16, hexDigit (nibble n.val) = some n.val := by decide +kernel

theorem hexEsc_bit (c : UInt8) : ∃ b : Bit, b.Ok ∧ b.text = hexEsc c ∧ b.data = [c] := by
  have hc := c.toNat_lt
  have h1 := nibble_hex ⟨c.toNat / 16, by omega⟩
  have h2 := nibble_hex ⟨c.toNat % 16, by omega⟩
  dsimp only at h1 h2
  refine ⟨.hex (nibble (c.toNat / 16)) (nibble (c.toNat % 16)), ⟨by rw [h1]; rfl, by rw [h2]; rfl⟩, rfl, ?_⟩
  simp only [Bit.data, h1, h2, Option.getD_some]
  rw [show c.toNat / 16 * 16 + c.toNat % 16 = c.toNat by omega, UInt8.ofNat_toNat]

theorem quotable_facts : ∀ n : Fin 256, ¬ (UInt8.ofNat n < 32 ∨ UInt8.ofNat n > 122 ∨ UInt8.ofNat n = 35) → UInt8.ofNat n ≠ 39 →
    Bit.isQuotable (UInt8.ofNat n) = true := by decide +kernel

theorem quotable {c : UInt8} (h : ¬ (c < 32 ∨ c > 122 ∨ c = 35)) (h' : c ≠ 39) : Bit.isQuotable c = true := by
  have := quotable_facts ⟨c.toNat, c.toNat_lt⟩
  simp only [UInt8.ofNat_toNat] at this
  exact this h h'

theorem escLoop_str : ∀ (d : List UInt8),
    (∃ x : Str, (∀ b ∈ x, b.Ok) ∧ Str.text x = escLoop false d ∧ Str.data x = d ∧ (escLoop false d).length ≤ 4 * d.length + 2) ∧
    (∃ (l : List UInt8) (x : Str), (∀ c ∈ l, Bit.isQuotable c = true) ∧ (∀ b ∈ x, b.Ok) ∧ l ++ 39 :: Str.text x = escLoop true d ∧
      l ++ Str.data x = d ∧ (escLoop true d).length ≤ 4 * d.length + 3)
  | [] => ⟨⟨[], fun _ h => (by cases h), rfl, rfl, by simp [escLoop]⟩,
      ⟨[], [], fun _ h => (by cases h), fun _ h => (by cases h), rfl, rfl, by simp [escLoop]⟩⟩
  | c :: r => by
    obtain ⟨⟨x, hx, hxt, hxd, hxl⟩, ⟨l, y, hl, hy, hyt, hyd, hyl⟩⟩ := escLoop_str r
    by_cases h1 : c < 32 ∨ c > 122 ∨ c = 35
    · obtain ⟨b, hb, hbt, hbd⟩ := hexEsc_bit c
      have hok : ∀ b' ∈ b :: x, b'.Ok := fun b' h => by
        rcases List.mem_cons.1 h with rfl | h
        · exact hb
        · exact hx b' h
      have e1 : Str.text (b :: x) = hexEsc c ++ escLoop false r := by rw [Str.text, List.flatMap_cons, hbt, ← hxt]; rfl
      have e2 : Str.data (b :: x) = c :: r := by
        rw [Str.data, List.flatMap_cons, hbd, show List.flatMap Bit.data x = Str.data x from rfl, hxd]; rfl
      have hh : (hexEsc c).length = 4 := rfl
      refine ⟨⟨b :: x, hok, ?_, e2, ?_⟩, ⟨[], b :: x, fun _ h => (by cases h), hok, ?_, e2, ?_⟩⟩
      · rw [escLoop, if_pos h1, e1]; simp
      · rw [escLoop, if_pos h1]; simp only [List.length_append, List.length_cons, hh]; simp; omega
      · rw [escLoop, if_pos h1, e1]; simp
      · rw [escLoop, if_pos h1]; simp only [List.length_append, List.length_cons, hh]; simp; omega
    · by_cases h2 : c = 39
      · subst h2
        have hq : Bit.quote.Ok := trivial
        refine ⟨⟨.quote :: x, ?_, ?_, ?_, ?_⟩, ⟨[], .quote :: .quoted l :: y, fun _ h => (by cases h), ?_, ?_, ?_, ?_⟩⟩
        · intro b' h
          rcases List.mem_cons.1 h with rfl | h
          · exact hq
          · exact hx b' h
        · rw [escLoop, if_neg h1, if_pos rfl, ← hxt]; rfl
        · rw [Str.data, List.flatMap_cons, show List.flatMap Bit.data x = Str.data x from rfl, hxd]; rfl
        · rw [escLoop, if_neg h1, if_pos rfl]
          simp only [List.length_append, List.length_cons]; simp; omega
        · intro b' h
          rcases List.mem_cons.1 h with rfl | h
          · exact hq
          · rcases List.mem_cons.1 h with rfl | h
            · exact hl
            · exact hy b' h
        · rw [escLoop, if_neg h1, if_pos rfl, ← hyt]
          simp [Str.text, Bit.text]
        · rw [Str.data, List.flatMap_cons, List.flatMap_cons, show List.flatMap Bit.data y = Str.data y from rfl]
          simp only [Bit.data, List.nil_append, List.cons_append, hyd]
        · rw [escLoop, if_neg h1, if_pos rfl]
          simp only [List.length_append, List.length_cons]; simp; omega
      · have hq := quotable h1 h2
        have hl' : ∀ c' ∈ c :: l, Bit.isQuotable c' = true := fun c' h => by
          rcases List.mem_cons.1 h with rfl | h
          · exact hq
          · exact hl c' h
        refine ⟨⟨.quoted (c :: l) :: y, ?_, ?_, ?_, ?_⟩, ⟨c :: l, y, hl', hy, ?_, ?_, ?_⟩⟩
        · intro b' h
          rcases List.mem_cons.1 h with rfl | h
          · exact hl'
          · exact hy b' h
        · rw [escLoop, if_neg h1, if_neg h2, ← hyt]
          simp [Str.text, Bit.text]
        · rw [Str.data, List.flatMap_cons, show List.flatMap Bit.data y = Str.data y from rfl]
          simp only [Bit.data, List.cons_append, hyd]
        · rw [escLoop, if_neg h1, if_neg h2]
          simp only [List.length_append, List.length_cons]; simp; omega
        · rw [escLoop, if_neg h1, if_neg h2, ← hyt]; rfl
        · rw [List.cons_append, hyd]
        · rw [escLoop, if_neg h1, if_neg h2]
          simp only [List.length_append, List.length_cons]; simp; omega

/-- **C79, data.**  Any bytes are printed as a string that says them. -/
theorem escape_str (d : List UInt8) : ∃ x : Str, (∀ b ∈ x, b.Ok) ∧ Str.text x = escape d ∧ Str.data x = d ∧ (escape d).length ≤ 4 * d.length + 2 :=
  (escLoop_str d).1

theorem escape_some {d : List UInt8} (h : d ≠ []) : escape d ≠ [] := by
  match d, h with
  | c :: r, _ =>
    unfold escape
    rw [escLoop]
    split
    · simp [hexEsc]
    · split <;> simp

end Fetch
end Mara
