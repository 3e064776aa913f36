import Verif.Mara.Csv2Faults
/-!
# Properties: IPv6 addresses and the stack of origins in zone files
-/

namespace Mara
namespace Csv2

open Dw (Res)
open Spec (Name ascii dotted encName)
open Spec.ZoneText

/-! ## Addresses -/

/-- **C76.** An address of eight groups, or one with `::` in it, is read as its sixteen bytes, whatever else is being read. -/
theorem address_read (s : Stream) (i : Ip6) (h : i.Ok) : ip6ToRaw i.text s = .ok (some i.data, s) ∧ i.data.length = 16 :=
  ⟨ip6ToRaw_run i h, ip6_data h⟩

theorem setAll_safe : ∀ (v o : List Nat) (p : Int), 0 ≤ p → ∃ o', setAll o p v = some o' ∧ o'.length = o.length
  | [], o, _, _ => ⟨o, rfl, rfl⟩
  | x :: v, o, p, h => by
    obtain ⟨o', h1, h2⟩ := setAll_safe v (o.set p.toNat x) (p + 1) (by omega)
    refine ⟨o', ?_, by simpa using h2⟩
    rw [setAll, setNybble, if_neg (by omega)]
    exact h1

/-- Refused, or all 32 halves. -/
def Sound (s : Stream) (r : Res (Option (List Nat) × Stream)) : Prop := ∃ d, r = .ok (d, s) ∧ ∀ o, d = some o → o.length = 32

theorem sound_fail (s : Stream) : Sound s ((fail : P (List Nat)) s) := ⟨none, rfl, by simp⟩

theorem sound_pure {o : List Nat} (h : o.length = 32) (s : Stream) : Sound s ((pure o : P (List Nat)) s) := by
  refine ⟨some o, rfl, ?_⟩
  intro o' e
  cases e
  exact h

theorem countHere_split (p : UInt8 → Bool) : ∀ t : List UInt8, ∃ a, t = a ++ t.drop (countHere p t) ∧ (∀ x ∈ a, p x = true) ∧ a.length = countHere p t
  | [] => ⟨[], rfl, by simp, rfl⟩
  | c :: t => by
    obtain ⟨a, h1, h2, h3⟩ := countHere_split p t
    by_cases hc : p c = true
    · have hk : countHere p (c :: t) = countHere p t + 1 := by simp [countHere, hc]
      rw [hk]
      refine ⟨c :: a, ?_, ?_, by simp [h3]⟩
      · rw [List.drop_succ_cons, List.cons_append, ← h1]
      · intro x hx
        rcases List.mem_cons.mp hx with rfl | hx
        · exact hc
        · exact h2 x hx
    · have hk : countHere p (c :: t) = 0 := by simp [countHere, hc]
      rw [hk]
      exact ⟨[], rfl, by simp, rfl⟩

theorem colons_take (t : List UInt8) : t.countP (· == 58) = countHere (· == 58) t + (t.drop (countHere (· == 58) t)).countP (· == 58) := by
  obtain ⟨a, h1, h2, h3⟩ := countHere_split (· == 58) t
  conv_lhs => rw [h1]
  rw [List.countP_append, List.countP_eq_length.mpr h2, h3]

theorem colons_hex (t : List UInt8) : t.countP (· == 58) = (t.drop (countHere (fun b => (nybble b).isSome) t)).countP (· == 58) := by
  obtain ⟨a, h1, h2, -⟩ := countHere_split (fun b => (nybble b).isSome) t
  conv_lhs => rw [h1]
  rw [List.countP_append, List.countP_eq_zero.mpr, Nat.zero_add]
  intro x hx
  have := h2 x hx
  simp only [beq_iff_eq]
  rintro rfl
  revert this
  decide

/-- How far the halves have come, by the number of colons: one colon more than that if the text begins with one. -/
def At (c : Nat) (place : Int) : Prop := place = 4 * c ∨ (1 ≤ c ∧ place = 4 * c - 4)

theorem ip6Loop_safe : ∀ (n : Nat) (t : List UInt8) (place : Int) (c : Nat) (sk first : Bool) (o : List Nat) (s : Stream),
    0 ≤ place → o.length = 32 → (sk = false → At c place ∧ c + t.countP (· == 58) ≤ 9) → (first = true → c = 0) →
    Sound s (ip6Loop n t place c sk first o s)
  | 0, t, place, c, sk, first, o, s, _, _, _, _ => sound_fail s
  | n + 1, t, place, c, sk, first, o, s, hp, ho, hsk, hf => by
    have zeros : ∀ (t : List UInt8) (place : Int) (first : Bool) (o : List Nat), 0 ≤ place → o.length = 32 →
        (sk = false → At c (place - if first then 0 else 4) ∧ c + t.countP (· == 58) ≤ 9) → (first = true → c = 0) →
        Sound s ((let q := countHere (· == 58) t
        if q = 2 then
          if sk then fail
          else
            let cc : Int := (t.drop 1).countP (· == 58)
            let cc := if first then cc - 1 else cc
            ip6Loop n (t.drop 2) (place + 4 * (8 - (c + 1) - cc)) (c + 1) true false o
        else if q = 1 then ip6Loop n (t.drop 1) place (c + 1) sk false o
        else if t = [] then pure o
        else fail : P (List Nat)) s) := by
      intro t place first o hp ho hsk hf
      have hct := colons_take t
      by_cases h2 : countHere (· == 58) t = 2
      · simp only [h2, if_true]
        cases hs : sk with
        | true => exact sound_fail s
        | false =>
          obtain ⟨hat, hle⟩ := hsk hs
          rw [h2] at hct
          have h1 : (t.drop 1).countP (· == 58) = 1 + (t.drop 2).countP (· == 58) := by
            obtain ⟨a, b, r, rfl⟩ : ∃ a b r, t = a :: b :: r := by
              match t with
              | a :: b :: r => exact ⟨a, b, r, rfl⟩
              | [] => simp [countHere] at h2
              | [a] =>
                exfalso
                by_cases ha : a = 58 <;> simp [countHere, ha] at h2
            have hb : b = 58 := by
              have := h2
              by_cases ha : a = 58
              · by_cases hb : b = 58
                · exact hb
                · simp [countHere, ha, hb] at this
              · simp [countHere, ha] at this
            subst hb
            simp
            omega
          apply ip6Loop_safe n _ _ _ true false o s
          · simp only [h1]
            unfold At at hat
            cases hfi : first with
            | true =>
              have := hf hfi
              simp only [hfi, if_true] at hat ⊢
              omega
            | false =>
              simp only [hfi, Bool.false_eq_true, if_false] at hat ⊢
              omega
          · exact ho
          · intro h; cases h
          · intro h; cases h
      · simp only [h2, if_false]
        by_cases h3 : countHere (· == 58) t = 1
        · simp only [h3, if_true]
          rw [h3] at hct
          apply ip6Loop_safe n _ _ _ sk false o s hp ho
          · intro hs
            obtain ⟨hat, hle⟩ := hsk hs
            refine ⟨?_, by omega⟩
            unfold At at hat ⊢
            cases hfi : first with
            | true =>
              have := hf hfi
              simp only [hfi, if_true] at hat
              right
              omega
            | false =>
              simp only [hfi, Bool.false_eq_true, if_false] at hat
              omega
          · intro h; cases h
        · simp only [h3, if_false]
          by_cases h4 : t = []
          · rw [if_pos h4]
            exact sound_pure ho s
          · rw [if_neg h4]
            exact sound_fail s
    rw [ip6Loop]
    by_cases h1 : ¬ (place < 32 ∧ t ≠ [])
    · rw [if_pos h1]
      by_cases h2 : t = []
      · rw [if_pos h2]
        exact sound_pure ho s
      · rw [if_neg h2]
        exact sound_fail s
    · rw [if_neg h1]
      simp only []
      by_cases h2 : first = true ∧ countHere (fun b => (nybble b).isSome) t = 0
      · rw [if_pos h2]
        refine zeros t place true o hp ho (fun hs => ?_) (fun _ => hf h2.1)
        have := hsk hs
        simpa using this
      · rw [if_neg h2]
        by_cases h3 : countHere (fun b => (nybble b).isSome) t > 4 ∨ countHere (fun b => (nybble b).isSome) t < 1
        · rw [if_pos h3]
          exact sound_fail s
        · rw [if_neg h3]
          obtain ⟨o', e1, e2⟩ := setAll_safe (List.replicate (4 - countHere (fun b => (nybble b).isSome) t) 0 ++
            (t.take (countHere (fun b => (nybble b).isSome) t)).map fun b => (nybble b).getD 0) o place hp
          rw [e1]
          refine zeros _ (place + 4) false o' (by omega) (by omega) (fun hs => ?_) (fun h => by cases h)
          have := hsk hs
          rw [colons_hex t] at this
          simpa using this

theorem joinNybbles_length : ∀ (k : Nat) (o : List Nat), o.length = 2 * k → (joinNybbles o).length = k
  | 0, [], _ => rfl
  | k + 1, a :: b :: r, h => by
    rw [joinNybbles, List.length_cons, joinNybbles_length k r (by simp at h; omega)]
  | 0, _ :: _, h => by simp at h
  | _ + 1, [], h => by simp at h
  | _ + 1, [_], h => by simp at h; omega

/-- **C76.** Any text with at most nine colons is either refused or read as sixteen bytes, and nothing is written outside of
the buffer.  The full statement is without the bound; see `ip6_before` for ten colons. -/
theorem address_safe_partial (s : Stream) (t : List UInt8) (h : t.countP (· == 58) ≤ 9) :
    ∃ d, ip6ToRaw t s = .ok (d, s) ∧ ∀ x, d = some x → x.length = 16 := by
  unfold ip6ToRaw
  by_cases hl : t.length ≥ 256
  · rw [if_pos hl]
    exact ⟨none, rfl, by simp⟩
  · rw [if_neg hl]
    obtain ⟨d, e, hd⟩ := ip6Loop_safe (t.length + 1) t 0 0 false true (List.replicate 32 0) s (by omega) (by simp)
      (fun _ => ⟨Or.inl rfl, by omega⟩) (fun _ => rfl)
    cases d with
    | none => exact ⟨none, bind_none e, by simp⟩
    | some o =>
      refine ⟨some (joinNybbles o), by rw [bind_ok e]; rfl, ?_⟩
      intro x hx
      cases hx
      exact joinNybbles_length 16 o (hd o rfl)

-- the bound is sharp
example : (ascii "::1:2:3:4:5:6:7:8:9").countP (· == 58) = 10 ∧ ip6ToRaw (ascii "::1:2:3:4:5:6:7:8:9") (Stream.start 2 []) = .ub ∧
    (ascii "::1:2:3:4:5:6:7:8").countP (· == 58) = 9 ∧ ip6ToRaw (ascii "::1:2:3:4:5:6:7:8") (Stream.start 2 []) ≠ .ub := by decide +kernel

example : ip6ToRaw (ascii "2001:dB8::1") (Stream.start 2 []) = .ok (some [0x20, 1, 0xd, 0xb8, 0, 0, 0, 0, 0, 0, 0, 0, 0, 0, 0, 1], Stream.start 2 []) :=
  (address_read _ (.short [ascii "2001", ascii "dB8"] [ascii "1"]) ⟨by decide, by unfold Ip6.GroupOk; decide +kernel, by unfold Ip6.GroupOk; decide +kernel⟩).1

/-! ## Origins -/

/-- What records say does not change what comes after them. -/
theorem entries_block {serial : Nat} (c : Ctx) : ∀ (b r : List (Line × Sep)), (∀ x ∈ b, x.1.isRecord = true) →
    entries serial c (b ++ r) = entries serial c b ++ entries serial c r
  | [], _, _ => rfl
  | (l, sep) :: b, r, h => by
    have h1 : (step serial c l).1 = c := by
      have := h (l, sep) (by simp)
      cases l <;> first | rfl | cases this
    rw [List.cons_append, entries, entries, h1, entries_block c b r (fun x hx => h x (by simp [hx])), List.append_assoc]

/-- **C75**, for files with at most eight times `/opush`: between `/opush` and the `/opop` that belongs to it, names are
under the new origin, and after it under the old one.  The full statement is for any number of them, one after the other; see
`pushed_nine`. -/
theorem origin_restored_partial (files : List UInt8 → Option (List UInt8)) {mode serial : Nat} {zone : Name} (hz : OriginOk zone) (hser : serial < 2 ^ 32)
    (head : List Piece) (tilde : Bool) (g : Gap) (n : NameText) (s1 s2 : Sep) (a b r : List (Line × Sep))
    (ha : ∀ x ∈ a, x.1.isRecord = true) (hb : ∀ x ∈ b, x.1.isRecord = true)
    (hf : (File.mk head tilde (a ++ (.push g n, s1) :: (b ++ (.pop, s2) :: r))).Ok mode serial zone) :
    readText files mode serial (dotted zone) (File.mk head tilde (a ++ (.push g n, s1) :: (b ++ (.pop, s2) :: r))).text =
      .ok (.read ((entries serial ⟨zone, [], 86400⟩ a ++ entries serial ⟨n.name zone, [zone], 86400⟩ b ++
        entries serial ⟨zone, [], 86400⟩ r).map toEntry)) := by
  rw [text_exact files hz hser hf]
  congr 3
  show entries serial ⟨zone, [], 86400⟩ _ = _
  rw [entries_block _ a _ ha, entries, entries_block _ b _ hb, List.append_assoc]
  rfl


/-- `/opush`, a record, `/opop`, a record. -/
def exNest : File := ⟨[], true, [] ++ (.push exGap (exRel ["sub"]), exSep) ::
  ([(.record (exRel ["www"]) exGap none [] (.bare ⟨ascii "10", ascii "0", ascii "0", ascii "1"⟩), exSep)] ++ (.pop, exSep) ::
    [(.record (exRel ["mail"]) exGap none [] (.bare ⟨ascii "10", ascii "0", ascii "0", ascii "2"⟩), exSep)])⟩

theorem exNest_ok : exNest.Ok 2 1 exZone where
  head p h := by cases h
  pipes := by decide
  short := by decide
  line p h := by cases h
  lines := by
    have hg := exGap_ok
    have hs := exSep_ok
    have hl := exSep_line
    refine ⟨?_, hs, rfl, fun _ => hl, fun h => (by cases h), ?_, hs, rfl, fun _ => hl, fun h => (by cases h), ?_, hs, rfl,
      fun _ => hl, fun h => (by cases h), ?_, hs, rfl, fun _ => hl, fun h => (by cases h), trivial⟩
    · exact ⟨rfl, hg, ⟨by decide +kernel, rfl, fun _ => rfl⟩, by decide +kernel⟩
    · refine ⟨by decide +kernel, fun _ => rfl, hg, fun x h => (by cases h), fun x h => (by cases h), fun _ => rfl, ?_⟩
      show Ip4.Ok _
      unfold Ip4.Ok
      decide +kernel
    · exact ⟨by decide, rfl⟩
    · refine ⟨by decide +kernel, fun _ => rfl, hg, fun x h => (by cases h), fun x h => (by cases h), fun _ => rfl, ?_⟩
      show Ip4.Ok _
      unfold Ip4.Ok
      decide +kernel
  style := Or.inl rfl
  first _ x hx := by
    cases hx
    rfl
  pushes := by decide
  few := by decide

example : exNest.text = ascii "/opush sub.% ~\nwww.% 10.0.0.1 ~\n/opop ~\nmail.% 10.0.0.2 ~\n" := by decide +kernel

example : ∃ l, readText (fun _ => none) 2 1 (ascii "example.com.") exNest.text = .ok (.read l) ∧
    l = [⟨encName [ascii "www", ascii "sub", ascii "example", ascii "com"], 1, 86400, some [10, 0, 0, 1]⟩,
      ⟨host "mail", 1, 86400, some [10, 0, 0, 2]⟩] := by
  refine ⟨_, origin_restored_partial (fun _ => none) exZone_ok (by decide) [] true exGap (exRel ["sub"]) exSep exSep [] _ _
    (fun x h => by cases h) ?_ exNest_ok, ?_⟩
  · decide
  · decide +kernel

end Csv2
end Mara
