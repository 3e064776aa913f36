import Verif.Mara.FetchSafe
import Verif.Mara.DecompProps
/-!
# What a server can put into the zone files of fetchzone
-/

namespace Mara
namespace Fetch

open Spec (ascii Name encName dotted lower LabelsOk encName_cons dotted_cons)
open Spec.ZoneText (isPlain)
open Spec.Transfer

/-- Lines, all of them harmless. -/
def Tame (zone : Name) (x : List UInt8) : Prop := ∃ lines : List (List UInt8), x = lines.flatMap (· ++ [10]) ∧ ∀ l ∈ lines, Harmless zone l

theorem tame_nil (zone : Name) : Tame zone [] := ⟨[], rfl, fun _ h => (by cases h)⟩

theorem tame_append {zone : Name} {x y : List UInt8} (hx : Tame zone x) (hy : Tame zone y) : Tame zone (x ++ y) := by
  obtain ⟨a, rfl, ha⟩ := hx
  obtain ⟨b, rfl, hb⟩ := hy
  exact ⟨a ++ b, by simp, fun l hl => (List.mem_append.1 hl).elim (ha l) (hb l)⟩

theorem tame_line {zone : Name} {l : List UInt8} (h : Harmless zone l) : Tame zone (l ++ [10]) := ⟨[l], by simp, by simpa using h⟩

theorem tame_last {zone : Name} {x : Out} (h : Last x) : Tame zone x.1 := by
  obtain ⟨b, t, n, rfl, ht⟩ := h
  have h1 : Tame zone (if b then [10] else []) := by
    cases b
    · exact tame_nil _
    · exact tame_line .empty
  have := tame_append h1 (tame_line (.comment t ht))
  simpa using this

theorem warning_eq : warning = ascii "# Disabled out-of-bailiwick record follows" ++ [10] ++ [35, 32] := by decide +kernel

theorem warned : ∃ t, ascii "# Disabled out-of-bailiwick record follows" = 35 :: t ∧ ∀ c ∈ t, c ≠ 10 ∧ c ≠ 13 ∧ c ≠ 123 :=
  ⟨(ascii "# Disabled out-of-bailiwick record follows").tail, by decide +kernel, by decide +kernel⟩

theorem tame_warned (zone : Name) {x : List UInt8} (h : Tame zone ([35, 32] ++ x)) : Tame zone (warning ++ x) := by
  obtain ⟨t, h1, h2⟩ := warned
  rw [warning_eq, List.append_assoc]
  exact tame_append (h1 ▸ tame_line (.comment t h2)) h

theorem clean_iff (c : UInt8) : clean c = true ↔ innerByte c = true := by simp [clean, innerByte]

theorem clean_comment {c : UInt8} (h : clean c = true) : c ≠ 10 ∧ c ≠ 13 ∧ c ≠ 123 := by
  unfold clean at h
  simp at h
  exact ⟨h.1, h.2.1, h.2.2.2.1⟩

theorem tame_last_warned (zone : Name) {x : Out} (h : Last x) : Tame zone (warning ++ x.1) := by
  obtain ⟨b, t, n, rfl, ht⟩ := h
  refine tame_warned zone ?_
  cases b
  · have := tame_line (zone := zone) (.comment (32 :: 35 :: t) fun c hc => by
      rcases List.mem_cons.1 hc with rfl | hc
      · decide
      rcases List.mem_cons.1 hc with rfl | hc
      · decide
      exact ht c hc)
    simpa using this
  · have := tame_append (tame_line (zone := zone) (.comment [32] (by decide))) (tame_line (.comment t ht))
    simpa using this

theorem tail_comment : ∀ c ∈ ascii " ~ ", c ≠ 10 ∧ c ≠ 13 ∧ c ≠ 123 := by decide +kernel

theorem tame_whole_warned (zone ls : Name) {x : Out} {n : Nat} (h : Whole (safeEsc (shown ls)) x n) : Tame zone (warning ++ x.1) := by
  obtain ⟨rest, soa, rfl, hr, _⟩ := h
  refine tame_warned zone ?_
  have := tame_line (zone := zone) (.comment (32 :: (safeEsc (shown ls) ++ (ascii " +" ++ rest ++ ascii " ~ "))) fun c hc => by
    rcases List.mem_cons.1 hc with rfl | hc
    · decide
    rcases List.mem_append.1 hc with hc | hc
    · exact clean_comment ((safeEsc_clean _).1 c hc)
    rcases List.mem_append.1 hc with hc | hc
    · rcases List.mem_append.1 hc with hc | hc
      · exact clean_comment (ascii_clean.1 c hc)
      · exact clean_comment (hr c hc)
    · exact tail_comment c hc)
  simpa using this

/-! ## Names -/

theorem safeChar_facts : ∀ n : Fin 256, ∀ c ∈ safeChar (UInt8.ofNat n), nameByte c = true := by decide +kernel

theorem safeChar_name (x : UInt8) : ∀ c ∈ safeChar x, nameByte c = true := by
  have := safeChar_facts ⟨x.toNat, x.toNat_lt⟩
  simpa only [UInt8.ofNat_toNat] using this

theorem plain_bytes {zone : Name} (hz : PlainName zone) : ∀ c ∈ dotted zone, isPlain c = true ∨ c = 46 ∨ c = 64 := dotted_plain fun l hl => (hz.2 l hl).2.2

theorem plain_ok {zone : Name} (hz : PlainName zone) : LabelsOk zone := fun l hl => ⟨(hz.2 l hl).1, (hz.2 l hl).2.1⟩

theorem plain_nameByte {c : UInt8} (h : isPlain c = true ∨ c = 46 ∨ c = 64) : nameByte c = true := by
  unfold nameByte
  rcases h with h | h | h <;> simp [h]

/-- A name in the zone, as it is printed. -/
theorem shown_in {zone p : Name} (hz : PlainName zone) (hl : LabelsOk (p ++ zone)) :
    ∃ pre own, safeEsc (shown (p ++ zone)) = pre ++ own ∧ pre ∈ [[], [32], [(42 : UInt8)]] ∧ (∀ c ∈ own, nameByte c = true) ∧
      (own = dotted zone ∨ (46 :: dotted zone) <:+ own) := by
  have hpb := plain_bytes hz
  rw [shown, if_neg (by simp [hz.1])]
  rcases List.eq_nil_or_concat p with rfl | ⟨p, l, rfl⟩
  · exact ⟨[], dotted zone, by rw [List.nil_append, List.nil_append, safeEsc_plain hpb], by simp, fun c hc => plain_nameByte (hpb c hc), .inl rfl⟩
  · obtain ⟨c, x, hx⟩ : ∃ c x, dotted p ++ l = c :: x := by
      cases h : dotted p ++ l with
      | nil =>
        have := (hl l (by simp)).1
        rw [(List.append_eq_nil_iff.1 h).2] at this
        simp at this
      | cons c x => exact ⟨c, x, rfl⟩
    have hd : dotted (p.concat l ++ zone) = c :: (x ++ 46 :: dotted zone) := by
      rw [← List.cons_append, ← hx]
      simp [dotted]
    have h46 : safeChar 46 = [46] := by decide
    rw [hd, safeEsc, List.flatMap_append, List.flatMap_cons, h46, safeChars hpb]
    have hin : ∀ y, ∀ d ∈ (x.flatMap safeChar ++ ([46] ++ y)), d ∈ y ∨ nameByte d = true := by
      intro y d hd
      rcases List.mem_append.1 hd with hd | hd
      · obtain ⟨e, _, he⟩ := List.mem_flatMap.1 hd
        exact .inr (safeChar_name e d he)
      rcases List.mem_append.1 hd with hd | hd
      · rw [List.mem_singleton.1 hd]; exact .inr (by decide)
      · exact .inl hd
    have hown : ∀ d ∈ (x.flatMap safeChar ++ ([46] ++ dotted zone)), nameByte d = true := fun d hd =>
      (hin _ d hd).elim (fun h => plain_nameByte (hpb d h)) id
    split_ifs
    · exact ⟨[32], _, rfl, by simp, hown, .inr ⟨x.flatMap safeChar, by simp⟩⟩
    · exact ⟨[42], _, rfl, by simp, hown, .inr ⟨x.flatMap safeChar, by simp⟩⟩
    · refine ⟨[], safeChar c ++ (x.flatMap safeChar ++ ([46] ++ dotted zone)), rfl, by simp, ?_, .inr ⟨safeChar c ++ x.flatMap safeChar, by simp⟩⟩
      intro d hd
      rcases List.mem_append.1 hd with hd | hd
      · exact safeChar_name c d hd
      · exact hown d hd

/-! ## Messages -/

theorem fatal_tame {why : String} (h : ∀ c ∈ ascii why, c ≠ 10 ∧ c ≠ 13 ∧ c ≠ 123) : Last (fatal why) := by
  have he : ascii "\n# Fatal error: " = [10, 35] ++ ascii " Fatal error: " := by decide +kernel
  have hc : ∀ c ∈ ascii " Fatal error: ", c ≠ 10 ∧ c ≠ 13 ∧ c ≠ 123 := by decide +kernel
  refine ⟨true, ascii " Fatal error: " ++ ascii why, 3, ?_, fun c hx => (List.mem_append.1 hx).elim (hc c) (h c)⟩
  rw [fatal, he]
  simp

theorem answers_tame {zone : Name} (hz : PlainName zone) (junk : List UInt8 → UInt8) (l : List UInt8) : ∀ (n place soa : Nat),
    Tame zone (answers (encName zone) junk l n place soa).1
  | 0, _, _ => tame_nil _
  | n + 1, place, soa => by
    rw [answers]
    split
    · exact tame_last (fatal_tame (by decide +kernel))
    · rename_i rr hrr
      obtain ⟨ls, hls, hname, hlen⟩ : ∃ ls, LabelsOk ls ∧ rr.name = encName ls ∧ (encName ls).length ≤ 256 := by
        unfold readRr at hrr
        split at hrr
        · cases hrr
        · rename_i k hk
          obtain ⟨ls, h1, h2, h3, h4, _⟩ := nameLen_inv _ _ _ hk
          dsimp only at hrr
          split at hrr
          · cases hrr
            rw [Nat.zero_add] at h2
            rw [Nat.add_zero] at h3
            exact ⟨ls, h1, by dsimp only; rw [h2, h3], by omega⟩
          · cases hrr
      obtain ⟨hf1, hf2, hf3⟩ := foldLabels_ok hls
      dsimp only
      rw [hname, hf2]
      generalize hfl : foldLabels ls = fl at *
      have hin := inZone_iff (plain_ok hz) (ls := fl) ((encName fl).length + 1) hf1 (by have := labels_lt fl; omega)
      cases hsub : L.substr l rr.next rr.rdlen (rr.rdlen + 7) with
      | none =>
        have hl : Last (fatal "Problem getting rddata") := fatal_tame (by decide +kernel)
        dsimp only
        split
        · exact tame_last hl
        · exact tame_last_warned zone hl
      | some d =>
        dsimp only
        have hshape := line_shape (rr := { rr with name := encName fl }) (ls := fl) (junk d) d soa hf1 rfl (by omega)
        have hfirst : Tame zone ((if inZone (encName zone) ((encName fl).length + 1) (encName fl) = true then [] else warning) ++
            (line (junk d) { rr with name := encName fl } d soa).1) := by
          split
          · rename_i h
            rw [List.nil_append]
            rcases hshape with hs | ⟨rest, s, hs, hr, _⟩
            · exact tame_last hs
            · obtain ⟨p, hp⟩ := hin.1 h
              obtain ⟨pre, own, h1, h2, h3, h4⟩ := shown_in hz (hp ▸ hf1)
              rw [hp] at h1
              have := tame_line (.record pre own rest h2 h3 h4 fun c hc => (clean_iff c).1 (hr c hc))
              rw [hs, h1]
              simpa using this
          · rcases hshape with hs | hs
            · exact tame_last_warned zone hs
            · exact tame_whole_warned zone fl hs
        unfold andThen
        split
        · exact hfirst
        · exact tame_append hfirst (answers_tame hz junk l n _ _)

theorem message_tame {zone : Name} (hz : PlainName zone) (junk : List UInt8 → UInt8) (rm : Nat) (c : List UInt8) (soa : Nat) :
    Tame zone (message (encName zone) junk rm c soa).1 := by
  unfold message
  split
  · exact tame_last (fatal_tame (by decide +kernel))
  · split
    · split
      · exact tame_last (fatal_tame (by decide +kernel))
      · split
        · refine tame_last (fatal_tame ?_)
          unfold rcodeText
          split <;> decide +kernel
        · split
          · split
            · exact tame_last (fatal_tame (by decide +kernel))
            · exact answers_tame hz ..
          · exact answers_tame hz ..
    · exact tame_last (fatal_tame (by decide +kernel))

theorem messages_tame {zone : Name} (hz : PlainName zone) (junk : List UInt8 → UInt8) (rm : Nat) : ∀ (ms : List (List UInt8)) (soa : Nat),
    Tame zone (messages (encName zone) junk rm ms soa).1
  | [], _ => tame_nil _
  | c :: r, soa => by
    have h := message_tame hz junk rm c soa
    rw [messages, andThen]
    split
    · exact h
    · exact tame_append h (messages_tame hz junk rm r _)

theorem plain_no_dot {c : UInt8} (h : isPlain c = true) : c ≠ 46 := by
  rintro rfl
  revert h; decide

/-- The name of the zone, with or without a dot at its end. -/
def Argument (zone : Name) (arg : List UInt8) : Prop := arg = dotted zone ∨ arg ++ [46] = dotted zone

theorem zoneWire_dotted {zone : Name} (hz : PlainName zone) {arg : List UInt8} (ha : Argument zone arg) :
    zoneWire arg = if arg.length + 1 ≥ 128 ∨ (dotted zone).length + 1 ≥ 128 then none else some (encName zone) := by
  have hdot : ∀ l ∈ zone, (46 : UInt8) ∉ l := fun l hl h => plain_no_dot ((hz.2 l hl).2.2 46 h) rfl
  have hw := Csv2.wireLoop_dotted zone (plain_ok hz) hdot
  have ht : (if arg.getLast? = some 46 then arg else arg ++ [46]) = dotted zone := by
    rcases ha with h | h
    · rw [h, if_pos]
      rcases List.eq_nil_or_concat zone with h0 | ⟨p, l, rfl⟩
      · exact absurd h0 hz.1
      · simp [dotted]
    · rw [if_neg, h]
      intro h'
      rcases List.eq_nil_or_concat zone with h0 | ⟨p, l, rfl⟩
      · exact hz.1 h0
      · have hl := hz.2 l (by simp)
        have hd : dotted (p.concat l) = (dotted p ++ l) ++ [46] := by simp [dotted]
        rw [hd] at h
        have ha := List.append_cancel_right h
        rcases List.eq_nil_or_concat l with h0 | ⟨q, c, rfl⟩
        · rw [h0] at hl; simp at hl
        · rw [ha] at h'
          have : c = 46 := by simpa using h'
          exact plain_no_dot (hl.2.2 c (by simp)) this
  have hne : dotted zone ≠ [46] := by
    cases zone with
    | nil => exact absurd rfl hz.1
    | cons l ls =>
      have hl := hz.2 l (by simp)
      rw [dotted_cons]
      cases l with
      | nil => simp at hl
      | cons c l => intro h; simp at h
  unfold zoneWire
  dsimp only
  rw [ht, if_neg hne, hw]
  split_ifs <;> simp_all
  omega

/-- Whatever the server sends, fetchzone prints harmless lines: comments, and records whose names are in the zone. -/
theorem fetch_harmless {zone : Name} (hz : PlainName zone) {arg : List UInt8} (ha : Argument zone arg) (junk : List UInt8 → UInt8) (rm : Nat)
    (ms : List (List UInt8)) :
    ∃ lines : List (List UInt8), (fetch arg junk rm ms).1 = lines.flatMap (· ++ [10]) ∧ ∀ l ∈ lines, Harmless zone l := by
  have h := zoneWire_dotted hz ha
  unfold fetch
  split
  · exact tame_last (fatal_tame (by decide +kernel))
  · rename_i z hw
    rw [hw] at h
    split at h
    · cases h
    · cases h
      exact messages_tame hz junk rm ms 0

/-- A message of a server that does not mean well: an address for a name that is not in the zone, and a TXT record for
a name with a line feed, whose text has a tilde and a line feed in it. -/
def hostile : List UInt8 :=
  [0, 1, 132, 0, 0, 0, 0, 2, 0, 0, 0, 0] ++
  ([1, 119] ++ [4] ++ ascii "evil" ++ [0] ++ [0, 1, 0, 1, 0, 0, 0, 60, 0, 4, 10, 1, 2, 3]) ++
  ([2, 97, 10] ++ [3] ++ ascii "org" ++ [0] ++ [0, 16, 0, 1, 0, 0, 0, 60, 0, 5, 4, 126, 32, 10, 98])

example : PlainName [ascii "org"] ∧ Argument [ascii "org"] (ascii "org") ∧ fetch (ascii "org") (fun _ => 0) 3000 [hostile] =
    (ascii "# Disabled out-of-bailiwick record follows\n# w.evil. +60 a 10.1.2.3 ~ \na\\x0a.org. +60 txt \\x7e' '\\x0a'b' ~ \n", .exit 0) := by
  refine ⟨⟨by decide, ?_⟩, .inr (by decide +kernel), by decide +kernel⟩
  decide +kernel

end Fetch
end Mara
