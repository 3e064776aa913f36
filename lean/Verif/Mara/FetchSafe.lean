import Verif.Mara.FetchNames
import Verif.Mara.FetchText
import Mathlib.Tactic.SplitIfs
/-!
# What fetchzone can print
-/

namespace Mara
namespace Fetch

open Spec (ascii Name encName dotted lower LabelsOk encName_cons dotted_cons)
open Spec.ZoneText (isPlain)
open Spec.Transfer (PlainName)

/-- Bytes that end no line and no record, and begin no comment. -/
def clean (c : UInt8) : Bool := c ≠ 10 ∧ c ≠ 13 ∧ c ≠ 35 ∧ c ≠ 123 ∧ c ≠ 124 ∧ c ≠ 126

def Clean (l : List UInt8) : Prop := ∀ c ∈ l, clean c = true

theorem clean_nil : Clean [] := fun _ h => (by cases h)

theorem clean_cons {c : UInt8} {l : List UInt8} : Clean (c :: l) ↔ clean c = true ∧ Clean l := by simp [Clean]

theorem clean_append {a b : List UInt8} : Clean (a ++ b) ↔ Clean a ∧ Clean b := by
  simp only [Clean, List.mem_append]
  exact ⟨fun h => ⟨fun c hc => h c (.inl hc), fun c hc => h c (.inr hc)⟩, fun h c hc => hc.elim (h.1 c) (h.2 c)⟩

theorem digit_clean : ∀ n : Fin 256, n.val < 16 → clean (UInt8.ofNat (if n.val < 10 then 48 + n.val else 87 + n.val)) = true := by decide +kernel

theorem digits_clean {base : Nat} (hb : base ≤ 16) (hb' : 1 ≤ base) : ∀ f n, Clean (digits base f n) ∧ (digits base f n).length ≤ f
  | 0, _ => ⟨clean_nil, Nat.le_refl _⟩
  | f + 1, n => by
    have hm : n % base < base := Nat.mod_lt _ hb'
    have hd := digit_clean ⟨n % base, by omega⟩ (show n % base < 16 by omega)
    have ih := digits_clean hb hb' f (n / base)
    rw [digits]
    dsimp only at hd ⊢
    split
    · exact ⟨clean_cons.2 ⟨hd, clean_nil⟩, by simp⟩
    · exact ⟨clean_append.2 ⟨ih.1, clean_cons.2 ⟨hd, clean_nil⟩⟩, by simp; exact ih.2⟩

theorem dec_clean (n : Nat) : Clean (dec n) ∧ (dec n).length ≤ 20 := digits_clean (by omega) (by omega) _ _

theorem hex_clean (n : Nat) : Clean (hex n) ∧ (hex n).length ≤ 20 := digits_clean (by omega) (by omega) _ _

theorem signed_clean (n : Nat) : Clean (signed n) ∧ (signed n).length ≤ 21 := by
  unfold signed
  split
  · have := dec_clean n; exact ⟨this.1, by omega⟩
  · have := dec_clean (4294967296 - n); exact ⟨clean_cons.2 ⟨by decide, this.1⟩, by simp; omega⟩

theorem byte_facts : ∀ n : Fin 256, (∀ c ∈ hexEsc (UInt8.ofNat n), clean c = true) ∧
    (¬ (UInt8.ofNat n < 32 ∨ UInt8.ofNat n > 122 ∨ UInt8.ofNat n = 35) → clean (UInt8.ofNat n) = true) ∧
    (isSafe (UInt8.ofNat n) = true → clean (UInt8.ofNat n) = true) := by decide +kernel

theorem byte_fact (c : UInt8) : Clean (hexEsc c) ∧ (¬ (c < 32 ∨ c > 122 ∨ c = 35) → clean c = true) ∧ (isSafe c = true → clean c = true) := by
  have := byte_facts ⟨c.toNat, c.toNat_lt⟩
  simp only [UInt8.ofNat_toNat] at this
  exact this

theorem escLoop_clean : ∀ (l : List UInt8) (q : Bool), Clean (escLoop q l) ∧ (escLoop q l).length ≤ 4 * l.length + (if q then 1 else 0)
  | [], q => by cases q <;> simp [escLoop, clean_nil]; exact fun c hc => by simp at hc; subst hc; decide
  | c :: r, q => by
    have h1 := byte_fact c
    have hf := escLoop_clean r false
    have hq := escLoop_clean r q
    have ht := escLoop_clean r true
    have h39 : clean 39 = true := by decide
    have h92 : clean 92 = true := by decide
    simp only [Bool.false_eq_true, if_false, if_true] at hf ht
    rw [escLoop]
    split
    · have hx : (hexEsc c).length = 4 := rfl
      cases q <;> simp only [Bool.false_eq_true, if_false, if_true, List.nil_append, clean_append, clean_cons, h39, clean_nil, h1.1, hf.1, true_and, hx,
        List.length_append, List.length_cons, List.length_nil] <;> omega
    · rename_i hc
      split
      · cases q <;> simp only [Bool.false_eq_true, if_false, if_true, clean_append, clean_cons, h39, h92, clean_nil, hq.1, true_and, 
          List.length_append, List.length_cons, List.length_nil] at hq ⊢ <;> omega
      · have := h1.2.1 hc
        cases q <;> simp only [Bool.false_eq_true, if_false, if_true, clean_append, clean_cons, h39, this, clean_nil, ht.1, true_and, List.nil_append,
          List.length_append, List.length_cons, List.length_nil] <;> omega

theorem escape_clean (l : List UInt8) : Clean (escape l) ∧ (escape l).length ≤ 4 * l.length := by
  exact escLoop_clean l false

theorem safeChar_clean (c : UInt8) : Clean (safeChar c) ∧ (safeChar c).length ≤ 4 := by
  unfold safeChar
  split
  · exact ⟨clean_cons.2 ⟨(byte_fact c).2.2 ‹_›, clean_nil⟩, by simp⟩
  · exact ⟨(byte_fact c).1, by simp [hexEsc]⟩

theorem safeChars_clean : ∀ l : List UInt8, Clean (l.flatMap safeChar) ∧ (l.flatMap safeChar).length ≤ 4 * l.length
  | [] => ⟨clean_nil, by simp⟩
  | c :: r => by
    have h1 := safeChar_clean c
    have ih := safeChars_clean r
    rw [List.flatMap_cons]
    exact ⟨clean_append.2 ⟨h1.1, ih.1⟩, by simp only [List.length_append, List.length_cons]; omega⟩

theorem safeEsc_clean : ∀ l : List UInt8, Clean (safeEsc l) ∧ (safeEsc l).length ≤ 4 * l.length
  | [] => ⟨clean_nil, by simp [safeEsc]⟩
  | c :: r => by
    have h1 := safeChar_clean c
    have ih := safeChars_clean r
    rw [safeEsc]
    split_ifs
    · exact ⟨clean_append.2 ⟨clean_cons.2 ⟨by decide, clean_nil⟩, ih.1⟩, by simp only [List.length_append, List.length_cons, List.length_nil]; omega⟩
    · exact ⟨clean_append.2 ⟨clean_cons.2 ⟨by decide, clean_nil⟩, ih.1⟩, by simp only [List.length_append, List.length_cons, List.length_nil]; omega⟩
    · exact ⟨clean_append.2 ⟨h1.1, ih.1⟩, by simp only [List.length_append, List.length_cons]; omega⟩

theorem groups_clean : ∀ l : List UInt8, Clean (groups l) ∧ (groups l).length ≤ 11 * l.length
  | [] => ⟨clean_nil, by simp [groups]⟩
  | [_] => ⟨clean_nil, by simp [groups]⟩
  | a :: b :: r => by
    have ih := groups_clean r
    have h1 := hex_clean (a.toNat * 256 + b.toNat)
    rw [groups]
    exact ⟨clean_append.2 ⟨h1.1, clean_cons.2 ⟨by decide, ih.1⟩⟩, by simp only [List.length_append, List.length_cons]; omega⟩

theorem trLoop_length (junk : UInt8) : ∀ (n : Nat) (sep : UInt8) (k : Nat) (t : UInt8) (l m : List UInt8), trLoop junk n sep k t l = some m → m.length = l.length
  | 0, _, _, _, _, _, h => by cases h
  | n + 1, sep, k, t, l, m, h => by
    rw [trLoop] at h
    split at h
    · split at h
      · cases h
      · dsimp only at h
        split at h
        · cases h
        · have := trLoop_length junk n _ _ _ _ _ h
          simpa using this
    · cases h; rfl

theorem hname_length {junk first : UInt8} {l m : List UInt8} (h : hname junk first l = some m) : m.tail.length ≤ l.length := by
  unfold hname at h
  split at h
  · cases h
  · cases h; simp
  · have := trLoop_length _ _ _ _ _ _ _ h
    simp at this ⊢; omega

theorem email_length {junk : UInt8} {l m : List UInt8} (h : email junk l = some m) : m.tail.length ≤ l.length := by
  unfold email at h
  split at h
  · cases h
  · have := trLoop_length _ _ _ _ _ _ _ h
    simp at this ⊢; omega

theorem soaName_length {l : List UInt8} {off : Nat} : ∀ (n k : Nat) (m : List UInt8) (o : Nat), soaName l off n k = some (m, o) → m.length + off ≤ o
  | 0, _, _, _, h => by cases h
  | n + 1, k, m, o, h => by
    rw [soaName] at h
    split at h
    · cases h; simp; omega
    · split at h
      · cases h
      · split at h
        · cases h
        · split at h
          · cases h
          · split at h
            · cases h; simp; omega
            · split at h
              · exact soaName_length n _ _ _ h
              · cases h

theorem readSoa_length {l : List UInt8} {s : Soa} (h : readSoa l = some s) : s.mname.length + s.rname.length ≤ l.length := by
  unfold readSoa at h
  split at h
  · cases h
  · rename_i m o hm
    split at h
    · cases h
    · rename_i r o' hr
      split at h
      · cases h
      · cases h
        have := soaName_length _ _ _ _ hm
        have := soaName_length _ _ _ _ hr
        dsimp only; omega

/-- What is printed when the program ends within a record: what remains of the line, and a comment. -/
def Last (x : Out) : Prop := ∃ (b : Bool) (t : List UInt8) (n : Nat), x = ((if b then [10] else []) ++ (35 :: t) ++ [10], .exit n) ∧
  ∀ c ∈ t, c ≠ 10 ∧ c ≠ 13 ∧ c ≠ 123

/-- The line of a record with this name. -/
def Whole (own : List UInt8) (x : Out) (n : Nat) : Prop := ∃ rest soa, x = (own ++ (ascii " +" ++ rest ++ ascii " ~ ") ++ [10], .more soa) ∧ Clean rest ∧
  rest.length ≤ n

theorem fatal_hname : Last (fatal "Hname problem") := ⟨true, _, 3, rfl, by decide +kernel⟩
theorem fatal_trans : Last (fatal "Problem translating A record name") := ⟨true, _, 3, rfl, by decide +kernel⟩

theorem second_soa : Last (ascii "# Second SOA received, exiting\n", .exit 0) :=
  ⟨false, ascii " Second SOA received, exiting", 0, by decide +kernel, by decide +kernel⟩

theorem ascii_clean : Clean (ascii " +") ∧ Clean (ascii " raw ") ∧ Clean (ascii " soa") ∧ Clean (ascii " a ") ∧ Clean (ascii " aaaa ") ∧
    Clean (ascii " mx ") ∧ Clean (ascii " txt ") ∧ Clean (ascii " ns") ∧ Clean (ascii " ptr") ∧ Clean (ascii " cname") := by
  unfold Clean; decide +kernel

theorem ascii_lengths : (ascii " +").length = 2 ∧ (ascii " raw ").length = 5 ∧ (ascii " soa").length = 4 ∧ (ascii " a ").length = 3 ∧
    (ascii " aaaa ").length = 6 ∧ (ascii " mx ").length = 4 ∧ (ascii " txt ").length = 5 := by
  decide +kernel

theorem ascii_end : ascii " ~ \n" = ascii " ~ " ++ [10] := by decide +kernel

/-- A name as it is printed. -/
def shown (ls : Name) : List UInt8 := if ls = [] then [46] else dotted ls

theorem whole_of {ls : Name} (first : UInt8) (ttl : Nat) {x rest : List UInt8} {soa n : Nat}
    (hx : x = opening (first :: shown ls) ttl ++ rest ++ ascii " ~ \n") (hr : Clean rest) (hn : rest.length + 20 ≤ n) : Whole (safeEsc (shown ls)) (x, .more soa) n := by
  refine ⟨dec ttl ++ rest, soa, ?_, clean_append.2 ⟨(dec_clean ttl).1, hr⟩, ?_⟩
  · rw [hx, ascii_end]
    simp [opening]
  · have := (dec_clean ttl).2
    rw [List.length_append]; omega

variable {rr : Rr} {ls : Name} (junk : UInt8) (d : List UInt8) (soa : Nat)

theorem raw_shape (hl : LabelsOk ls) (hn : rr.name = encName ls) (hs : (encName ls).length ≤ 257) :
    Whole (safeEsc (shown ls)) (raw junk rr d soa) (4 * d.length + 250) := by
  unfold raw
  rw [hn, hname_run junk 65 hl hs]
  dsimp only
  have h1 := dec_clean rr.type
  have h2 := escape_clean d
  refine whole_of 65 rr.ttl (rest := ascii " raw " ++ dec rr.type ++ [32] ++ escape d) (by simp [shown]) ?_ ?_
  · simp only [clean_append, clean_cons, ascii_clean.2.1, h1.1, h2.1, clean_nil, and_true, true_and]; decide
  · simp only [List.length_append, ascii_lengths.2.1, List.length_cons, List.length_nil]; omega

theorem soa_shape (hl : LabelsOk ls) (hn : rr.name = encName ls) (hs : (encName ls).length ≤ 257) :
    Last (soaLine junk rr d soa) ∨ Whole (safeEsc (shown ls)) (soaLine junk rr d soa) (4 * d.length + 250) := by
  unfold soaLine
  split
  · exact .inl second_soa
  · split
    · exact .inr (raw_shape junk d _ hl hn hs)
    · rename_i s hsoa
      rw [hn, hname_run junk 83 hl hs]
      have hlen := readSoa_length hsoa
      cases hm : hname junk 65 s.mname with
      | none => exact .inl fatal_hname
      | some m =>
        cases hr : email junk s.rname with
        | none => exact .inl fatal_hname
        | some r =>
          right
          have h1 := safeEsc_clean (32 :: m.tail)
          have h2 := safeEsc_clean (32 :: r.tail)
          have h3 := dec_clean s.serial
          have h4 := signed_clean s.refresh
          have h5 := signed_clean s.retry
          have h6 := signed_clean s.expire
          have h7 := dec_clean s.minimum
          have h8 := hname_length hm
          have h9 := email_length hr
          refine whole_of 83 rr.ttl (rest := ascii " soa" ++ safeEsc (32 :: m.tail) ++ safeEsc (32 :: r.tail) ++ [32] ++ dec s.serial ++ [32] ++
            signed s.refresh ++ [32] ++ signed s.retry ++ [32] ++ signed s.expire ++ [32] ++ dec s.minimum) (by simp [shown]) ?_ ?_
          · simp only [clean_append, clean_cons, ascii_clean.2.2.1, h1.1, h2.1, h3.1, h4.1, h5.1, h6.1, h7.1, clean_nil, and_true, true_and]; decide
          · rw [List.length_cons] at h1 h2
            simp only [List.length_append, ascii_lengths.2.2.1, List.length_cons, List.length_nil]; omega

theorem a_shape (hl : LabelsOk ls) (hn : rr.name = encName ls) (hs : (encName ls).length ≤ 257) :
    Whole (safeEsc (shown ls)) (aLine junk rr d soa) (4 * d.length + 250) := by
  unfold aLine
  split
  · rename_i a b c e
    rw [hn, hname_run junk 65 hl hs]
    dsimp only
    have h1 := dec_clean a.toNat
    have h2 := dec_clean b.toNat
    have h3 := dec_clean c.toNat
    have h4 := dec_clean e.toNat
    refine whole_of 65 rr.ttl (rest := ascii " a " ++ dec a.toNat ++ [46] ++ dec b.toNat ++ [46] ++ dec c.toNat ++ [46] ++ dec e.toNat) (by simp [shown]) ?_ ?_
    · simp only [clean_append, clean_cons, ascii_clean.2.2.2.1, h1.1, h2.1, h3.1, h4.1, clean_nil, and_true, true_and]; decide
    · simp only [List.length_append, ascii_lengths.2.2.2.1, List.length_cons, List.length_nil]; omega
  · exact raw_shape junk d _ hl hn hs

theorem aaaa_shape (hl : LabelsOk ls) (hn : rr.name = encName ls) (hs : (encName ls).length ≤ 257) :
    Whole (safeEsc (shown ls)) (aaaaLine junk rr d soa) (4 * d.length + 250) := by
  unfold aaaaLine
  split
  · exact raw_shape junk d _ hl hn hs
  · rw [hn, hname_run junk 85 hl hs]
    dsimp only
    have h1 := groups_clean d
    refine whole_of 85 rr.ttl (rest := ascii " aaaa " ++ groups d) (by simp [shown]) ?_ ?_
    · simp only [clean_append, ascii_clean.2.2.2.2.1, h1.1, and_true]
    · simp only [List.length_append, ascii_lengths.2.2.2.2.1]; omega

theorem mx_shape (hl : LabelsOk ls) (hn : rr.name = encName ls) (hs : (encName ls).length ≤ 257) :
    Last (mxLine junk rr d soa) ∨ Whole (safeEsc (shown ls)) (mxLine junk rr d soa) (4 * d.length + 250) := by
  unfold mxLine
  split
  · rename_i a b x r
    split
    · exact .inr (raw_shape junk _ _ hl hn hs)
    · rw [hn, hname_run junk 64 hl hs]
      cases hm : hname junk 64 (x :: r) with
      | none => exact .inl fatal_hname
      | some m =>
        right
        have h1 := dec_clean (a.toNat * 256 + b.toNat)
        have h2 := safeEsc_clean (32 :: m.tail)
        have h3 := hname_length hm
        refine whole_of 64 rr.ttl (rest := ascii " mx " ++ dec (a.toNat * 256 + b.toNat) ++ safeEsc (32 :: m.tail)) (by simp [shown]) ?_ ?_
        · simp only [clean_append, ascii_clean.2.2.2.2.2.1, h1.1, h2.1, and_true]
        · rw [List.length_cons] at h2 h3
          simp only [List.length_append, ascii_lengths.2.2.2.2.2.1, List.length_cons]; omega
  · exact .inr (raw_shape junk _ _ hl hn hs)

theorem txt_shape (hl : LabelsOk ls) (hn : rr.name = encName ls) (hs : (encName ls).length ≤ 257) :
    Whole (safeEsc (shown ls)) (txtLine junk rr d soa) (4 * d.length + 250) := by
  unfold txtLine
  split
  · exact raw_shape junk _ _ hl hn hs
  · split
    · exact raw_shape junk _ _ hl hn hs
    · rename_i r _
      rw [hn, hname_run junk 84 hl hs]
      dsimp only
      have h1 := escape_clean r
      refine whole_of 84 rr.ttl (rest := ascii " txt " ++ escape r) (by simp [shown]) ?_ ?_
      · simp only [clean_append, ascii_clean.2.2.2.2.2.2.1, h1.1, and_true]
      · simp only [List.length_append, ascii_lengths.2.2.2.2.2.2, List.length_cons]; omega

theorem name_shape (hl : LabelsOk ls) (hn : rr.name = encName ls) (hs : (encName ls).length ≤ 257) {w : String} (hw : Clean (ascii w)) (hw' : (ascii w).length ≤ 6) :
    Last (nameLine junk w rr d soa) ∨ Whole (safeEsc (shown ls)) (nameLine junk w rr d soa) (4 * d.length + 250) := by
  unfold nameLine
  rw [hn, hname_run junk 65 hl hs]
  cases hm : hname junk 65 d with
  | none => exact .inl fatal_hname
  | some m =>
    right
    have h2 := safeEsc_clean (32 :: m.tail)
    have h3 := hname_length hm
    refine whole_of 65 rr.ttl (rest := ascii w ++ safeEsc (32 :: m.tail)) (by simp [shown]) ?_ ?_
    · simp only [clean_append, hw, h2.1, and_true]
    · rw [List.length_cons] at h2
      simp only [List.length_append]; omega

/-- What a record prints: one line, or the end of the program. -/
theorem line_shape (hl : LabelsOk ls) (hn : rr.name = encName ls) (hs : (encName ls).length ≤ 257) :
    Last (line junk rr d soa) ∨ Whole (safeEsc (shown ls)) (line junk rr d soa) (4 * d.length + 250) := by
  unfold line
  split
  · exact soa_shape junk d soa hl hn hs
  · exact .inr (a_shape junk d soa hl hn hs)
  · exact .inr (aaaa_shape junk d soa hl hn hs)
  · exact mx_shape junk d soa hl hn hs
  · exact .inr (txt_shape junk d soa hl hn hs)
  · exact name_shape junk d soa hl hn hs ascii_clean.2.2.2.2.2.2.2.1 (by decide +kernel)
  · exact name_shape junk d soa hl hn hs ascii_clean.2.2.2.2.2.2.2.2.1 (by decide +kernel)
  · exact name_shape junk d soa hl hn hs ascii_clean.2.2.2.2.2.2.2.2.2 (by decide +kernel)
  · exact .inr (raw_shape junk d soa hl hn hs)

end Fetch
end Mara
