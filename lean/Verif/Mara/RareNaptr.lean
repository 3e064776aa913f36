import Verif.Mara.RareExamples
import Verif.Mara.Csv2Strings

/-!
# Properties: the data of NAPTR records
-/

namespace Mara
namespace Csv2

open Dw (Res)
open Spec (ascii dotted encName Name)
open Spec.ZoneText Spec.Rare

/-- The text of a name is read; what is made of a percent sign comes later. -/
theorem processDname_run {s : Stream} (h : Plain s) (n : NameText) (origin : Name) (hn : n.Ok origin) (ho : OriginOk origin)
    (p : Piece) (hp : p.Ok) (hpc : n.relative = true → p.isComment = false) (star : Nat) (hs : star ≠ 0)
    (hs3 : star = 3 → n.star = false) (c : UInt8) (t : List UInt8) (ht : n.text = c :: t) (r : List UInt8) :
    processDname star (s.here c (t ++ (p.text ++ r))) = .ok (some (90 :: n.text), s.here (last p) r) := by
  obtain ⟨hc1, hc2, hc3, _⟩ := text_head hn ht
  have hsd : isStarOrDot c.toNat = true := by
    simp only [isStar, isStarOrDot] at hc2 ⊢
    simp only [decide_eq_true_eq] at hc2 ⊢
    rcases hc2 with h | h | h
    · exact Or.inl h
    · exact Or.inr (Or.inl h)
    · exact Or.inr (Or.inr (Or.inl h))
  have h1 := process1st_run h (isOk := isStarOrDot) [90] (by simp) c hsd hc1 (t ++ (p.text ++ r))
  have h2 := appendDname_run h n origin hn ho p hp hpc star hs hs3 [90] (by simp) c t ht r
  rw [processDname, bind_ok h1, bind_ok h2, if_neg]
  · rfl
  · rw [ht]
    simp [hc3]

/-- The name of a NAPTR record is read without the zone: a percent sign is nothing. -/
theorem getName_bare {s : Stream} (h : Plain s) (g : Gap) (hg : g.Ok) (n : NameText) (origin : Name) (p : Piece) (hp : p.Ok)
    (hn : Body.NameOk n origin p) (ho : OriginOk origin) (hl : n.labels ≠ []) (r : List UInt8) :
    getName [] (s.here (last g.first) (pieces g.rest ++ (n.text ++ (p.text ++ r)))) =
      .ok (some (encName n.labels), s.here (last p) r) := by
  obtain ⟨c, t, ht⟩ := List.exists_cons_of_ne_nil hn.ok.some
  obtain ⟨hc1, _, _, hc2, _⟩ := text_head hn.ok ht
  have hpd := processDname_run h n origin hn.ok ho p hp hn.next 3 (by decide) (fun _ => hn.star) c t ht r
  have hsz := name_size hn.ok ho
  have hper : percent (90 :: n.text) [] = some (90 :: dotted n.labels) := by
    obtain ⟨l, x, hlx⟩ : ∃ l x, n.labels = l ++ [x] := ⟨_, _, (List.dropLast_append_getLast hl).symm⟩
    have hd : dotted n.labels = dotted l ++ x ++ [46] := by rw [hlx]; simp [dotted]
    have htx : n.text = dotted n.labels ++ if n.relative then [37] else [] := by simp [NameText.text, hn.star]
    rw [htx]
    cases hr : n.relative with
    | false =>
      simp only [Bool.false_eq_true, if_false, List.append_nil]
      rw [percent, if_neg]
      rw [hd]
      simp [List.getLast?_cons]
    | true =>
      simp only [if_true]
      rw [percent, ← List.cons_append, if_pos List.getLast?_concat, List.dropLast_concat,
        jsAppend, if_neg (by rw [hr] at hsz; simp at hsz ⊢; omega), List.append_nil]
  have hlo : Spec.LabelsOk n.labels := fun l hm => ⟨(hn.ok.labels l hm).1, (hn.ok.labels l hm).2.1⟩
  have hby : ∀ l ∈ n.labels, (42 : UInt8) ∉ l ∧ (46 : UInt8) ∉ l := fun l hm =>
    ⟨fun hh => (nameByte_facts ((hn.ok.labels l hm).2.2 _ hh)).2.2.2.1 rfl, fun hh => (nameByte_facts ((hn.ok.labels l hm).2.2 _ hh)).2.2.1 rfl⟩
  rw [ht, List.cons_append, getName, bind_ok (get1st_gap h skips_dchar g hg c (hc2 hn.star) hc1 _), if_neg (by simp), hostname, bind_ok hpd,
    bind_orFail hper, List.tail_cons, bind_ok (wire_dotted _ hlo (fun l hl => (hby l hl).2) hl),
    encName_no42 _ hlo (fun l hl => (hby l hl).1)]
  rfl

theorem text_gap (g : Gap) (r : List UInt8) : g.text ++ r = g.first.text ++ (pieces g.rest ++ r) := by
  simp [Gap.text, pieces]

/-- What is read for a NAPTR record: all that is written, but without the zone where the name ends in a percent sign. -/
theorem naptr_read {s : Stream} (h : Plain s) (hm : s.mode ≠ 103) (g : Gap) (hg : g.Ok) (n : Naptr) (origin : Name) (p : Piece) (hp : p.Ok)
    (hn : n.Ok origin p) (ho : OriginOk origin) (hl : n.name.labels ≠ []) (r : List UInt8) :
    getNaptr (s.here (last g.first) (pieces g.rest ++ (n.text ++ (p.text ++ r)))) =
      .ok (some (Body.num16 (value n.order) ++ Body.num16 (value n.pref) ++ n.strs.flatMap strData ++ encName n.name.labels), s.here (last p) r) := by
  obtain ⟨a1, a2⟩ := hn.nums n.order (by simp)
  obtain ⟨b1, b2⟩ := hn.nums n.pref (by simp)
  have hsm := hn.small
  have hft : s.forText = s := if_neg hm
  have he : (encName n.name.labels).length ≤ (encName (n.name.name origin)).length := by
    rw [encName_length, encName_length, NameText.name]
    simp [dotted]
  simp only [Naptr.data, List.length_append, Body.num16, List.length_cons, List.length_nil] at hsm
  have hstr := getString_run h 3 (by decide) hm n.g2 hn.g2 n.strs hn.strs (Or.inr (by rw [hn.three]; rfl)) n.g3.first hn.g3.first
    (pieces n.g3.rest ++ (n.name.text ++ (p.text ++ r)))
  rw [hft] at hstr
  have et : n.text ++ (p.text ++ r) = n.order ++ (n.g1.first.text ++ (pieces n.g1.rest ++ (n.pref ++ (n.g2.first.text ++ (pieces n.g2.rest ++
      (strsText n.strs ++ (n.g3.first.text ++ (pieces n.g3.rest ++ (n.name.text ++ (p.text ++ r)))))))))) := by
    rw [← text_gap n.g1, ← text_gap n.g2, ← text_gap n.g3]
    simp [Naptr.text]
  rw [et, getNaptr, bind_ok (getNat_run h g hg n.order a1 n.g1.first hn.g1.first _), bind_orFail (add16_run 256 [] _ a2 (by decide)),
    bind_ok (getNat_run h n.g1 hn.g1 n.pref b1 n.g2.first hn.g2.first _), bind_orFail (add16_run 256 _ _ b2 (by simp [Body.num16])),
    bind_ok hstr, bind_orFail (jsAppend_run 256 _ _ (by simp only [Body.num16, List.length_append, List.length_cons, List.length_nil]; omega)),
    bind_ok (getName_bare h n.g3 hn.g3 n.name origin p hp hn.name ho hl r),
    jsAppend_run 256 _ _ (by simp only [Body.num16, List.length_append, List.length_cons, List.length_nil]; omega)]
  rfl

/-- **A NAPTR record means what it says**, if its name ends in a dot.  The full statement is without this, and false
(`naptr_zone_lost`, `naptr_root_refused`). -/
theorem naptr_exact_partial {s : Stream} (h : Plain s) (hm : s.mode ≠ 103) (g : Gap) (hg : g.Ok) (n : Naptr) (origin : Name) (p : Piece)
    (hp : p.Ok) (hn : n.Ok origin p) (ho : OriginOk origin) (habs : n.name.relative = false) (r : List UInt8) :
    getNaptr (s.here (last g.first) (pieces g.rest ++ (n.text ++ (p.text ++ r)))) = .ok (some (n.data origin), s.here (last p) r) := by
  have hl : n.name.labels ≠ [] := by
    intro e
    have := hn.name.ok.some
    simp [NameText.text, e, habs, hn.name.star, dotted] at this
  rw [naptr_read h hm g hg n origin p hp hn ho hl r, Naptr.data, NameText.name, habs]
  simp

/-- **The zone is left out** of a NAPTR record whose name ends in a percent sign: the data are never what is written. -/
theorem naptr_zone_lost {s : Stream} (h : Plain s) (hm : s.mode ≠ 103) (g : Gap) (hg : g.Ok) (n : Naptr) (origin : Name) (p : Piece)
    (hp : p.Ok) (hn : n.Ok origin p) (ho : OriginOk origin) (hrel : n.name.relative = true) (hl : n.name.labels ≠ []) (r : List UInt8) :
    ∃ d, getNaptr (s.here (last g.first) (pieces g.rest ++ (n.text ++ (p.text ++ r)))) = .ok (some d, s.here (last p) r) ∧ d ≠ n.data origin := by
  refine ⟨_, naptr_read h hm g hg n origin p hp hn ho hl r, ?_⟩
  intro he
  rw [Naptr.data, NameText.name, hrel] at he
  have := congrArg List.length (List.append_cancel_left he)
  rw [encName_length, encName_length] at this
  obtain ⟨x, xs, rfl⟩ := List.exists_cons_of_ne_nil ho.some
  simp [dotted] at this

/-- **The root cannot be written** as the name of a NAPTR record, though it is what RFC 2915 asks for where there is a regular expression. -/
theorem naptr_root_refused : (match getNaptr (rareAt "100 10 'u';'E2U+sip';'!^.*$!sip:x@example.com!' .\n") with | .ok (none, _) => true | _ => false) = true := by
  decide +kernel

/-- The example of the manual. -/
example : dataOf (getNaptr (rareAt "100 100 's';'http+I2R';'' _http._tcp.example.com.\n")) =
    some ([0, 100, 0, 100] ++ 1 :: ascii "s" ++ 8 :: ascii "http+I2R" ++ [0] ++ encName [ascii "_http", ascii "_tcp", ascii "example", ascii "com"]) := by
  decide +kernel

/-- The zone is lost. -/
example : dataOf (getNaptr (rareAt "100 100 's';'http+I2R';'' _http._tcp.%\n")) =
    some ([0, 100, 0, 100] ++ 1 :: ascii "s" ++ 8 :: ascii "http+I2R" ++ [0] ++ encName [ascii "_http", ascii "_tcp"]) := by
  decide +kernel

/-- A record with the name `_sip.`, or `_sip.%`. -/
def exNaptr (rel : Bool) : Naptr :=
  ⟨ascii "100", exGap, ascii "10", exGap, [[.bare 115], [.quoted (ascii "SIP+D2U")], [.quoted []]], exGap, ⟨false, [ascii "_sip"], rel⟩⟩

theorem exNaptr_ok (rel : Bool) : (exNaptr rel).Ok exZone (.blank 10) where
  nums := by
    intro l hl
    simp only [exNaptr, List.mem_cons, List.not_mem_nil, or_false] at hl
    rcases hl with rfl | rfl
    · exact ⟨num_ok (by decide +kernel) (by decide +kernel) (by decide +kernel) (by decide +kernel), by decide +kernel⟩
    · exact ⟨num_ok (by decide +kernel) (by decide +kernel) (by decide +kernel) (by decide +kernel), by decide +kernel⟩
  g1 := exGap_ok
  g2 := exGap_ok
  g3 := exGap_ok
  strs := by
    refine ⟨?_, by cases rel <;> decide +kernel, by cases rel <;> decide +kernel, by cases rel <;> decide +kernel, by cases rel <;> decide +kernel⟩
    intro x hx b hb
    simp only [exNaptr, List.mem_cons, List.not_mem_nil, or_false] at hx
    rcases hx with rfl | rfl | rfl
    · rw [List.mem_singleton.mp hb]; exact (by decide : Bit.isBare 115 = true)
    · rw [List.mem_singleton.mp hb]; exact (by decide +kernel : ∀ c ∈ ascii "SIP+D2U", Bit.isQuotable c = true)
    · rw [List.mem_singleton.mp hb]; exact fun c hc => by cases hc
  three := rfl
  name := ⟨⟨by cases rel <;> decide +kernel, by cases rel <;> decide +kernel, by cases rel <;> decide +kernel, by cases rel <;> decide +kernel⟩, rfl, fun _ => rfl⟩
  small := by cases rel <;> decide +kernel

example : getNaptr ((Stream.start 2 []).here 32 ((exNaptr false).text ++ 10 :: ascii "next")) =
    .ok (some ([0, 100, 0, 10, 1, 115, 7] ++ ascii "SIP+D2U" ++ 0 :: encName [ascii "_sip"]), (Stream.start 2 []).here 10 (ascii "next")) :=
  naptr_exact_partial rare_plain (by decide) exGap exGap_ok (exNaptr false) exZone (.blank 10) (by simp [Piece.Ok]) (exNaptr_ok false) exZone_ok rfl (ascii "next")

example := naptr_zone_lost rare_plain (by decide) exGap exGap_ok (exNaptr true) exZone (.blank 10) (by simp [Piece.Ok]) (exNaptr_ok true) exZone_ok rfl (by decide) (ascii "next")

end Csv2
end Mara
