import Verif.Mara.FetchRun
import Verif.Mara.DecompRound
/-!
# A zone that fetchzone writes is read as it was sent
-/

namespace Mara
namespace Fetch

open Spec (ascii Name Rec Parcel encName dotted LabelsOk memOf Legible)
open Spec.ZoneText
open Spec.Transfer
open Csv2 (readText toEntry OriginOk)

theorem pieces_append (a b : List Piece) : pieces (a ++ b) = pieces a ++ pieces b := by simp [pieces]

theorem pieces_cons (a : Piece) (b : List Piece) : pieces (a :: b) = a.text ++ pieces b := by simp [pieces]

/-- What stands after a record. -/
def sepOf (pre : List Piece) : Sep := ⟨.blank 32, [], true, .blank 32 :: .blank 10 :: pre⟩

theorem sepOf_text (pre : List Piece) : (sepOf pre).text = ascii " ~ \n" ++ pieces pre := by
  rw [ascii_facts.2.1]
  simp [sepOf, Sep.text, pieces_cons, Piece.text]
  rfl

theorem comment_facts {p : Piece} (h : p.isComment = true) : p.isPipe = false ∧ p.endsLine = true := by
  cases p <;> simp_all [Piece.isComment, Piece.isPipe, Piece.endsLine]

theorem no_pipes {pre : List Piece} (h : ∀ p ∈ pre, p.Ok ∧ p.isComment = true) : pre.countP Piece.isPipe = 0 :=
  List.countP_eq_zero.2 fun p hp => by rw [(comment_facts (h p hp).2).1]; simp

theorem sepOf_ok {pre : List Piece} (h : ∀ p ∈ pre, p.Ok ∧ p.isComment = true) (hl : pre.length ≤ 9990) : (sepOf pre).Ok where
  first := Or.inr (Or.inr (Or.inr rfl))
  before := fun p hp => (by cases hp)
  after := fun p hp => by
    rcases List.mem_cons.1 hp with rfl | hp
    · exact Or.inr (Or.inr (Or.inr rfl))
    rcases List.mem_cons.1 hp with rfl | hp
    · exact Or.inr (Or.inl rfl)
    · exact (h p hp).1
  pipes := by
    have := no_pipes h
    simp only [sepOf, List.nil_append, List.countP_cons, this, Piece.isPipe]
    simp
  short := by simp [sepOf]; omega
  none := fun h => (by cases h)

theorem sepOf_line {pre : List Piece} (h : ∀ p ∈ pre, p.Ok ∧ p.isComment = true) : (sepOf pre).newLine := by
  unfold Sep.newLine
  rw [if_pos (show (sepOf pre).tilde = true from rfl)]
  rcases List.eq_nil_or_concat pre with rfl | ⟨q, p, rfl⟩
  · exact ⟨.blank 10, rfl, rfl⟩
  · refine ⟨p, ?_, (comment_facts (h p (by simp)).2).2⟩
    simp [sepOf, List.getLast?_cons]

theorem dotted_le : ∀ n : Name, (dotted n).length ≤ (encName n).length
  | [] => by simp [dotted]
  | l :: n => by
    have := dotted_le n
    rw [Spec.dotted_cons, Spec.encName_cons]; simp; omega

/-- The comment for a record that is not in the zone. -/
theorem outside_pieces {n : Name} {x : List UInt8} {e : End} {k : Nat} (h : Whole (safeEsc (shown n)) (x, e) k) (hk : k ≤ 3850)
    (hn : (encName n).length ≤ 255) (hl : shown n = dotted n ∨ shown n = [46]) :
    ∃ a b : Piece, warning ++ x = pieces [a, b] ∧ (a.Ok ∧ a.isComment = true) ∧ (b.Ok ∧ b.isComment = true) := by
  obtain ⟨rest, soa, hx, hr, hlen⟩ := h
  cases hx
  obtain ⟨t, h1, h2⟩ := warned
  have htl : t.length ≤ 4998 := by
    have h3 := congrArg List.length h1
    have h4 : (ascii "# Disabled out-of-bailiwick record follows").length = 42 := by decide +kernel
    rw [h4, List.length_cons] at h3; omega
  have h2' : ascii " ~ " = [32, 126, 32] := by decide +kernel
  refine ⟨.comment t 10, .comment (32 :: (safeEsc (shown n) ++ (ascii " +" ++ rest ++ ascii " ~ "))) 10, ?_, ⟨⟨.inl rfl, htl, h2⟩, rfl⟩, ⟨⟨.inl rfl, ?_, ?_⟩, rfl⟩⟩
  · rw [warning_eq, h1]
    simp [pieces, Piece.text]
  · have h3 := (safeEsc_clean (shown n)).2
    have h4 : (shown n).length ≤ 255 := by
      rcases hl with h | h
      · rw [h]
        have := dotted_le n
        omega
      · rw [h]; simp
    simp only [List.length_cons, List.length_append, ascii_lengths.1, h2', List.length_nil]
    omega
  · intro c hc
    rcases List.mem_cons.1 hc with rfl | hc
    · decide
    rcases List.mem_append.1 hc with hc | hc
    · exact clean_comment ((safeEsc_clean _).1 c hc)
    rcases List.mem_append.1 hc with hc | hc
    · rcases List.mem_append.1 hc with hc | hc
      · exact clean_comment (ascii_clean.1 c hc)
      · exact clean_comment (hr c hc)
    · exact tail_comment c hc

theorem shown_cases (n : Name) : shown n = dotted n ∨ shown n = [46] := by
  unfold shown
  split
  · exact .inr rfl
  · exact .inl rfl

/-- What is printed is the text of a zone file. -/
theorem prints_file {zone : Name} {rs : List Rec} {out : List UInt8} (h : Prints zone rs out) {fin : List Piece} (hfin : ∀ p ∈ fin, p.Ok ∧ p.isComment = true)
    (hfl : fin.length ≤ 2) : strangers zone rs ≤ 4900 →
    ∃ (pre : List Piece) (lines : List (Line × Sep)), out ++ pieces fin = fileText pre lines ∧ (∀ p ∈ pre, p.Ok ∧ p.isComment = true) ∧
      pre.length ≤ 2 * strangers zone rs + 2 ∧
      (∀ serial c, LinesOk serial true c lines ∧ entries serial c lines = (inside zone rs).map toLine) ∧
      lines.countP (fun x => x.1.isPush) = 0 ∧ lines.length = (inside zone rs).length ∧
      (∀ r rs', rs = r :: rs' → Within zone r.name → r.type ≠ 16 → pre = [] ∧ ∀ x, lines.head? = some x → x.1.isFree = false) := by
  induction h with
  | nil =>
    intro _
    exact ⟨fin, [], by simp [fileText], hfin, by omega, fun _ _ => ⟨trivial, rfl⟩, rfl, rfl, fun _ _ h => (by cases h)⟩
  | @inside r rs x o hw hl _ ih =>
    intro hs
    have hs' : strangers zone (r :: rs) = strangers zone rs := by simp [strangers, hw]
    have hi : inside zone (r :: rs) = r :: inside zone rs := by simp [inside, hw]
    rw [hs'] at hs ⊢
    rw [hi]
    obtain ⟨pre, lines, h1, h2, h3, h4, h5, h6, _⟩ := ih hs
    obtain ⟨L, hx, hok, hstep, hfree, hpush, hrec⟩ := hl
    refine ⟨[], (L, sepOf pre) :: lines, ?_, fun _ h => (by cases h), by simp, ?_, ?_, by simp [h6], ?_⟩
    · rw [hx, List.append_assoc, h1]
      simp [fileText, sepOf_text, pieces]
    · intro serial c
      have hc := h4 serial c
      refine ⟨⟨hok c, sepOf_ok h2 (by omega), rfl, fun _ => sepOf_line h2, fun _ _ => ⟨by simp [sepOf], fun p hp => ?_⟩, ?_⟩, ?_⟩
      · rw [List.mem_singleton.1 hp]; rfl
      · rw [hstep]; exact hc.1
      · rw [entries, hstep, hc.2]; rfl
    · rw [List.countP_cons, h5, hpush]; rfl
    · intro r' rs' he _ ht
      cases he
      refine ⟨rfl, fun y hy => ?_⟩
      cases hy
      cases hf : L.isFree with
      | true => exact absurd (hfree hf) ht
      | false => rfl
  | @outside r rs x o e n hw hl hn hs _ ih =>
    intro hst
    have hs' : strangers zone (r :: rs) = strangers zone rs + 1 := by simp [strangers, hw]
    have hi : inside zone (r :: rs) = inside zone rs := by simp [inside, hw]
    rw [hs'] at hst ⊢
    rw [hi]
    obtain ⟨pre, lines, h1, h2, h3, h4, h5, h6, _⟩ := ih (by omega)
    obtain ⟨a, b, hab, ha, hb⟩ := outside_pieces hl hn hs (shown_cases _)
    refine ⟨a :: b :: pre, lines, ?_, ?_, by simp; omega, h4, h5, h6, ?_⟩
    · rw [hab, List.append_assoc, h1]
      simp [fileText, pieces]
    · intro p hp
      rcases List.mem_cons.1 hp with rfl | hp
      · exact ha
      rcases List.mem_cons.1 hp with rfl | hp
      · exact hb
      · exact h2 p hp
    · intro r' rs' he hw'
      cases he
      exact absurd hw' hw

theorem ends_pieces {x : List UInt8} (h : x = [] ∨ Ends x) : ∃ fin : List Piece, x = pieces fin ∧ (∀ p ∈ fin, p.Ok ∧ p.isComment = true) ∧ fin.length ≤ 2 := by
  have e1 : ∀ c ∈ ascii " Second SOA received, exiting", c ≠ 10 ∧ c ≠ 13 ∧ c ≠ 123 := by decide +kernel
  have e2 : (ascii " Second SOA received, exiting").length ≤ 100 := by decide +kernel
  have e3 : ascii "# Second SOA received, exiting\n" = 35 :: (ascii " Second SOA received, exiting" ++ [10]) := by decide +kernel
  have k1 : ∀ c ∈ ascii " Disabled out-of-bailiwick record follows", c ≠ 10 ∧ c ≠ 13 ∧ c ≠ 123 := by decide +kernel
  have k2 : (ascii " Disabled out-of-bailiwick record follows").length ≤ 100 := by decide +kernel
  have k3 : warning = 35 :: (ascii " Disabled out-of-bailiwick record follows" ++ [10, 35, 32]) := by decide +kernel
  rcases h with rfl | rfl | rfl
  · exact ⟨[], rfl, fun _ h => (by cases h), by simp⟩
  · refine ⟨[.comment (ascii " Second SOA received, exiting") 10], by simp [pieces, Piece.text, e3], ?_, by simp⟩
    intro p hp
    rw [List.mem_singleton.1 hp]
    exact ⟨⟨.inl rfl, by omega, e1⟩, rfl⟩
  · refine ⟨[.comment (ascii " Disabled out-of-bailiwick record follows") 10, .comment (32 :: 35 :: ascii " Second SOA received, exiting") 10], ?_, ?_, by simp⟩
    · rw [e3, k3]
      simp [pieces, Piece.text]
    · intro p hp
      rcases List.mem_cons.1 hp with rfl | hp
      · exact ⟨⟨.inl rfl, by omega, k1⟩, rfl⟩
      · rw [List.mem_singleton.1 hp]
        refine ⟨⟨.inl rfl, by simp only [List.length_cons]; omega, fun c hc => ?_⟩, rfl⟩
        rcases List.mem_cons.1 hc with rfl | hc
        · decide
        rcases List.mem_cons.1 hc with rfl | hc
        · decide
        · exact e1 c hc

theorem run_one : ∀ rs : List Rec, run 1 rs = (rs.takeWhile fun x => x.type ≠ 6, if rs.any (fun x => x.type = 6) then none else some 1)
  | [] => rfl
  | r :: rs => by
    rw [run]
    by_cases h : r.type = 6
    · rw [if_pos h, if_neg (by simp)]
      simp [h]
    · rw [if_neg h, run_one rs]
      simp [h]

theorem plain_bytes_ok {c : UInt8} (h : isPlain c = true) : c ≠ 42 ∧ c ≠ 46 :=
  ⟨by rintro rfl; revert h; decide, plain_no_dot h⟩

theorem origin_plain {zone : Name} (hz : PlainName zone) : OriginOk zone :=
  ⟨plain_ok hz, hz.1, fun l hl => ⟨fun h => (plain_bytes_ok ((hz.2 l hl).2.2 _ h)).1 rfl, fun h => (plain_bytes_ok ((hz.2 l hl).2.2 _ h)).2 rfl⟩⟩

/-- **C79.** The zone file that fetchzone prints is read as the records of the zone that were sent before the second
SOA record, without those that are not in the zone.  If no second SOA record comes, `more` is empty: the connection
was closed. -/
theorem fetch_read_partial {zone : Name} (hz : PlainName zone) {arg : List UInt8} (ha : Argument zone arg) (hlen : (dotted zone).length ≤ 126)
    {rm : Nat} {ps : List Parcel} {cs more : List (List UInt8)} (hps : List.Forall₂ (Arrives rm) ps cs)
    {s : Rec} {rest : List Rec} (hall : allAnswers ps = s :: rest) (hs : s.type = 6) (hsz : Within zone s.name)
    (hend : complete (allAnswers ps) = true ∨ more = [])
    (hfit : ∀ r ∈ received (allAnswers ps), Fits zone r) (hfew : (received (allAnswers ps)).length < 100000)
    (hout : strangers zone (received (allAnswers ps)) ≤ 4900)
    (junk : List UInt8 → UInt8) (files : List UInt8 → Option (List UInt8)) {mode serial : Nat} (hmode : mode = 2 ∨ mode = 3) (hser : serial < 2 ^ 32) :
    (fetch arg junk rm (cs ++ more)).2 = .exit 0 ∧
    readText files mode serial (dotted zone) (fetch arg junk rm (cs ++ more)).1 =
      .ok (.read ((inside zone (received (allAnswers ps))).map (toEntry ∘ toLine))) := by
  have hw := zoneWire_dotted hz ha
  have harg : arg.length ≤ (dotted zone).length := by
    rcases ha with h | h
    · rw [h]
    · rw [← h]; simp
  rw [if_neg (by omega)] at hw
  have hrun : run 0 (allAnswers ps) = (received (allAnswers ps), if complete (allAnswers ps) = true then none else some 1) := by
    rw [hall, run, if_pos hs, if_pos rfl, run_one]
    rfl
  obtain ⟨out, fin, h1, h2, h3⟩ := messages_run hz junk more 0 hps (by rw [hrun]; exact hfit) (by
    rw [hrun]
    rcases hend with h | h
    · left; dsimp only; rw [if_pos h]
    · exact .inr h)
  rw [hrun] at h1
  dsimp only at h1
  have hfetch : fetch arg junk rm (cs ++ more) = (out ++ fin, .exit 0) := by rw [fetch, hw]; exact h3
  obtain ⟨fp, hf1, hf2, hf3⟩ := ends_pieces h2
  obtain ⟨pre, lines, k1, k2, k3, k4, k5, k6, k7⟩ := prints_file h1 hf2 hf3 hout
  obtain ⟨hpre, hfree⟩ := k7 s (rest.takeWhile fun x => x.type ≠ 6) (by rw [hall]; rfl) hsz (by omega)
  subst hpre
  rw [hfetch]
  refine ⟨rfl, ?_⟩
  have hok : File.Ok mode serial zone ⟨[], true, lines⟩ := {
    head := fun _ h => (by cases h)
    pipes := by simp
    short := by simp
    line := fun _ h => (by cases h)
    lines := (k4 serial _).1
    style := by simpa using hmode
    first := fun _ => hfree
    pushes := by simp [k5]
    few := by
      have h1 := List.countP_le_length (p := fun x : Line × Sep => x.1.isRecord) (l := lines)
      have h2 : (inside zone (received (allAnswers ps))).length ≤ (received (allAnswers ps)).length := List.length_filter_le _ _
      dsimp only
      omega }
  have := Csv2.text_exact files (origin_plain hz) hser hok
  rw [File.text, File.records, (k4 serial _).2] at this
  dsimp only at this ⊢
  rw [hf1, k1, this, List.map_map]

end Fetch
end Mara

namespace Mara
namespace Fetch

open Spec (ascii Name Rec Parcel encName dotted LabelsOk memOf Legible NameBy)
open Spec.Transfer
open Decomp (bytesAt_dec exParcel exBytes)

/-! ## An example -/

/-- The SOA record of `b.c.`, and an address for `x.`, which is not in the zone. -/
def exFirst : List UInt8 :=
  [0, 1, 132, 0, 0, 0, 0, 2, 0, 0, 0, 0] ++
  ([1, 98, 1, 99, 0] ++ [0, 6, 0, 1, 0, 0, 0, 60, 0, 26] ++ [192, 12, 1, 104, 192, 12] ++ [0, 0, 0, 1, 0, 0, 0, 2, 0, 0, 0, 3, 0, 0, 0, 4, 0, 0, 0, 5]) ++
  ([1, 120, 0] ++ [0, 1, 0, 1, 0, 0, 0, 60, 0, 4] ++ [10, 1, 2, 3])

def exSoa : Rec :=
  ⟨[[98], [99]], 6, [0, 1], 60, [], [[[98], [99]], [[104], [98], [99]]], [0, 0, 0, 1, 0, 0, 0, 2, 0, 0, 0, 3, 0, 0, 0, 4, 0, 0, 0, 5]⟩

def exOther : Rec := ⟨[[120]], 1, [0, 1], 60, [], [], [10, 1, 2, 3]⟩

def exMx : Rec := ⟨[[98], [99]], 15, [0, 1], 60, [0, 10], [[[97], [98], [99]]], []⟩

def exFirstParcel : Parcel := ⟨[0, 1, 132, 0, 0, 0, 0, 2, 0, 0, 0, 0], none, [exSoa, exOther]⟩

theorem exSoa_ok : exSoa.Ok := ⟨by decide, rfl, by decide, by decide, by decide⟩

theorem exOther_ok : exOther.Ok := ⟨by decide, rfl, by decide, by decide, by decide⟩

theorem exFirst_ok : exFirstParcel.Ok := by
  refine ⟨rfl, rfl, fun x hx => (by cases hx), rfl, ?_, ?_, ?_⟩
  · intro r hr
    rcases List.mem_cons.1 hr with rfl | hr
    · exact exSoa_ok
    · rw [List.mem_singleton.1 hr]; exact exOther_ok
  · intro r hr
    rcases List.mem_cons.1 hr with rfl | hr
    · exact fun h => (by cases h)
    · rw [List.mem_singleton.1 hr]; exact fun _ => rfl
  · intro r hr
    rcases List.mem_cons.1 hr with rfl | hr
    · exact fun h => (by cases h)
    · rw [List.mem_singleton.1 hr]; exact fun h => (by cases h)

theorem exFirst_by : NameBy (memOf exFirst) 3 12 [[98], [99]] :=
  .label ⟨by decide, by decide, rfl, by decide⟩ (.label ⟨by decide, by decide, rfl, by decide⟩ (.root rfl))

theorem exFirst_via : exFirstParcel.Via (Legible (memOf exFirst)) exFirst := by
  refine ⟨⟨_, rfl⟩, 12, 70, rfl, .cons (e := 53) ⟨17, 33, ⟨by decide, 3, by decide, exFirst_by⟩, ?_, bytesAt_dec (by decide), by decide, by decide,
    bytesAt_dec (by decide), ?_, bytesAt_dec (by decide), rfl⟩ (.cons ⟨56, 66, ⟨by decide, 2, by decide, ?_⟩, ?_, bytesAt_dec (by decide), by decide, by decide,
    bytesAt_dec (by decide), .nil, bytesAt_dec (by decide), rfl⟩ .nil), by decide⟩
  · exact .label (l := [98]) ⟨by decide, by decide, rfl, by decide⟩ (.label (l := [99]) ⟨by decide, by decide, rfl, by decide⟩ (.root rfl))
  · refine .cons (e := 29) ⟨by decide, 4, by decide, ?_⟩ ?_ (.cons (e := 33) ⟨by decide, 5, by decide, ?_⟩ ?_ .nil)
    · exact .pointer (x := 192) (y := 12) rfl (by decide) rfl (by decide) (by decide) exFirst_by
    · exact .pointer (x := 192) rfl (by decide)
    · exact .label ⟨by decide, by decide, rfl, by decide⟩ (.pointer (x := 192) (y := 12) rfl (by decide) rfl (by decide) (by decide) exFirst_by)
    · exact .label (l := [104]) ⟨by decide, by decide, rfl, by decide⟩ (.pointer (x := 192) rfl (by decide))
  · exact .label ⟨by decide, by decide, rfl, by decide⟩ (.root rfl)
  · exact .label (l := [120]) ⟨by decide, by decide, rfl, by decide⟩ (.root rfl)

theorem exFirst_arrives : Arrives 4512 exFirstParcel exFirst := ⟨exFirst_ok, exFirst_via, rfl, by decide, by decide⟩

theorem exSecond_arrives : Arrives 4512 exParcel exBytes := ⟨Decomp.exParcel_ok, Decomp.exParcel_via, rfl, by decide, by decide⟩

theorem exSoa_plain : Plain exSoa := by
  refine ⟨⟨by decide, by decide +kernel⟩, by decide +kernel, by decide, by decide, by decide, ?_⟩
  exact ⟨[[98], [99]], [104], [[98], [99]], rfl, ⟨by decide, by decide +kernel⟩, ⟨by decide, by decide +kernel⟩, ⟨by decide, by decide +kernel⟩, by decide, by decide +kernel⟩

theorem exOther_plain : Plain exOther :=
  ⟨⟨by decide, by decide +kernel⟩, by decide +kernel, by decide, by decide, by decide, show 1 ∉ [255, 251, 252, 253, 254, 38, 39, 41] by decide⟩

theorem exMx_plain : Plain exMx := by
  refine ⟨⟨by decide, by decide +kernel⟩, by decide +kernel, by decide, by decide, by decide, ?_⟩
  change ∀ n ∈ [[[97], [98], [99]]], PlainName n ∧ (encName n).length ≤ 253
  unfold PlainName
  decide +kernel

theorem exAll : allAnswers [exFirstParcel, exParcel, exFirstParcel] = [exSoa, exOther, exMx, exSoa, exOther] := by decide +kernel

theorem exReceived : received (allAnswers [exFirstParcel, exParcel, exFirstParcel]) = [exSoa, exOther, exMx] := by decide +kernel

/-- The zone arrives, and then the SOA record once more. -/
example : (fetch (ascii "b.c") (fun _ => 7) 4512 ([exFirst, exBytes, exFirst] ++ [[1, 2]])).2 = .exit 0 ∧
    Csv2.readText (fun _ => none) 2 5 (dotted [[98], [99]]) (fetch (ascii "b.c") (fun _ => 7) 4512 ([exFirst, exBytes, exFirst] ++ [[1, 2]])).1 =
      .ok (.read ((inside [[98], [99]] [exSoa, exOther, exMx]).map (Csv2.toEntry ∘ toLine))) := by
  rw [← exReceived]
  refine fetch_read_partial (zone := [[98], [99]]) ⟨by decide, by decide +kernel⟩ (.inr (by decide +kernel)) (by decide)
    (ps := [exFirstParcel, exParcel, exFirstParcel]) (.cons exFirst_arrives (.cons exSecond_arrives (.cons exFirst_arrives .nil)))
    (s := exSoa) (rest := [exOther, exMx, exSoa, exOther]) exAll rfl (by decide) (.inl (by rw [exAll]; rfl)) ?_ ?_ ?_ _ _ (.inl rfl) (by decide +kernel)
  · rw [exReceived]
    intro r hr
    rcases List.mem_cons.1 hr with rfl | hr
    · exact ⟨exSoa_plain, by decide⟩
    rcases List.mem_cons.1 hr with rfl | hr
    · exact ⟨exOther_plain, by decide⟩
    · rw [List.mem_singleton.1 hr]
      exact ⟨exMx_plain, by decide⟩
  · rw [exReceived]; decide +kernel
  · rw [exReceived]; decide +kernel

example : inside [[98], [99]] [exSoa, exOther, exMx] = [exSoa, exMx] ∧ (fetch (ascii "b.c") (fun _ => 7) 4512 [exFirst, exBytes, exFirst]).1 =
    ascii "b.c. +60 soa b.c. h@b.c. 1 2 3 4 5 ~ \n# Disabled out-of-bailiwick record follows\n# x. +60 a 10.1.2.3 ~ \nb.c. +60 mx 10 a.b.c. ~ \n# Second SOA received, exiting\n" := by
  refine ⟨by decide, by decide +kernel⟩

/-! ## Records that are lost -/

/-- A SOA record and another record with these bytes, as one message. -/
def exWith (r : List UInt8) : List UInt8 :=
  [0, 1, 132, 0, 0, 0, 0, 2, 0, 0, 0, 0] ++
  ([1, 98, 1, 99, 0] ++ [0, 6, 0, 1, 0, 0, 0, 60, 0, 26] ++ [192, 12, 1, 104, 192, 12] ++ [0, 0, 0, 1, 0, 0, 0, 2, 0, 0, 0, 3, 0, 0, 0, 4, 0, 0, 0, 5]) ++ r

/-- A name with a slash, as they are used for the reverse zones of small networks (RFC 2317), is written in a way that
the zone file parser does not accept: this record and all that follow are not read. -/
theorem slash_lost : (fetch (ascii "b.c") (fun _ => 7) 4512 [exWith ([3, 48, 47, 49, 192, 12] ++ [0, 1, 0, 1, 0, 0, 0, 60, 0, 4] ++ [10, 1, 2, 3]), exBytes, exFirst]) =
      (ascii "b.c. +60 soa b.c. h@b.c. 1 2 3 4 5 ~ \n0\\x2f1.b.c. +60 a 10.1.2.3 ~ \nb.c. +60 mx 10 a.b.c. ~ \n# Second SOA received, exiting\n", .exit 0) ∧
    Csv2.readText (fun _ => none) 2 5 (dotted [[98], [99]])
      (ascii "b.c. +60 soa b.c. h@b.c. 1 2 3 4 5 ~ \n0\\x2f1.b.c. +60 a 10.1.2.3 ~ \nb.c. +60 mx 10 a.b.c. ~ \n# Second SOA received, exiting\n") =
      .ok (.partly [Csv2.toEntry (toLine exSoa)]) := by
  decide +kernel

/-- An empty text is written as nothing: this record and all that follow are not read. -/
theorem empty_text_lost : (fetch (ascii "b.c") (fun _ => 7) 4512 [exWith ([192, 12] ++ [0, 16, 0, 1, 0, 0, 0, 60, 0, 1] ++ [0]), exBytes, exFirst]) =
      (ascii "b.c. +60 soa b.c. h@b.c. 1 2 3 4 5 ~ \nb.c. +60 txt  ~ \nb.c. +60 mx 10 a.b.c. ~ \n# Second SOA received, exiting\n", .exit 0) ∧
    Csv2.readText (fun _ => none) 2 5 (dotted [[98], [99]])
      (ascii "b.c. +60 soa b.c. h@b.c. 1 2 3 4 5 ~ \nb.c. +60 txt  ~ \nb.c. +60 mx 10 a.b.c. ~ \n# Second SOA received, exiting\n") =
      .ok (.partly [Csv2.toEntry (toLine exSoa)]) := by
  decide +kernel

/-- When the name of the zone is given in capitals, all records are made comments. -/
theorem capitals_lost : fetch (ascii "B.C") (fun _ => 7) 4512 [exFirst] =
      (ascii "# Disabled out-of-bailiwick record follows\n# b.c. +60 soa b.c. h@b.c. 1 2 3 4 5 ~ \n# Disabled out-of-bailiwick record follows\n# x. +60 a 10.1.2.3 ~ \n", .exit 0) := by
  decide +kernel

end Fetch
end Mara
