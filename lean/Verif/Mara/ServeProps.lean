import Verif.Mara.ServeRun
import Verif.Mara.Csv2Props
import Verif.Mara.Csv2Prefix
/-!
# C81: zones are sent as their text says
-/

namespace Mara
namespace Serve

open Dw (Res)
open Spec (dotted Name Host ZoneLine Given encName LabelsOk lowName madeNs madeSoa be16 be32 ttlOf fileRecords lower digit decimal reverse4 reverse6 hex8 ascii)
open Spec.ZoneText
open Spec.Serve
open Csv2 (Entry toEntry readText Wrong)
open Zf (Env St Rr ZoneOk)

/-! ## What the text says can be sent -/

theorem entries_ttl (serial : Nat) : ∀ (l : List (Line × Sep)) (c : Ctx), ∀ e ∈ entries serial c l, 0 ≤ e.ttl
  | [], _, _, he => by cases he
  | (l, s) :: r, c, e, he => by
    rw [entries, List.mem_append] at he
    rcases he with he | he
    · cases l with
      | record n g t cs b =>
        rw [List.mem_singleton.mp he]
        dsimp only
        split <;> exact Int.natCast_nonneg _
      | ttl _ _ => cases he
      | origin _ _ => cases he
      | push _ _ => cases he
      | pop =>
        have hn : (step serial c .pop).2 = [] := by
          unfold step
          cases c.stack <;> rfl
        rw [hn] at he
        cases he
    · exact entries_ttl serial r _ e he

theorem lines_ok {h : Host} {mode : Nat} {zone : Name} {f : File} (hx : Csv2.ZoneText.Ok h mode (zone, f)) :
    ∀ e ∈ f.records h.serial zone, LineOk zone e := fun e he =>
  ⟨hx.fileOk.entry e he, entries_ttl _ _ _ e he⟩

theorem entries_count (serial : Nat) : ∀ (l : List (Line × Sep)) (c : Ctx), (entries serial c l).length = l.countP fun x => x.1.isRecord
  | [], _ => rfl
  | (l, s) :: r, c => by
    rw [entries, List.length_append, entries_count serial r, List.countP_cons, Nat.add_comm]
    congr 1
    cases l with
    | record n g t cs b => rfl
    | ttl _ _ => rfl
    | origin _ _ => rfl
    | push _ _ => rfl
    | pop =>
      unfold step
      cases c.stack <;> rfl

theorem few_ok {h : Host} {mode : Nat} {zone : Name} {f : File} (hx : Csv2.ZoneText.Ok h mode (zone, f)) :
    (f.records h.serial zone).length < 100000 := by
  have := hx.file.few
  unfold File.records
  rw [entries_count]
  exact this

/-! ## The theorems -/

/-- **C81.** What is sent of a zone is the records which the text of its file says, a message for each, with the SOA
record first and last. -/
theorem serve_exact {h : Host} (files : List UInt8 → Option (List UInt8)) {mode : Nat} {zone : Name} {f : File}
    (hx : Csv2.ZoneText.Ok h mode (zone, f)) (hser : h.serial < 2 ^ 32) (hch : h.chosen.length ≤ 13)
    (hne : f.records h.serial zone ≠ []) (hs : ∀ e, (f.records h.serial zone).head? = some e → e.type = 6 → e.star = false)
    (hfit : ∀ c ∈ zoneSent h zone (f.records h.serial zone), Fits (soaOf h zone (f.records h.serial zone)) c)
    {q : List UInt8} {hd : Reply.Hdr} (hq : Reply.readHdr q = some hd) :
    serve files mode (env2 h zone) (dotted zone) hd false f.text =
      .ok (some (sending q (zoneSent h zone (f.records h.serial zone)), true)) := by
  have hr := Csv2.text_exact files hx.origin hser hx.file
  have hlen := few_ok hx
  exact transfer_ok (fin := true) hx.zone hch (parse_yields (Nat.le_refl _) hr (fun h => by cases h)) hne (lines_ok hx) hs
    (fun h => by cases h) (Nat.lt_trans hlen (by decide)) hfit hq

/-- **C81.** If the SOA record is asked for first, it is given with the name servers of the zone, and the zone is sent. -/
theorem serve_soa {h : Host} (files : List UInt8 → Option (List UInt8)) {mode : Nat} {zone : Name} {f : File}
    (hx : Csv2.ZoneText.Ok h mode (zone, f)) (hser : h.serial < 2 ^ 32) (hch : h.chosen.length ≤ 13)
    (hne : f.records h.serial zone ≠ []) (hs : ∀ e, (f.records h.serial zone).head? = some e → e.type = 6 → e.star = false)
    (hfit : ∀ c ∈ zoneSent h zone (f.records h.serial zone), Fits (soaOf h zone (f.records h.serial zone)) c)
    (htop : (f.records h.serial zone).length ≤ 28 ∨ ∃ e ∈ (f.records h.serial zone).take 28, e.type ≠ 6 ∧ e.own zone = false)
    (hdel : ∀ e, (othersOf zone (f.records h.serial zone)).head? = some e → e.type ≠ 2)
    (hsz : 12 + (encName zone).length + 4 + (soaOf h zone (f.records h.serial zone)).bytes.length +
      (((bodySent h zone (f.records h.serial zone)).takeWhile fun c => decide (c.type = 2)).flatMap Copy.bytes).length ≤ 2047)
    {q : List UInt8} {hd : Reply.Hdr} (hq : Reply.readHdr q = some hd) :
    serve files mode (env2 h zone) (dotted zone) hd true f.text =
      .ok (some (message q zone 6 (soaOf h zone (f.records h.serial zone))
          ((bodySent h zone (f.records h.serial zone)).takeWhile fun c => decide (c.type = 2)) ::
        sending q (zoneSent h zone (f.records h.serial zone)), true)) := by
  have hr := Csv2.text_exact files hx.origin hser hx.file
  have hlen := few_ok hx
  exact transfer_soa hx.zone hch (parse_yields (fin := true) (Nat.le_refl _) hr (fun h => by cases h)) hne (lines_ok hx) hs
    (Nat.lt_trans hlen (by decide)) hfit htop hdel hsz hq

/-- **C81.** A mistake in the file does not show: the records before it are sent as if they were the zone. -/
theorem serve_cut {h : Host} (files : List UInt8 → Option (List UInt8)) {mode : Nat} {zone : Name} {f : File}
    (hx : Csv2.ZoneText.Ok h mode (zone, f)) (hser : h.serial < 2 ^ 32) (hch : h.chosen.length ≤ 13)
    (hne : f.records h.serial zone ≠ []) (hs : ∀ e, (f.records h.serial zone).head? = some e → e.type = 6 → e.star = false)
    (hfit : ∀ c ∈ zoneSent h zone (f.records h.serial zone), Fits (soaOf h zone (f.records h.serial zone)) c)
    (hother : ∃ e ∈ f.records h.serial zone, e.type ≠ 6 ∧ e.own zone = false)
    {c : UInt8} (hc : Wrong c) (t : List UInt8)
    {q : List UInt8} {hd : Reply.Hdr} (hq : Reply.readHdr q = some hd) :
    serve files mode (env2 h zone) (dotted zone) hd false (f.text ++ c :: t) =
      .ok (some (sending q (zoneSent h zone (f.records h.serial zone)), true)) := by
  have hl : f.lines ≠ [] := by
    intro he
    apply hne
    unfold File.records
    rw [he]
    rfl
  have hlen := few_ok hx
  have hr := Csv2.mistake_ends files hx.origin hser hx.file hl hc t
  exact transfer_ok (fin := false) hx.zone hch (parse_yields (Nat.le_refl _) hr (fun _ => by simpa using hlen)) hne (lines_ok hx) hs
    (fun _ => Or.inr hother) (Nat.lt_trans hlen (by decide)) hfit hq

/-- If the file has no records, there is a null pointer. -/
theorem serve_empty {h : Host} (files : List UInt8 → Option (List UInt8)) {mode : Nat} {zone : Name} {f : File}
    (hx : Csv2.ZoneText.Ok h mode (zone, f)) (hser : h.serial < 2 ^ 32) (hne : f.records h.serial zone = []) (hd : Reply.Hdr) :
    serve files mode (env2 h zone) (dotted zone) hd false f.text = .ub := by
  have hr := Csv2.text_exact files hx.origin hser hx.file
  dsimp only at hr
  rw [hne] at hr
  have hy := parse_yields (fin := true) (l := []) (Nat.le_refl _) hr (fun h => by cases h)
  unfold serve transfer
  rw [firstLoop, if_neg (by decide)]
  cases hy with
  | stop hf h1 h2 h3 =>
    have h1' : next files (f.text.length + 1) { origin := dotted zone, serial := (env2 h zone).serial } (Csv2.Stream.start mode f.text) =
        .ok (.stop, _) := h1
    dsimp only
    rw [h1']
    rfl
  | bad hf _ => cases hf

/-- A record that is sent, as the server has it: names without capitals, times within bounds. -/
def asKept (c : Copy) : Copy := ⟨lowName c.name, c.type, ttlOf c.ttl, c.data⟩

theorem lower_lower (c : UInt8) : lower (lower c) = lower c := by
  have key : ∀ n : Fin 256, lower (lower (UInt8.ofNat n)) = lower (UInt8.ofNat n) := by decide +kernel
  have := key ⟨c.toNat, c.toNat_lt⟩
  simpa using this

theorem lowName_low (n : Name) : lowName (lowName n) = lowName n := by
  unfold lowName
  rw [List.map_map]
  refine List.map_congr_left fun l _ => ?_
  show (l.map lower).map lower = l.map lower
  rw [List.map_map]
  exact List.map_congr_left fun c _ => lower_lower c

theorem lower_digit (n : Nat) : lower (digit n) = digit n := by
  by_cases h : n < 16
  · have key : ∀ n : Fin 16, lower (digit n) = digit n := by decide +kernel
    exact key ⟨n, h⟩
  · have : digit n = 32 := by
      unfold digit
      have hl : "0123456789abcdef".toList.length = 16 := by decide +kernel
      rw [List.getD_eq_getElem?_getD, List.getElem?_eq_none (by omega)]
      rfl
    rw [this]
    rfl

theorem lower_decimal (n : Nat) : (decimal n).map lower = decimal n := by
  unfold decimal
  split_ifs <;> simp [lower_digit]

theorem low_reverse4 (ip : List UInt8) : lowName (reverse4 ip) = reverse4 ip := by
  unfold lowName reverse4
  rw [List.map_append, List.map_map]
  congr 1
  exact List.map_congr_left fun b _ => lower_decimal _

theorem low_reverse6 (ip : List UInt8) : lowName (reverse6 ip) = reverse6 ip := by
  unfold lowName reverse6
  rw [List.map_append]
  congr 1
  rw [List.map_flatMap]
  congr 1
  funext b
  simp [lower_digit]

theorem low_hex8 (n : Nat) : (hex8 n).map lower = hex8 n := by simp [hex8, lower_digit]

theorem low_starred (b : Bool) (n : Name) : lowName (starred b n) = starred b (lowName n) := by
  cases b
  · rfl
  · rfl

theorem kept_copy {t : Int} (ht : 0 ≤ t) {g : Given} (hl : lowName g.name = g.name) (hg : g.ttl = ttlOf t) :
    asKept (copy t g) = copy g.ttl g := by
  unfold asKept copy
  simp only [low_starred, hl, hg]
  rw [Int.toNat_of_nonneg ht]
  rfl

theorem kept_stands {zone : Name} {e : ZoneLine} (ht : 0 ≤ e.ttl) : (lineSent zone e).map asKept = (e.stands zone).map fun g => copy g.ttl g := by
  unfold lineSent
  rw [List.map_map]
  refine List.map_congr_left fun g hg => ?_
  show asKept (copy e.ttl g) = _
  unfold ZoneLine.stands at hg
  dsimp only at hg
  by_cases h4 : e.type = 65765
  · rw [if_pos h4] at hg
    rcases List.mem_cons.mp hg with rfl | hg
    · exact kept_copy ht (low_reverse4 _) rfl
    · rw [List.mem_singleton.mp hg]
      exact kept_copy ht (lowName_low _) rfl
  · by_cases h6 : e.type = 65766
    · rw [if_neg h4, if_pos h6] at hg
      rcases List.mem_cons.mp hg with rfl | hg
      · exact kept_copy ht (low_reverse6 _) rfl
      · rw [List.mem_singleton.mp hg]
        exact kept_copy ht (lowName_low _) rfl
    · rw [if_neg h4, if_neg h6] at hg
      rw [List.mem_singleton.mp hg]
      exact kept_copy ht (lowName_low _) rfl

theorem kept_made {h : Host} {zone : Name} (hz : lowName zone = zone) :
    ((madeNs h zone).map (copy 86400)).map asKept = (madeNs h zone).map fun g => copy g.ttl g := by
  rw [List.map_map]
  refine List.map_congr_left fun g hg => ?_
  unfold madeNs at hg
  rcases List.mem_append.mp hg with hg | hg
  · obtain ⟨ip, -, rfl⟩ := List.mem_map.mp hg
    exact kept_copy (by decide) hz rfl
  · obtain ⟨ip, -, rfl⟩ := List.mem_map.mp hg
    refine kept_copy (by decide) ?_ rfl
    show ((ascii "synth-ip-" ++ hex8 ip).map lower) :: lowName zone = _
    rw [List.map_append, low_hex8, hz]
    congr 1

theorem stands_own {zone : Name} {e : ZoneLine} (h : e.own zone = true) : e.stands zone = [e.given zone] := by
  have h2 : e.type = 2 := (of_decide_eq_true h).2.2
  unfold ZoneLine.stands
  dsimp only
  rw [if_neg (by omega), if_neg (by omega)]

/-- **C81.** What is sent of a zone is what the server itself answers with; only the order, the capitals in the name of
the SOA record, and times below one minute or above two years may be different. -/
theorem sent_kept {h : Host} {zone : Name} (hz : lowName zone = zone) {es : List ZoneLine} (hne : es ≠ []) (ht : ∀ e ∈ es, 0 ≤ e.ttl)
    (hs : ∀ e, es.head? = some e → e.type = 6 → e.star = false) :
    ((zoneSent h zone es).map asKept).Perm ((fileRecords h zone es).map fun g => copy g.ttl g) := by
  obtain ⟨e, l, rfl⟩ := List.exists_cons_of_ne_nil hne
  have hrest : (if e.type = 6 then l else e :: l).filter (fun e => decide (e.type ≠ 6)) = restOf (e :: l) := by
    unfold restOf
    by_cases h6 : e.type = 6
    · rw [if_pos h6, List.filter_cons_of_neg (by simp [h6])]
    · rw [if_neg h6]
  have hsoa : asKept (soaOf h zone (e :: l)) = (fun g : Given => copy g.ttl g) (if e.type = 6 then e.given zone else madeSoa h zone) := by
    unfold soaOf
    dsimp only
    by_cases h6 : e.type = 6
    · rw [if_pos h6, if_pos h6]
      have h1 := hs e rfl h6
      have h2 := ht e List.mem_cons_self
      unfold asKept copy ZoneLine.given
      dsimp only
      rw [h1, h6, Int.toNat_of_nonneg h2]
      rfl
    · rw [if_neg h6, if_neg h6]
      exact kept_copy (by decide) hz rfl
  have hsub : ∀ x ∈ restOf (e :: l), 0 ≤ x.ttl := fun x hx => ht x (List.mem_of_mem_filter hx)
  have hflat : ∀ m : List ZoneLine, (∀ x ∈ m, 0 ≤ x.ttl) →
      (m.flatMap (lineSent zone)).map asKept = (m.flatMap (ZoneLine.stands zone)).map fun g => copy g.ttl g := by
    intro m hm
    rw [List.map_flatMap, List.map_flatMap]
    exact List.flatMap_congr fun x hx => kept_stands (hm x hx)
  have htop : (topOf zone (e :: l)).flatMap (ZoneLine.stands zone) = (topOf zone (e :: l)).map (ZoneLine.given zone) := by
    rw [List.map_eq_flatMap]
    refine List.flatMap_congr fun x hx => stands_own ?_
    exact List.all_eq_true.mp (List.all_takeWhile (p := ZoneLine.own zone) (l := restOf (e :: l))) x hx
  have htopt : ∀ x ∈ topOf zone (e :: l), 0 ≤ x.ttl := fun x hx => hsub x ((List.takeWhile_sublist _).subset hx)
  have hotht : ∀ x ∈ othersOf zone (e :: l), 0 ≤ x.ttl := fun x hx =>
    hsub x ((List.dropWhile_sublist _).subset (List.mem_of_mem_filter hx))
  have hfile : fileRecords h zone (e :: l) =
      if (othersOf zone (e :: l)).isEmpty then (topOf zone (e :: l)).map (ZoneLine.given zone) ++ [if e.type = 6 then e.given zone else madeSoa h zone]
      else (if (topOf zone (e :: l)).isEmpty then madeNs h zone else (topOf zone (e :: l)).map (ZoneLine.given zone)) ++
        [if e.type = 6 then e.given zone else madeSoa h zone] ++ (othersOf zone (e :: l)).flatMap (ZoneLine.stands zone) := by
    unfold fileRecords topOf othersOf
    dsimp only
    rw [hrest]
  have hmove : ∀ (a : Copy) (x y : List Copy), (a :: (x ++ y)).Perm (x ++ [a] ++ y) := by
    intro a x y
    rw [List.append_assoc]
    exact List.perm_middle.symm
  generalize hg : (if e.type = 6 then e.given zone else madeSoa h zone) = g at hsoa hfile
  unfold zoneSent
  rw [hfile, List.map_cons, hsoa]
  unfold bodySent
  by_cases ho : othersOf zone (e :: l) = []
  · rw [if_neg (fun hc => hc.2 ho), ho, List.map_append, hflat _ htopt, htop]
    simp only [List.isEmpty_nil, if_true, List.flatMap_nil, List.map_nil, List.map_append, List.map_cons, List.append_nil]
    simpa using hmove _ _ []
  · have hoe : (othersOf zone (e :: l)).isEmpty = false := by simpa using ho
    rw [hoe, if_neg (show ¬ (false = true) by simp), List.map_append, List.map_append, List.map_append, hflat _ hotht]
    by_cases ht0 : topOf zone (e :: l) = []
    · rw [if_pos ⟨ht0, ho⟩, kept_made hz, ht0]
      exact hmove _ _ _
    · have hte : (topOf zone (e :: l)).isEmpty = false := by simpa using ht0
      rw [if_neg (fun hc => ht0 hc.1), hflat _ htopt, htop, hte, if_neg (show ¬ (false = true) by simp)]
      exact hmove _ _ _

/-! ## Examples -/

open Csv2 (exFile exZone exHost exText_ok exFile_ok)

def exQ : List UInt8 := [171, 205, 0, 0, 0, 1, 0, 0, 0, 0, 0, 0]

-- the messages: the SOA record that is made up, the records of the file, and the SOA record again
theorem exSent : zoneSent exHost exZone (exFile.records 1 exZone) =
    [⟨exZone, 6, 86400, encName exZone ++ encName (ascii "hostmaster" :: exZone) ++ [0, 0, 0, 1, 0, 0, 28, 32, 0, 0, 14, 16, 0, 9, 58, 128, 0, 0, 14, 16]⟩,
     ⟨exZone, 2, 86400, encName (ascii "ns" :: exZone)⟩,
     ⟨ascii "www" :: Csv2.exSub, 28, 7200, [32, 1, 13, 184, 0, 0, 0, 0, 0, 0, 0, 0, 0, 0, 0, 1]⟩,
     ⟨ascii "*" :: Csv2.exSub, 16, 60, [3, 97, 32, 98, 3, 99, 255, 39]⟩,
     ⟨ascii "mail" :: exZone, 1, 60, [10, 0, 0, 1]⟩] := by
  decide +kernel

example {hd : Reply.Hdr} (hq : Reply.readHdr exQ = some hd) :
    serve (fun _ => none) 2 (env2 exHost exZone) (ascii "example.com.") hd false exFile.text =
      .ok (some (sending exQ (zoneSent exHost exZone (exFile.records 1 exZone)), true)) :=
  serve_exact (h := exHost) _ (exText_ok _ List.mem_cons_self) (by decide) (by decide) (by decide) (by intro e he h6; cases he; cases h6)
    (by decide +kernel) hq

example : (sending exQ (zoneSent exHost exZone (exFile.records 1 exZone))).map List.length = [111, 70, 78, 68, 63, 111] := by
  decide +kernel

example {hd : Reply.Hdr} (hq : Reply.readHdr exQ = some hd) :
    serve (fun _ => none) 2 (env2 exHost exZone) (ascii "example.com.") hd true exFile.text =
      .ok (some (message exQ exZone 6 (soaOf exHost exZone (exFile.records 1 exZone)) [⟨exZone, 2, 86400, encName (ascii "ns" :: exZone)⟩] ::
        sending exQ (zoneSent exHost exZone (exFile.records 1 exZone)), true)) :=
  serve_soa (h := exHost) _ (exText_ok _ List.mem_cons_self) (by decide) (by decide) (by decide) (by intro e he h6; cases he; cases h6)
    (by decide +kernel) (Or.inl (by decide)) (by intro e he; cases he; decide) (by decide +kernel) hq

-- with an exclamation mark and more after it
example {hd : Reply.Hdr} (hq : Reply.readHdr exQ = some hd) :
    serve (fun _ => none) 2 (env2 exHost exZone) (ascii "example.com.") hd false (exFile.text ++ 33 :: ascii "a.% 10.0.0.2 ~") =
      .ok (some (sending exQ (zoneSent exHost exZone (exFile.records 1 exZone)), true)) :=
  serve_cut (h := exHost) _ (exText_ok _ List.mem_cons_self) (by decide) (by decide) (by decide) (by intro e he h6; cases he; cases h6)
    (by decide +kernel) ⟨_, List.mem_cons_of_mem _ List.mem_cons_self, by decide +kernel, by decide +kernel⟩ (by decide) _ hq

example : ∃ hd, Reply.readHdr exQ = some hd := ⟨_, rfl⟩

def exNone : File := ⟨[.comment (ascii " nothing") 10], true, []⟩

example (hd : Reply.Hdr) : serve (fun _ => none) 2 (env2 exHost exZone) (ascii "example.com.") hd false (ascii "# nothing\n") = .ub :=
  serve_empty (h := exHost) (f := exNone) _ ⟨(exText_ok _ List.mem_cons_self).zone, (exText_ok _ List.mem_cons_self).bytes,
    { head := (by intro p h; rw [List.mem_singleton.mp h]; exact ⟨Or.inl rfl, by decide +kernel, by decide +kernel⟩), pipes := by decide, short := by decide, line := (by intro p h; cases h; rfl), lines := trivial, style := Or.inl rfl,
      first := (by intro _ x hx; cases hx), pushes := by decide, few := by decide }, by decide, by decide⟩ (by decide) rfl hd

-- capitals and a short time: as they are in what is sent, not as the server has them
def exShort : List ZoneLine := [⟨false, [ascii "EXAMPLE", ascii "com"], 6, 86400, [1]⟩, ⟨false, exZone, 2, 86400, encName exZone⟩,
  ⟨false, [ascii "A", ascii "example", ascii "com"], 1, 5, [10, 0, 0, 1]⟩]

example : ((zoneSent exHost exZone exShort).map asKept).Perm ((fileRecords exHost exZone exShort).map fun g => copy g.ttl g) :=
  sent_kept (by decide +kernel) (by decide) (by decide) (by intro e he _; cases he; rfl)

example : zoneSent exHost exZone exShort = [⟨[ascii "EXAMPLE", ascii "com"], 6, 86400, [1]⟩, ⟨exZone, 2, 86400, encName exZone⟩,
    ⟨[ascii "a", ascii "example", ascii "com"], 1, 5, [10, 0, 0, 1]⟩] ∧
    (fileRecords exHost exZone exShort).map (fun g => copy g.ttl g) = [⟨exZone, 2, 86400, encName exZone⟩, ⟨exZone, 6, 86400, [1]⟩,
      ⟨[ascii "a", ascii "example", ascii "com"], 1, 60, [10, 0, 0, 1]⟩] := by
  decide +kernel

end Serve
end Mara
