import Verif.Mara.PlainVia
import Verif.Mara.FetchProps
import Verif.Mara.ServeProps
import Verif.Spec.Mirror
/-!
# Zones that are fetched by another server of the same kind
-/

namespace Mara
namespace Mirror

open Spec Spec.Mirror Spec.Serve
open Spec.ZoneText (isPlain NameText Line Sep Ctx LinesOk entries step File)
open Csv2 (OriginOk)

/-! ## The messages -/

def headOf (q : List UInt8) : List UInt8 := [q.getD 0 0, q.getD 1 0, (q.getD 2 0 &&& 121) ||| 132, 0, 0, 1, 0, 1, 0, 0, 0, 0]

def parcelOf (q : List UInt8) (n : Name) (r : Rec) : Parcel := ⟨headOf q, some (n, be16 252 ++ be16 1), [r]⟩

theorem message_drop {q : List UInt8} {n : Name} {r : Rec} (hc : r.cls = [0, 1]) :
    (message q n 252 (sentAs r) []).drop 2 = (parcelOf q n r).bytes := by
  unfold message Parcel.bytes parcelOf headOf sentAs Copy.bytes
  dsimp only
  simp only [be16, List.map_cons, List.map_nil, List.flatMap_cons, List.flatMap_nil, RR.enc, Rec.toRR, hc]
  simp

theorem counts {q : List UInt8} : Parcel.count (headOf q) 4 = 1 ∧ Parcel.count (headOf q) 6 = 1 ∧ Parcel.count (headOf q) 8 = 0 ∧ Parcel.count (headOf q) 10 = 0 := by
  have h1 : (0 : UInt8).toNat * 256 + (1 : UInt8).toNat = 1 := by decide
  have h0 : (0 : UInt8).toNat * 256 + (0 : UInt8).toNat = 0 := by decide
  exact ⟨h1, h1, h0, h0⟩

theorem parcel_ok {q : List UInt8} {n : Name} {r : Rec} {zone : Name} (h : Kept zone r) : (parcelOf q n r).Ok where
  head := rfl
  question := counts.1
  class_ x hx := by
    cases hx
    rfl
  recs := by
    show 1 = Parcel.count (headOf q) 6 + Parcel.count (headOf q) 8 + Parcel.count (headOf q) 10
    rw [(counts (q := q)).2.1, (counts (q := q)).2.2.1, (counts (q := q)).2.2.2]
  data x hx := by
    rw [List.mem_singleton.mp hx]
    exact h.ok
  a x hx := by
    rw [List.mem_singleton.mp hx]
    exact h.a
  txt x hx := by
    rw [List.mem_singleton.mp hx]
    exact h.txt

theorem parcel_arrives {q : List UInt8} {n : Name} {r : Rec} {zone : Name} (h : Kept zone r) (hn : Short n) {rm : Nat} (hrm : 1511 < rm) :
    Fetch.Arrives rm (parcelOf q n r) (parcelOf q n r).bytes where
  ok := parcel_ok h
  via := PlainVia.plain_via (parcel_ok h) (by intro x hx; cases hx; exact hn) (by
    intro x hx
    rw [List.mem_singleton.mp hx]
    exact ⟨h.name, h.names⟩)
  noError := rfl
  size := by omega
  data x hx := by
    rw [List.mem_singleton.mp hx]
    have := h.plain.short
    omega

theorem answers_one (q : List UInt8) (n : Name) (r : Rec) : Transfer.answers (parcelOf q n r) = [r] := by
  show [r].take (Parcel.count (headOf q) 6) = [r]
  rw [(counts (q := q)).2.1]
  rfl

theorem all_answers (q : List UInt8) (n : Name) : ∀ rs : List Rec, Transfer.allAnswers (rs.map (parcelOf q n)) = rs
  | [] => rfl
  | r :: rs => by
    have := all_answers q n rs
    unfold Transfer.allAnswers at this ⊢
    rw [List.map_cons, List.flatMap_cons, answers_one, this]
    rfl

theorem all_arrive {q : List UInt8} {n : Name} {zone : Name} (hn : Short n) {rm : Nat} (hrm : 1511 < rm) : ∀ {rs : List Rec}, (∀ r ∈ rs, Kept zone r) →
    List.Forall₂ (Fetch.Arrives rm) (rs.map (parcelOf q n)) ((rs.map sentAs).map fun c => (message q n 252 c []).drop 2)
  | [], _ => .nil
  | r :: rs, h => by
    have hr := h r List.mem_cons_self
    rw [List.map_cons, List.map_cons, List.map_cons, message_drop hr.cls]
    exact .cons (parcel_arrives hr hn hrm) (all_arrive hn hrm fun x hx => h x (List.mem_cons_of_mem _ hx))

theorem received_all {s : Rec} (hs : s.type = 6) : ∀ {rs : List Rec}, (∀ r ∈ rs, r.type ≠ 6) →
    Transfer.received (s :: rs ++ [s]) = s :: rs ∧ Transfer.complete (s :: rs ++ [s]) = true := by
  intro rs h
  constructor
  · show s :: (rs ++ [s]).takeWhile _ = _
    rw [List.takeWhile_append_of_pos (by intro x hx; simpa using h x hx)]
    simp [hs]
  · show (rs ++ [s]).any _ = true
    simp [hs]

theorem inside_all {zone : Name} : ∀ {rs : List Rec}, (∀ r ∈ rs, Kept zone r) → Transfer.inside zone rs = rs ∧ Transfer.strangers zone rs = 0 := by
  intro rs h
  constructor
  · unfold Transfer.inside
    rw [List.filter_eq_self]
    intro r hr
    simpa using (h r hr).within
  · unfold Transfer.strangers
    rw [List.countP_eq_zero]
    intro r hr
    simpa using (h r hr).within

/-- A zone that is sent is read by the other server as it was sent. -/
theorem fetched {zone : Name} (hz : Transfer.PlainName zone) {arg : List UInt8} (ha : Fetch.Argument zone arg) (hlen : (dotted zone).length ≤ 126)
    {s : Rec} {rs : List Rec} (hk : ∀ r ∈ s :: rs, Kept zone r) (hs : s.type = 6) (hrs : ∀ r ∈ rs, r.type ≠ 6) (hfew : rs.length < 99999)
    (q : List UInt8) (more : List (List UInt8)) (junk : List UInt8 → UInt8) {rm : Nat} (hrm : 1511 < rm) (files : List UInt8 → Option (List UInt8)) {mode serial : Nat}
    (hmode : mode = 2 ∨ mode = 3) (hser : serial < 2 ^ 32) :
    (Fetch.fetch arg junk rm (((sending q ((s :: rs).map sentAs)).map (List.drop 2)) ++ more)).2 = .exit 0 ∧
    Csv2.readText files mode serial (dotted zone) (Fetch.fetch arg junk rm (((sending q ((s :: rs).map sentAs)).map (List.drop 2)) ++ more)).1 =
      .ok (.read ((s :: rs).map (Csv2.toEntry ∘ Transfer.toLine))) := by
  have hsn := (hk s List.mem_cons_self).name
  have hall : ∀ r ∈ s :: rs ++ [s], Kept zone r := by
    intro r hr
    rcases List.mem_append.mp hr with hr | hr
    · exact hk r hr
    · rw [List.mem_singleton.mp hr]
      exact hk s List.mem_cons_self
  have hsend : (sending q ((s :: rs).map sentAs)).map (List.drop 2) = ((s :: rs ++ [s]).map sentAs).map fun c => (message q s.name 252 c []).drop 2 := by
    simp [sending, sentAs]
  have harr := all_arrive (q := q) hsn hrm hall
  obtain ⟨hrec, hcomp⟩ := received_all hs hrs
  obtain ⟨hin, hstr⟩ := inside_all hk
  rw [hsend]
  have := Fetch.fetch_read_partial hz ha hlen (more := more) harr (s := s) (rest := rs ++ [s]) (by rw [all_answers]; rfl) hs (hk s List.mem_cons_self).within
    (by rw [all_answers]; exact Or.inl hcomp) (by
      rw [all_answers, hrec]
      exact fun r hr => ⟨(hk r hr).plain, fun h => absurd (hk r hr).within h⟩) (by rw [all_answers, hrec]; simp; omega) (by rw [all_answers, hrec, hstr]; omega)
    junk files hmode hser
  rw [all_answers, hrec, hin] at this
  exact this

/-! ## Names without stars -/

def noStar (n : Name) : Prop := ∀ l ∈ n, (42 : UInt8) ∉ l

theorem name_noStar {n : NameText} {origin : Name} (hn : n.Ok origin) (ho : noStar origin) : noStar (n.name origin) := by
  intro l hl h0
  rw [NameText.name, List.mem_append] at hl
  rcases hl with hl | hl
  · have := (hn.labels l hl).2.2 42 h0
    revert this
    decide
  · split_ifs at hl
    · exact ho l hl h0
    · cases hl

theorem entries_noStar {serial : Nat} {tilde : Bool} : ∀ {l : List (Line × Sep)} {ctx : Ctx}, LinesOk serial tilde ctx l →
    (∀ o ∈ ctx.origin :: ctx.stack, noStar o) → ∀ e ∈ entries serial ctx l, noStar e.name
  | [], _, _, _, e, he => by cases he
  | (l, s) :: r, ctx, h, hc, e, he => by
    obtain ⟨h1, -, -, -, -, h6⟩ := h
    rw [entries, List.mem_append] at he
    have hco := hc _ List.mem_cons_self
    cases l with
    | record n g tt cs b =>
      rcases he with he | he
      · rw [List.mem_singleton.mp he]
        exact name_noStar h1.1 hco
      · exact entries_noStar h6 hc e he
    | ttl g n =>
      rcases he with he | he
      · cases he
      · exact entries_noStar h6 hc e he
    | origin g n =>
      rcases he with he | he
      · cases he
      · refine entries_noStar h6 ?_ e he
        intro o hmem
        rcases List.mem_cons.mp hmem with rfl | hmem
        · exact name_noStar h1.2.2.1.ok hco
        · exact hc o (List.mem_cons_of_mem _ hmem)
    | push g n =>
      rcases he with he | he
      · cases he
      · refine entries_noStar h6 ?_ e he
        intro o hmem
        rcases List.mem_cons.mp hmem with rfl | hmem
        · exact name_noStar h1.2.2.1.ok hco
        · exact hc o hmem
    | pop =>
      obtain ⟨o, st, hst⟩ := List.exists_cons_of_ne_nil h1.1
      have estep : step serial ctx .pop = ({ ctx with origin := o, stack := st }, []) := by simp [step, hst]
      rw [estep] at he h6
      rcases he with he | he
      · cases he
      · refine entries_noStar h6 ?_ e he
        intro x hx
        exact hc x (by rw [hst]; exact List.mem_cons_of_mem _ hx)

theorem lower_star : ∀ n : Fin 256, lower (UInt8.ofNat n) = 42 → UInt8.ofNat n = 42 := by decide +kernel

theorem low_noStar {n : Name} (h : noStar n) : noStar (lowName n) := by
  intro l hl h0
  unfold lowName at hl
  obtain ⟨l', h1, rfl⟩ := List.mem_map.1 hl
  obtain ⟨c, h2, h3⟩ := List.mem_map.1 h0
  have := lower_star ⟨c.toNat, c.toNat_lt⟩ (by simpa using h3)
  simp only [UInt8.ofNat_toNat] at this
  exact h l' h1 (this ▸ h2)

theorem digit_noStar (n : Nat) : digit n ≠ 42 := by
  by_cases h : n < 16
  · have key : ∀ n : Fin 16, digit n ≠ 42 := by decide +kernel
    exact key ⟨n, h⟩
  · have : digit n = 32 := by
      unfold digit
      have hl : "0123456789abcdef".toList.length = 16 := by decide +kernel
      rw [List.getD_eq_getElem?_getD, List.getElem?_eq_none (by omega)]
      rfl
    rw [this]
    decide

theorem decimal_noStar (n : Nat) : (42 : UInt8) ∉ decimal n := by
  unfold decimal
  split_ifs <;> simp [(digit_noStar _).symm]

theorem hex8_noStar (n : Nat) : (42 : UInt8) ∉ hex8 n := by
  simp [hex8, (digit_noStar _).symm]

theorem reverse4_noStar (ip : List UInt8) : noStar (reverse4 ip) := by
  intro l hl
  unfold reverse4 at hl
  rcases List.mem_append.mp hl with hl | hl
  · obtain ⟨b, -, rfl⟩ := List.mem_map.mp hl
    exact decimal_noStar _
  · have key : ∀ l ∈ [ascii "in-addr", ascii "arpa"], (42 : UInt8) ∉ l := by decide +kernel
    exact key l hl

theorem reverse6_noStar (ip : List UInt8) : noStar (reverse6 ip) := by
  intro l hl
  unfold reverse6 at hl
  rcases List.mem_append.mp hl with hl | hl
  · obtain ⟨b, -, hb⟩ := List.mem_flatMap.mp hl
    simp only [List.mem_cons, List.not_mem_nil, or_false] at hb
    rcases hb with rfl | rfl <;> simp [(digit_noStar _).symm]
  · have key : ∀ l ∈ [ascii "ip6", ascii "arpa"], (42 : UInt8) ∉ l := by decide +kernel
    exact key l hl

/-! ## Records that are kept as they were -/

/-- A record with its time, as it is in the server that sends it. -/
structure Had (zone : Name) (t : Int) (g : Given) : Prop where
  time : 0 ≤ t
  ttl : g.ttl = ttlOf t
  zone : g.zone = zone
  low : lowName g.name = g.name
  noStar : noStar g.name
  type : g.type ≠ 6

theorem had_stands {zone : Name} {e : ZoneLine} (ht : 0 ≤ e.ttl) (h6 : e.type ≠ 6) (hs : noStar e.name) : ∀ g ∈ e.stands zone, Had zone e.ttl g := by
  intro g hg
  unfold ZoneLine.stands at hg
  dsimp only at hg
  by_cases h4 : e.type = 65765
  · rw [if_pos h4] at hg
    rcases List.mem_cons.mp hg with rfl | hg
    · exact ⟨ht, rfl, rfl, Mara.Serve.low_reverse4 _, reverse4_noStar _, by simp⟩
    · rw [List.mem_singleton.mp hg]
      exact ⟨ht, rfl, rfl, Mara.Serve.lowName_low _, low_noStar hs, by simp⟩
  by_cases h7 : e.type = 65766
  · rw [if_neg h4, if_pos h7] at hg
    rcases List.mem_cons.mp hg with rfl | hg
    · exact ⟨ht, rfl, rfl, Mara.Serve.low_reverse6 _, reverse6_noStar _, by simp⟩
    · rw [List.mem_singleton.mp hg]
      exact ⟨ht, rfl, rfl, Mara.Serve.lowName_low _, low_noStar hs, by simp⟩
  · rw [if_neg h4, if_neg h7] at hg
    rw [List.mem_singleton.mp hg]
    exact ⟨ht, rfl, rfl, Mara.Serve.lowName_low _, low_noStar hs, h6⟩

theorem had_made {h : Host} {zone : Name} (hz : lowName zone = zone) (hs : noStar zone) : ∀ g ∈ madeNs h zone, Had zone 86400 g := by
  intro g hg
  unfold madeNs at hg
  rcases List.mem_append.mp hg with hg | hg
  · obtain ⟨ip, -, rfl⟩ := List.mem_map.mp hg
    exact ⟨by decide, rfl, rfl, hz, hs, by simp⟩
  · obtain ⟨ip, -, rfl⟩ := List.mem_map.mp hg
    refine ⟨by decide, rfl, rfl, ?_, ?_, by simp⟩
    · show ((ascii "synth-ip-" ++ hex8 ip).map lower) :: lowName zone = _
      rw [List.map_append, Mara.Serve.low_hex8, hz]
      congr 1
    · intro l hl
      rcases List.mem_cons.mp hl with rfl | hl
      · rw [List.mem_append, not_or]
        exact ⟨by decide +kernel, hex8_noStar _⟩
      · exact hs l hl

theorem line_back {n : Name} {star : Bool} {r : Rec} (hn : noStar n) (h : r.name = starred star n) :
    (Transfer.toLine r).star = star ∧ (Transfer.toLine r).name = n := by
  unfold Transfer.toLine Transfer.base Transfer.isStar
  rw [h]
  cases star with
  | true => simp [starred]
  | false =>
    have : n.head? ≠ some [42] := by
      intro h0
      cases n with
      | nil => cases h0
      | cons l n =>
        cases h0
        exact hn _ List.mem_cons_self List.mem_cons_self
    simp [starred, this]

theorem given_back {zone : Name} {t : Int} {g : Given} (hg : Had zone t g) {r : Rec} (h : sentAs r = copy t g) :
    (Transfer.toLine r).given zone = g ∧ (Transfer.toLine r).type = g.type := by
  have h1 : r.name = starred g.star g.name := congrArg Copy.name h
  have h2 : r.type = g.type := congrArg Copy.type h
  have h3 : r.ttl = t.toNat := congrArg Copy.ttl h
  have h4 : r.rdata = g.data := congrArg Copy.data h
  obtain ⟨h5, h6⟩ := line_back hg.noStar h1
  refine ⟨?_, h2⟩
  unfold ZoneLine.given
  rw [h5, h6, hg.low]
  show Given.mk g.star g.name r.type r.rdata (ttlOf (r.ttl : Int)) zone = g
  rw [h2, h3, h4, Int.toNat_of_nonneg hg.time, ← hg.ttl, ← hg.zone]

theorem givens_back {zone : Name} : ∀ {rs : List Rec} {P : List (Int × Given)}, (∀ x ∈ P, Had zone x.1 x.2) → rs.map sentAs = P.map (fun x => copy x.1 x.2) →
    rs.map (fun r => (Transfer.toLine r).given zone) = P.map Prod.snd
  | [], [], _, _ => rfl
  | [], _ :: _, _, h => by cases h
  | _ :: _, [], _, h => by cases h
  | r :: rs, x :: P, hP, h => by
    rw [List.map_cons, List.map_cons] at h
    obtain ⟨h1, h2⟩ := List.cons.inj h
    rw [List.map_cons, List.map_cons, (given_back (hP x List.mem_cons_self) h1).1, givens_back (fun y hy => hP y (List.mem_cons_of_mem _ hy)) h2]

/-! ## What a server has does not depend on where the SOA record is -/

section swap
open Given

variable {l r : List Given} {x y : Given}

theorem filter_swap {star : Bool} {n : Name} {t : Nat} (h : x.type ≠ y.type) :
    (l ++ x :: y :: r).filter (at? star n t) = (l ++ y :: x :: r).filter (at? star n t) := by
  have : ¬ (at? star n t x = true ∧ at? star n t y = true) := by
    unfold at?
    simp only [decide_eq_true_eq]
    rintro ⟨⟨-, -, h1⟩, ⟨-, -, h2⟩⟩
    exact h (h1.trans h2.symm)
  rw [List.filter_append, List.filter_append]
  congr 1
  by_cases hx : at? star n t x = true
  · have hy : ¬ at? star n t y = true := fun hy => this ⟨hx, hy⟩
    simp [List.filter_cons, hx, hy]
  · simp [List.filter_cons, hx]

theorem any_swap (p : Given → Bool) : (l ++ x :: y :: r).any p = (l ++ y :: x :: r).any p := by
  simp only [List.any_append, List.any_cons]
  cases l.any p <;> cases p x <;> cases p y <;> rfl

theorem find_swap {p : Given → Bool} (h : ¬ (p x = true ∧ p y = true)) : (l ++ x :: y :: r).find? p = (l ++ y :: x :: r).find? p := by
  rw [List.find?_append, List.find?_append]
  congr 1
  by_cases hx : p x = true
  · have hy : p y = false := by
      cases hp : p y
      · rfl
      · exact absurd ⟨hx, hp⟩ h
    simp [List.find?_cons, hx, hy]
  · simp [List.find?_cons, hx]

theorem before_swap {p q : Given → Bool} (hx : q x = false) (hy : q y = false) :
    ∀ l, ((l ++ x :: y :: r).takeWhile fun z => !p z).any q = ((l ++ y :: x :: r).takeWhile fun z => !p z).any q
  | [] => by
    cases h1 : p x <;> cases h2 : p y <;> simp [List.takeWhile_cons, h1, h2, hx, hy]
  | z :: l => by
    rw [List.cons_append, List.cons_append, List.takeWhile_cons, List.takeWhile_cons]
    split
    · rw [List.any_cons, List.any_cons, before_swap hx hy l]
    · rfl

theorem sets_swap {star : Bool} {n : Name} {t : Nat} (h : x.type ≠ y.type) : sets (l ++ x :: y :: r) star n t = sets (l ++ y :: x :: r) star n t := by
  unfold sets kept
  rw [filter_swap h]

theorem home_swap {star : Bool} {n : Name} {t : Nat} (h : x.type ≠ y.type) (hx : x.type ≠ 2) (hy : y.type ≠ 2) :
    homeOf (l ++ x :: y :: r) star n t = homeOf (l ++ y :: x :: r) star n t := by
  unfold homeOf
  dsimp only
  rw [filter_swap h, find_swap]
  · have hq : ∀ z : Name, at? false z 2 x = false ∧ at? false z 2 y = false := by
      intro z
      unfold at?
      simp [hx, hy]
    split
    · rfl
    · rw [before_swap (hq _).1 (hq _).2]
  · unfold at?
    simp only [Bool.and_eq_true, decide_eq_true_eq]
    rintro ⟨⟨⟨-, -, h1⟩, -⟩, ⟨⟨-, -, h2⟩, -⟩⟩
    exact h (h1.trans h2.symm)

theorem toZone_swap (h : x.type ≠ y.type) (hx : x.type ≠ 2) (hy : y.type ≠ 2) : toZone (l ++ x :: y :: r) = toZone (l ++ y :: x :: r) := by
  have hsv : ∀ star n t, servers (l ++ x :: y :: r) star n t = servers (l ++ y :: x :: r) star n t := by
    intro star n t
    unfold servers
    rw [home_swap h hx hy]
    split
    · rfl
    · exact sets_swap h
  unfold toZone mark
  simp only [any_swap, filter_swap h, sets_swap h, hsv]

theorem toZone_move (h6 : x.type = 6) : ∀ (m : List Given) (l : List Given), (∀ y ∈ m, y.type = 1) → toZone (l ++ x :: (m ++ r)) = toZone (l ++ (m ++ x :: r))
  | [], l, _ => rfl
  | y :: m, l, h => by
    have hy := h y List.mem_cons_self
    rw [List.cons_append, toZone_swap (by omega) (by omega) (by omega)]
    have := toZone_move h6 m (l ++ [y]) fun z hz => h z (List.mem_cons_of_mem _ hz)
    simpa using this

end swap

/-! ## What the other server has -/

def pairsOf (zone : Name) (e : ZoneLine) : List (Int × Given) := (e.stands zone).map fun g => (e.ttl, g)

def bodyPairs (h : Host) (zone : Name) (es : List ZoneLine) : List (Int × Given) :=
  (if topOf zone es = [] ∧ othersOf zone es ≠ [] then (madeNs h zone).map (fun g => ((86400 : Int), g)) else (topOf zone es).flatMap (pairsOf zone)) ++
    (othersOf zone es).flatMap (pairsOf zone)

theorem bodyPairs_sent (h : Host) (zone : Name) (es : List ZoneLine) : bodySent h zone es = (bodyPairs h zone es).map fun x => copy x.1 x.2 := by
  have hl : ∀ e, (pairsOf zone e).map (fun x => copy x.1 x.2) = lineSent zone e := by
    intro e
    unfold pairsOf lineSent
    rw [List.map_map]
    rfl
  unfold bodySent bodyPairs
  rw [List.map_append, List.map_flatMap]
  congr 1
  · split_ifs
    · rw [List.map_map]
      rfl
    · rw [List.map_flatMap]
      exact List.flatMap_congr fun e _ => (hl e).symm
  · exact List.flatMap_congr fun e _ => (hl e).symm

theorem bodyPairs_had {h : Host} {zone : Name} {es : List ZoneLine} (hz : lowName zone = zone) (hs : noStar zone) (ht : ∀ e ∈ es, 0 ≤ e.ttl)
    (hn : ∀ e ∈ es, noStar e.name) : ∀ x ∈ bodyPairs h zone es, Had zone x.1 x.2 := by
  have hline : ∀ e ∈ restOf es, ∀ x ∈ pairsOf zone e, Had zone x.1 x.2 := by
    intro e he x hx
    unfold pairsOf at hx
    obtain ⟨g, hg, rfl⟩ := List.mem_map.mp hx
    have h6 : e.type ≠ 6 := by simpa using List.of_mem_filter he
    exact had_stands (ht e (List.mem_of_mem_filter he)) h6 (hn e (List.mem_of_mem_filter he)) g hg
  intro x hx
  unfold bodyPairs at hx
  rcases List.mem_append.mp hx with hx | hx
  · split_ifs at hx
    · obtain ⟨g, hg, rfl⟩ := List.mem_map.mp hx
      exact had_made hz hs g hg
    · obtain ⟨e, he, hx⟩ := List.mem_flatMap.mp hx
      exact hline e ((List.takeWhile_sublist _).subset he) x hx
  · obtain ⟨e, he, hx⟩ := List.mem_flatMap.mp hx
    exact hline e ((List.dropWhile_sublist _).subset (List.mem_of_mem_filter he)) x hx

def ownG (zone : Name) (g : Given) : Bool := decide (g.star = false ∧ g.name = zone ∧ g.type = 2)

theorem own_given (zone : Name) (e : ZoneLine) : e.own zone = ownG zone (e.given zone) := rfl

/-- What a server has from a file that begins with its SOA record, and has no FQDN4 or FQDN6 records. -/
theorem records_plain {h : Host} {zone : Name} {s : ZoneLine} {L : List ZoneLine} (hs : s.type = 6) (hL : ∀ e ∈ L, e.type ≠ 6 ∧ e.type < 65001) :
    fileRecords h zone (s :: L) =
      let G := L.map (ZoneLine.given zone)
      let T := G.takeWhile (ownG zone)
      let O := (G.dropWhile (ownG zone)).filter fun g => !ownG zone g
      if O = [] then T ++ [s.given zone] else (if T = [] then madeNs h zone else T) ++ [s.given zone] ++ O := by
  have hrest : L.filter (fun e => decide (e.type ≠ 6)) = L := by
    rw [List.filter_eq_self]
    intro e he
    simpa using (hL e he).1
  have hst : ∀ m : List ZoneLine, (∀ e ∈ m, e ∈ L) → m.flatMap (ZoneLine.stands zone) = m.map (ZoneLine.given zone) := by
    intro m hm
    rw [List.map_eq_flatMap]
    refine List.flatMap_congr fun e he => ?_
    have := (hL e (hm e he)).2
    unfold ZoneLine.stands
    dsimp only
    rw [if_neg (by omega), if_neg (by omega)]
  have hT : (L.map (ZoneLine.given zone)).takeWhile (ownG zone) = (L.takeWhile (ZoneLine.own zone)).map (ZoneLine.given zone) := by
    rw [List.takeWhile_map]
    rfl
  have hO : ((L.map (ZoneLine.given zone)).dropWhile (ownG zone)).filter (fun g => !ownG zone g) =
      ((L.dropWhile (ZoneLine.own zone)).filter fun e => !e.own zone).map (ZoneLine.given zone) := by
    rw [List.dropWhile_map, List.filter_map]
    rfl
  unfold fileRecords
  dsimp only
  rw [if_pos hs, if_pos hs, hrest, hT, hO, hst _ (fun e he => (List.dropWhile_sublist _).subset (List.mem_of_mem_filter he))]
  simp only [List.isEmpty_iff, List.map_eq_nil_iff]

theorem stands_not_own {zone : Name} {e : ZoneLine} (h : e.own zone = false) : ∀ g ∈ e.stands zone, ownG zone g = false := by
  intro g hg
  unfold ZoneLine.stands at hg
  dsimp only at hg
  by_cases h4 : e.type = 65765
  · rw [if_pos h4] at hg
    rcases List.mem_cons.mp hg with rfl | hg
    · simp [ownG]
    · rw [List.mem_singleton.mp hg]
      simp [ownG]
  by_cases h7 : e.type = 65766
  · rw [if_neg h4, if_pos h7] at hg
    rcases List.mem_cons.mp hg with rfl | hg
    · simp [ownG]
    · rw [List.mem_singleton.mp hg]
      simp [ownG]
  · rw [if_neg h4, if_neg h7] at hg
    rw [List.mem_singleton.mp hg]
    exact h

theorem stands_ne {zone : Name} {e : ZoneLine} : e.stands zone ≠ [] := by
  unfold ZoneLine.stands
  dsimp only
  split_ifs <;> simp

theorem split_own {zone : Name} {A B : List Given} (hA : ∀ g ∈ A, ownG zone g = true) (hB : ∀ g ∈ B, ownG zone g = false) :
    (A ++ B).takeWhile (ownG zone) = A ∧ ((A ++ B).dropWhile (ownG zone)).filter (fun g => !ownG zone g) = B := by
  constructor
  · rw [List.takeWhile_append_of_pos hA]
    cases B with
    | nil => simp
    | cons b B => simp [List.takeWhile_cons, hB b List.mem_cons_self]
  · rw [List.dropWhile_append_of_pos hA]
    have : B.dropWhile (ownG zone) = B := by
      cases B with
      | nil => rfl
      | cons b B => simp [List.dropWhile_cons, hB b List.mem_cons_self]
    rw [this, List.filter_eq_self]
    intro g hg
    simp [hB g hg]

theorem pairs_snd (zone : Name) (m : List ZoneLine) : (m.flatMap (pairsOf zone)).map Prod.snd = m.flatMap (ZoneLine.stands zone) := by
  rw [List.map_flatMap]
  refine List.flatMap_congr fun e _ => ?_
  unfold pairsOf
  rw [List.map_map]
  exact List.map_id _

/-- The SOA record that a server has. -/
def soaG (h : Host) (zone : Name) : List ZoneLine → Given
  | e :: _ => if e.type = 6 then e.given zone else madeSoa h zone
  | [] => madeSoa h zone

/-- What the other server has from the zone that was sent is what this server has. -/
theorem zone_same {h h' : Host} {zone : Name} {es : List ZoneLine} (hne : es ≠ []) (hns : topOf zone es = [] → othersOf zone es ≠ [] → h.chosen ≠ [])
    {s : ZoneLine} {L : List ZoneLine} (hs : s.type = 6) (hL : ∀ e ∈ L, e.type ≠ 6 ∧ e.type < 65001)
    (hsg : s.given zone = soaG h zone es)
    (hG : L.map (ZoneLine.given zone) = (bodyPairs h zone es).map Prod.snd) :
    Given.toZone (fileRecords h' zone (s :: L)) = Given.toZone (fileRecords h zone es) := by
  obtain ⟨e, l, rfl⟩ := List.exists_cons_of_ne_nil hne
  have hrest : (if e.type = 6 then l else e :: l).filter (fun e => decide (e.type ≠ 6)) = restOf (e :: l) := by
    unfold restOf
    by_cases h6 : e.type = 6
    · rw [if_pos h6, List.filter_cons_of_neg (by simp [h6])]
    · rw [if_neg h6]
  have hfile : fileRecords h zone (e :: l) =
      if (othersOf zone (e :: l)).isEmpty then (topOf zone (e :: l)).map (ZoneLine.given zone) ++ [if e.type = 6 then e.given zone else madeSoa h zone]
      else (if (topOf zone (e :: l)).isEmpty then madeNs h zone else (topOf zone (e :: l)).map (ZoneLine.given zone)) ++
        [if e.type = 6 then e.given zone else madeSoa h zone] ++ (othersOf zone (e :: l)).flatMap (ZoneLine.stands zone) := by
    unfold fileRecords topOf othersOf
    dsimp only
    rw [hrest]
  unfold soaG at hsg
  dsimp only at hsg
  rw [← hsg] at hfile
  have hs6 : (s.given zone).type = 6 := hs
  have htop1 : ∀ x ∈ topOf zone (e :: l), x.own zone = true := fun x hx =>
    List.all_eq_true.mp (List.all_takeWhile (p := ZoneLine.own zone) (l := restOf (e :: l))) x hx
  have htop : (topOf zone (e :: l)).flatMap (ZoneLine.stands zone) = (topOf zone (e :: l)).map (ZoneLine.given zone) := by
    rw [List.map_eq_flatMap]
    exact List.flatMap_congr fun x hx => Mara.Serve.stands_own (htop1 x hx)
  have hA : ∀ g ∈ (topOf zone (e :: l)).map (ZoneLine.given zone), ownG zone g = true := by
    intro g hg
    obtain ⟨x, hx, rfl⟩ := List.mem_map.mp hg
    exact htop1 x hx
  have hB : ∀ g ∈ (othersOf zone (e :: l)).flatMap (ZoneLine.stands zone), ownG zone g = false := by
    intro g hg
    obtain ⟨x, hx, hg⟩ := List.mem_flatMap.mp hg
    exact stands_not_own (by simpa using List.of_mem_filter hx) g hg
  have hBne : othersOf zone (e :: l) ≠ [] → (othersOf zone (e :: l)).flatMap (ZoneLine.stands zone) ≠ [] := by
    intro h0 h1
    obtain ⟨x, m, hm⟩ := List.exists_cons_of_ne_nil h0
    rw [hm, List.flatMap_cons] at h1
    exact stands_ne (List.append_eq_nil_iff.mp h1).1
  rw [records_plain hs hL, hfile, hG]
  unfold bodyPairs
  rw [List.map_append, pairs_snd]
  generalize htt : topOf zone (e :: l) = T at *
  generalize hoo : othersOf zone (e :: l) = O at *
  by_cases ho : O = []
  · rw [if_neg (show ¬ (T = [] ∧ O ≠ []) from fun hc => hc.2 ho), pairs_snd, htop]
    obtain ⟨h1, h2⟩ := split_own hA hB
    dsimp only
    rw [h1, h2]
    simp [ho]
  · by_cases ht : T = []
    · rw [if_pos (show T = [] ∧ O ≠ [] from ⟨ht, ho⟩), List.map_map]
      have hid : (madeNs h zone).map (Prod.snd ∘ fun g => ((86400 : Int), g)) = madeNs h zone := List.map_id _
      rw [hid]
      obtain ⟨ns, as, hm, hns1, has, hnsn⟩ : ∃ ns as, madeNs h zone = ns ++ as ∧ (∀ g ∈ ns, ownG zone g = true) ∧ (∀ g ∈ as, g.type = 1) ∧ ns ≠ [] := by
        refine ⟨_, _, rfl, ?_, ?_, ?_⟩
        · intro g hg
          obtain ⟨ip, -, rfl⟩ := List.mem_map.mp hg
          simp [ownG]
        · intro g hg
          obtain ⟨ip, -, rfl⟩ := List.mem_map.mp hg
          rfl
        · intro h0
          exact hns ht ho (List.map_eq_nil_iff.mp h0)
      have hB2 : ∀ g ∈ as ++ O.flatMap (ZoneLine.stands zone), ownG zone g = false := by
        intro g hg
        rcases List.mem_append.mp hg with hg | hg
        · simp [ownG, has g hg]
        · exact hB g hg
      obtain ⟨h1, h2⟩ := split_own hns1 hB2
      rw [hm, List.append_assoc]
      dsimp only
      rw [h1, h2, if_neg (by simp [hBne ho]), if_neg hnsn, if_neg (by simpa using ho), if_pos (by simpa using ht)]
      have := toZone_move hs6 (r := O.flatMap (ZoneLine.stands zone)) as ns has
      simpa using this
    · rw [if_neg (show ¬ (T = [] ∧ O ≠ []) from fun hc => ht hc.1), pairs_snd, htop]
      obtain ⟨h1, h2⟩ := split_own hA hB
      dsimp only
      rw [h1, h2, if_neg (hBne ho), if_neg (by simpa using ht), if_neg (by simpa using ho), if_neg (by simpa using ht)]

/-! ## The theorems -/

theorem lower_small : ∀ n : Fin 256, ¬ (65 ≤ UInt8.ofNat n ∧ UInt8.ofNat n ≤ 90) → lower (UInt8.ofNat n) = UInt8.ofNat n := by decide +kernel

theorem low_of_lower {n : Name} (h : ∀ l ∈ n, ∀ c ∈ l, ¬ (65 ≤ c ∧ c ≤ 90)) : lowName n = n := by
  unfold lowName
  conv_rhs => rw [← List.map_id n]
  refine List.map_congr_left fun l hl => ?_
  show l.map lower = l
  conv_rhs => rw [← List.map_id l]
  refine List.map_congr_left fun c hc => ?_
  have := lower_small ⟨c.toNat, c.toNat_lt⟩
  simp only [UInt8.ofNat_toNat] at this
  exact this (h l hl c hc)

theorem base_sub {n : Name} : ∀ l ∈ Transfer.base n, l ∈ n := by
  intro l hl
  unfold Transfer.base at hl
  split_ifs at hl
  · exact List.mem_of_mem_tail hl
  · exact hl

theorem kept_line {zone : Name} {r : Rec} (h : Kept zone r) : Zf.ZoneLineOk zone (Transfer.toLine r) ∧ Zf.StoreOk (Transfer.toLine r) := by
  have hlow : lowName (Transfer.base r.name) = Transfer.base r.name := low_of_lower fun l hl => h.plain.lower l (base_sub l hl)
  refine ⟨⟨fun l hl => h.name.1 l (base_sub l hl), Or.inl ?_, ?_⟩, ?_, ?_, Or.inr (Or.inr ⟨h.type, ?_⟩)⟩
  · have := h.type
    show r.type ≤ 65535
    omega
  · intro ho
    have := (of_decide_eq_true ho).2.1
    show Transfer.base r.name = zone
    rw [← hlow]
    exact this
  · intro l hl h0
    have := (h.plain.name.2 l hl).2.2 0 h0
    revert this
    decide
  · show (Big.base (Transfer.isStar r.name) (Transfer.base r.name)).length ≤ 253
    have hf := h.fits
    unfold Big.base Transfer.base
    by_cases hs : Transfer.isStar r.name = true
    · rw [if_pos hs, if_pos hs]
      cases hn : r.name with
      | nil =>
        rw [hn] at hs
        cases hs
      | cons l n =>
        rw [hn, encName_cons] at hf
        simp at hf ⊢
        omega
    · rw [if_neg hs, if_neg hs]
      exact hf
  · show r.type ≠ 255 ∧ r.type ≠ 251 ∧ r.type ≠ 252
    have hd := h.plain.data
    unfold Transfer.DataOk at hd
    refine ⟨?_, ?_, ?_⟩ <;>
    · intro ht
      rw [ht] at hd
      exact hd (by decide)

/-- What `bootText` makes of a file whose records are known. -/
theorem boot_read {h : Host} {files : List UInt8 → Option (List UInt8)} {mode : Nat} {zone : Name} {text : List UInt8} {es : List ZoneLine}
    (hr : Csv2.readText files mode h.serial (dotted zone) text = .ok (.read (es.map Csv2.toEntry))) (hf : Zf.FileOk h (zone, es)) (h0 : 0 ∉ h.ips) :
    ∃ s, Csv2.bootText h files mode [(zone, text)] = .ok (some s) ∧
      ∀ (cfg : Lookup.Cfg) (raw : Js) (q : Name) (t : Nat), Lookup.Usual cfg → Lookup.Asks cfg raw q t → Lookup.Plain cfg q t →
        Lookup.procQuery cfg (Big.view s) raw = .ok (Lookup.sent q ((Given.toZone (fileRecords h zone es)).reply (lowName q) t)) := by
  obtain ⟨s, h1, h2⟩ := Zf.zones_served (h := h) (files := [(zone, es)]) (by
    intro f hm
    rw [List.mem_singleton.mp hm]
    exact hf) (by simp) h0
  have hall : Zf.allRecords h [(zone, es)] = fileRecords h zone es := by simp [Zf.allRecords]
  rw [hall] at h2
  refine ⟨s, ?_, h2⟩
  have hrd : Csv2.readTexts h files mode [(zone, text)] = .ok (some (Zf.asRead h [(zone, es)])) := by
    rw [Csv2.readTexts, hr, Dw.Res.ok_bind, Csv2.readTexts, Dw.Res.ok_bind]
    show Dw.Res.ok (((es.map Csv2.toEntry).mapM Csv2.Entry.rr).bind _) = _
    rw [Csv2.toEntry_rr]
    rfl
  rw [Csv2.bootText, hrd, Dw.Res.ok_bind]
  show (do let s ← Zf.boot (Zf.asRead h [(zone, es)]) Big.empty; Dw.Res.ok (some s)) = _
  rw [h1]
  rfl

/-- The server that the zone is in, and the zone. -/
structure Source (h : Host) (mode : Nat) (zone : Name) (f : File) (rs : List Rec) : Prop where
  text : Csv2.ZoneText.Ok h mode (zone, f)
  serial : h.serial < 2 ^ 32
  ips : 0 ∉ h.ips
  chosen : h.chosen.length ≤ 13
  some : f.records h.serial zone ≠ []
  soa : ∀ e, (f.records h.serial zone).head? = .some e → e.type = 6 → e.star = false
  fits : ∀ c ∈ zoneSent h zone (f.records h.serial zone), Fits (soaOf h zone (f.records h.serial zone)) c
  /-- what is sent has the data that the types demand, and can be written to a file -/
  sent : rs.map sentAs = zoneSent h zone (f.records h.serial zone)
  kept : ∀ r ∈ rs, Kept zone r
  few : rs.length < 100000
  /-- the other server is given name servers -/
  servers : topOf zone (f.records h.serial zone) = [] → othersOf zone (f.records h.serial zone) ≠ [] → h.chosen ≠ []

/-- **C83.** A zone goes from one server to another: what fetchzone makes of what the zone server sends is a zone file with which
another server answers every ordinary question as the first one does. -/
theorem mirror_served_partial {h : Host} {mode : Nat} {zone : Name} {f : File} {rs : List Rec} (hsrc : Source h mode zone f rs)
    (files : List UInt8 → Option (List UInt8)) {q : List UInt8} {hd : Reply.Hdr} (hq : Reply.readHdr q = some hd) {ms : List (List UInt8)} {b : Bool}
    (hserve : Mara.Serve.serve files mode (Mara.Serve.env2 h zone) (dotted zone) hd false f.text = .ok (some (ms, b)))
    (hz : Transfer.PlainName zone) {arg : List UInt8} (ha : Fetch.Argument zone arg) (hlen : (dotted zone).length ≤ 126)
    (junk : List UInt8 → UInt8) {rm : Nat} (hrm : 1511 < rm)
    {h' : Host} {mode' : Nat} (hmode : mode' = 2 ∨ mode' = 3) (hser : h'.serial < 2 ^ 32) (h0 : 0 ∉ h'.ips) (hzone : Zf.ZoneOk h' zone)
    (files' : List UInt8 → Option (List UInt8)) :
    (Fetch.fetch arg junk rm (ms.map (List.drop 2))).2 = .exit 0 ∧
    ∃ s s', Csv2.bootText h files mode [(zone, f.text)] = .ok (some s) ∧
      Csv2.bootText h' files' mode' [(zone, (Fetch.fetch arg junk rm (ms.map (List.drop 2))).1)] = .ok (some s') ∧
      ∀ (cfg : Lookup.Cfg) (raw : Js) (n : Name) (t : Nat), Lookup.Usual cfg → Lookup.Asks cfg raw n t → Lookup.Plain cfg n t →
        Lookup.procQuery cfg (Big.view s') raw = Lookup.procQuery cfg (Big.view s) raw := by
  have hx := hsrc.text
  rw [Mara.Serve.serve_exact files hx hsrc.serial hsrc.chosen hsrc.some hsrc.soa hsrc.fits hq] at hserve
  obtain ⟨rfl, -⟩ : sending q (zoneSent h zone (f.records h.serial zone)) = ms ∧ true = b := by
    injection hserve with hserve
    injection hserve with hserve
    injection hserve with h1 h2
    exact ⟨h1, h2⟩
  obtain ⟨e, es, hes⟩ := List.exists_cons_of_ne_nil hsrc.some
  have hnz : noStar zone := fun l hl => (hx.bytes l hl).2.1
  have hnames : ∀ e ∈ f.records h.serial zone, noStar e.name := entries_noStar hx.file.lines (by
    intro o ho
    rw [List.mem_singleton.mp ho]
    exact hnz)
  have htimes : ∀ e ∈ f.records h.serial zone, 0 ≤ e.ttl := fun e he => (Mara.Serve.lines_ok hx e he).2
  have hP := bodyPairs_had (h := h) hx.zone.low hnz htimes hnames
  obtain ⟨s, body, rfl, hs1, hbody⟩ : ∃ s body, rs = s :: body ∧ sentAs s = soaOf h zone (f.records h.serial zone) ∧
      body.map sentAs = bodySent h zone (f.records h.serial zone) := by
    have := hsrc.sent
    unfold zoneSent at this
    cases rs with
    | nil => cases this
    | cons s body => exact ⟨s, body, rfl, (List.cons.inj this).1, (List.cons.inj this).2⟩
  rw [bodyPairs_sent] at hbody
  have hG := givens_back hP hbody
  have hbt : ∀ r ∈ body, r.type ≠ 6 := by
    intro r hr
    have : sentAs r ∈ body.map sentAs := List.mem_map_of_mem hr
    rw [hbody] at this
    obtain ⟨x, hx1, hx2⟩ := List.mem_map.mp this
    exact fun h6 => (hP x hx1).type ((given_back (hP x hx1) hx2.symm).2.symm.trans h6)
  have hst : s.type = 6 := by
    have h1 : s.type = (soaOf h zone (f.records h.serial zone)).type := congrArg Copy.type hs1
    rw [h1, hes]
    unfold soaOf
    dsimp only
    split_ifs <;> rfl
  have hsg : (Transfer.toLine s).given zone = soaG h zone (f.records h.serial zone) := by
    rw [hes] at hs1 hnames htimes ⊢
    have hsoa := hsrc.soa e (by rw [hes]; rfl)
    unfold soaOf at hs1
    unfold soaG
    dsimp only at hs1 ⊢
    by_cases h6 : e.type = 6
    · rw [if_pos h6] at hs1 ⊢
      have h1 : s.name = e.name := congrArg Copy.name hs1
      have h2 : s.type = 6 := congrArg Copy.type hs1
      have h3 : s.ttl = e.ttl.toNat := congrArg Copy.ttl hs1
      have h4 : s.rdata = e.data := congrArg Copy.data hs1
      obtain ⟨h5, h7⟩ := line_back (star := false) (hnames e List.mem_cons_self) h1
      unfold ZoneLine.given
      rw [h5, h7, hsoa h6]
      show Given.mk false (lowName e.name) s.type s.rdata (ttlOf (s.ttl : Int)) zone = _
      rw [h2, h3, h4, Int.toNat_of_nonneg (htimes e List.mem_cons_self), h6]
    · rw [if_neg h6] at hs1 ⊢
      have h1 : s.name = zone := congrArg Copy.name hs1
      have h2 : s.type = 6 := congrArg Copy.type hs1
      have h3 : s.ttl = 86400 := congrArg Copy.ttl hs1
      have h4 : s.rdata = (madeSoa h zone).data := congrArg Copy.data hs1
      obtain ⟨h5, h7⟩ := line_back (star := false) hnz h1
      unfold ZoneLine.given
      rw [h5, h7, hx.zone.low]
      show Given.mk false zone s.type s.rdata (ttlOf (s.ttl : Int)) zone = _
      rw [h2, h3, h4]
      rfl
  have hfew := hsrc.few
  rw [List.length_cons] at hfew
  have hfetch := fetched hz ha hlen hsrc.kept hst hbt (by omega) q [] junk hrm files' hmode hser
  rw [hsrc.sent, List.append_nil] at hfetch
  refine ⟨hfetch.1, ?_⟩
  obtain ⟨s0, hb1, hb2⟩ := boot_read (Csv2.text_exact files hx.origin hsrc.serial hx.file) hx.fileOk hsrc.ips
  have hf' : Zf.FileOk h' (zone, (s :: body).map Transfer.toLine) := by
    refine ⟨hzone, fun l hl => (hx.bytes l hl).1, ?_, ?_⟩
    · intro e he
      obtain ⟨r, hr, rfl⟩ := List.mem_map.mp he
      exact (kept_line (hsrc.kept r hr)).1
    · intro e he
      obtain ⟨r, hr, rfl⟩ := List.mem_map.mp he
      exact (kept_line (hsrc.kept r hr)).2
  obtain ⟨s1, hc1, hc2⟩ := boot_read (by rw [List.map_map]; exact hfetch.2) hf' h0
  refine ⟨s0, s1, hb1, hc1, ?_⟩
  intro cfg raw n t u1 u2 u3
  rw [hb2 cfg raw n t u1 u2 u3, hc2 cfg raw n t u1 u2 u3]
  have := zone_same (h := h) (h' := h') (zone := zone) hsrc.some hsrc.servers (s := Transfer.toLine s) (L := body.map Transfer.toLine) hst (by
    intro e he
    obtain ⟨r, hr, rfl⟩ := List.mem_map.mp he
    exact ⟨hbt r hr, (hsrc.kept r (List.mem_cons_of_mem _ hr)).type⟩) hsg (by rw [List.map_map]; exact hG)
  rw [List.map_cons, this]

/-! ### An example -/

open Csv2 (exFile exZone exHost exText_ok)

def exSub : Name := ascii "sub" :: exZone

def exSoa : Rec := ⟨exZone, 6, [0, 1], 86400, [], [exZone, ascii "hostmaster" :: exZone], num32 1 ++ num32 7200 ++ num32 3600 ++ num32 604800 ++ num32 3600⟩
def exNs : Rec := ⟨exZone, 2, [0, 1], 86400, [], [ascii "ns" :: exZone], []⟩
def exWww : Rec := ⟨ascii "www" :: exSub, 28, [0, 1], 7200, [], [], [32, 1, 13, 184, 0, 0, 0, 0, 0, 0, 0, 0, 0, 0, 0, 1]⟩
def exTxt : Rec := ⟨[42] :: exSub, 16, [0, 1], 60, [], [], [3, 97, 32, 98, 3, 99, 255, 39]⟩
def exMail : Rec := ⟨ascii "mail" :: exZone, 1, [0, 1], 60, [], [], [10, 0, 0, 1]⟩

theorem exRest_kept : ∀ r ∈ [exWww, exMail], Kept exZone r := by
  intro r hr
  have hl : LabelsOk r.name := by
    unfold LabelsOk
    revert r
    decide +kernel
  have hp : ∀ r ∈ [exWww, exMail], (Transfer.base r.name ≠ [] ∧ ∀ l ∈ Transfer.base r.name, 1 ≤ l.length ∧ l.length ≤ 63 ∧ ∀ c ∈ l, isPlain c = true) ∧
      (∀ l ∈ r.name, ∀ c ∈ l, ¬ (65 ≤ c ∧ c ≤ 90)) ∧ r.rdata ≠ [] ∧ r.rdata.length ≤ 1511 ∧ (encName r.name).length ≤ 253 ∧ r.ttl < 10000 ∧
      (r.lead.length, r.names.length, r.tail.length) = (rdLayout r.type).getD (0, 0, r.tail.length) ∧ Transfer.Within exZone r.name := by decide +kernel
  obtain ⟨h1, h2, h3, h4, h5, h6, h7, h8⟩ := hp r hr
  simp only [List.mem_cons, List.not_mem_nil, or_false] at hr
  rcases hr with rfl | rfl
  · exact ⟨⟨by decide, rfl, by decide, by decide, h7⟩, rfl, ⟨hl, by omega⟩, (by intro n hn; cases hn), ⟨h1, h2, by decide, h3, h4, show 28 ∉ [255, 251, 252, 253, 254, 38, 39, 41] by decide⟩,
      h8, (by intro h; cases h), (by intro h; cases h), by decide, h5⟩
  · exact ⟨⟨by decide, rfl, by decide, by decide, h7⟩, rfl, ⟨hl, by omega⟩, (by intro n hn; cases hn), ⟨h1, h2, by decide, h3, h4, show 1 ∉ [255, 251, 252, 253, 254, 38, 39, 41] by decide⟩,
      h8, (by intro _; rfl), (by intro h; cases h), by decide, h5⟩

theorem exTxt_kept : Kept exZone exTxt where
  ok := ⟨by decide, rfl, by decide, by decide, by decide⟩
  cls := rfl
  name := ⟨by unfold LabelsOk; decide +kernel, by decide +kernel⟩
  names n hn := by cases hn
  plain := ⟨⟨by decide +kernel, by decide +kernel⟩, by decide +kernel, by decide, by decide, by decide, show exTxt.tail ≠ [0] by decide⟩
  within := by decide +kernel
  a h := by cases h
  txt _ := ⟨3, _, rfl, by decide⟩
  type := by decide
  fits := by decide +kernel

theorem exNs_kept : Kept exZone exNs where
  ok := ⟨by decide, rfl, by decide, by decide, by decide⟩
  cls := rfl
  name := ⟨by unfold LabelsOk; decide +kernel, by decide +kernel⟩
  names n hn := by
    rw [List.mem_singleton.mp hn]
    exact ⟨by unfold LabelsOk; decide +kernel, by decide +kernel⟩
  plain := ⟨⟨by decide +kernel, by decide +kernel⟩, by decide +kernel, by decide, by decide, by decide, (by
    change ∀ n ∈ [ascii "ns" :: exZone], Transfer.PlainName n
    unfold Transfer.PlainName
    decide +kernel)⟩
  within := by decide +kernel
  a h := by cases h
  txt h := by cases h
  type := by decide
  fits := by decide +kernel

theorem exSoa_kept : Kept exZone exSoa where
  ok := ⟨by decide, rfl, by decide, by decide, by decide⟩
  cls := rfl
  name := ⟨by unfold LabelsOk; decide +kernel, by decide +kernel⟩
  names := by
    unfold Short LabelsOk
    decide +kernel
  plain := ⟨⟨by decide +kernel, by decide +kernel⟩, by decide +kernel, by decide, by decide, by decide,
    ⟨exZone, ascii "hostmaster", exZone, rfl, ⟨by decide +kernel, by decide +kernel⟩, ⟨by decide +kernel, by decide +kernel⟩, ⟨by decide +kernel, by decide +kernel⟩,
      by decide +kernel, by decide +kernel⟩⟩
  within := by decide +kernel
  a h := by cases h
  txt h := by cases h
  type := by decide
  fits := by decide +kernel

theorem exSource : Source exHost 2 exZone exFile [exSoa, exNs, exWww, exTxt, exMail] where
  text := exText_ok _ List.mem_cons_self
  serial := by decide
  ips := by decide
  chosen := by decide
  some := by decide
  soa e he h6 := by
    cases he
    cases h6
  fits := by decide +kernel
  sent := by decide +kernel
  kept r hr := by
    simp only [List.mem_cons, List.not_mem_nil, or_false] at hr
    rcases hr with rfl | rfl | rfl | rfl | rfl
    · exact exSoa_kept
    · exact exNs_kept
    · exact exRest_kept _ (by simp)
    · exact exTxt_kept
    · exact exRest_kept _ (by simp)
  few := by decide
  servers _ _ := by decide

/-- The other server: 192.168.0.1. -/
def exMirror : Host := ⟨[3232235521], 7, none⟩

example {hd : Reply.Hdr} (hq : Reply.readHdr Mara.Serve.exQ = Option.some hd) {ms : List (List UInt8)} {b : Bool}
    (hs : Mara.Serve.serve (fun _ => none) 2 (Mara.Serve.env2 exHost exZone) (dotted exZone) hd false exFile.text = .ok (Option.some (ms, b))) :
    ∃ s s', Csv2.bootText exHost (fun _ => none) 2 [(exZone, exFile.text)] = .ok (Option.some s) ∧
      Csv2.bootText exMirror (fun _ => none) 3 [(exZone, (Fetch.fetch (ascii "example.com") (fun _ => 7) 4512 (ms.map (List.drop 2))).1)] = .ok (Option.some s') ∧
      ∀ (cfg : Lookup.Cfg) (raw : Js) (n : Name) (t : Nat), Lookup.Usual cfg → Lookup.Asks cfg raw n t → Lookup.Plain cfg n t →
        Lookup.procQuery cfg (Big.view s') raw = Lookup.procQuery cfg (Big.view s) raw :=
  (mirror_served_partial exSource (fun _ => none) hq hs ⟨by decide +kernel, by decide +kernel⟩ (.inr (by decide +kernel)) (by decide +kernel) (fun _ => 7) (by decide)
    (Or.inr rfl) (by decide) (by decide) ⟨by unfold LabelsOk; decide +kernel, by decide +kernel, by decide +kernel, by decide +kernel, (by intro o ho; cases ho), by decide⟩
    (fun _ => none)).2

-- what fetchzone writes
example : (Fetch.fetch (ascii "example.com") (fun _ => 7) 4512 ((sending Mara.Serve.exQ (zoneSent exHost exZone (exFile.records 1 exZone))).map (List.drop 2))).1 =
    ascii "example.com. +86400 soa example.com. hostmaster@example.com. 1 7200 3600 604800 3600 ~ \nexample.com. +86400 ns ns.example.com. ~ \nwww.sub.example.com. +7200 aaaa 2001:db8:0:0:0:0:0:1: ~ \n*.sub.example.com. +60 raw 16 \\x03'a b'\\x03'c'\\xff\\' ~ \nmail.example.com. +60 a 10.0.0.1 ~ \n# Second SOA received, exiting\n" := by
  decide +kernel

end Mirror
end Mara
