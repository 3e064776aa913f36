import Verif.Mara.Csv2File
import Verif.Mara.ZoneProps
/-!
# Properties: the text of zone files
-/

namespace Mara
namespace Csv2

open Dw (Res)
open Spec (LabelsOk encName dotted lower Name ascii ZoneLine Host)
open Spec.ZoneText

/-- `csv2_parse_zone`, Csv2_main.c:613-658, up to what is given to `csv2_add_rr`: the origin is the name of the zone
(`csv2_init_add_state`, Csv2_database.c:101-146). -/
def readText (files : List UInt8 → Option (List UInt8)) (mode serial : Nat) (zone : List UInt8) (text : List UInt8) : Res Outcome :=
  parse files (text.length + 1) 100000 { origin := zone, serial := serial } (Stream.start mode text)

/-! ## What a file says is what is read -/

theorem line_text_pos {ctx : Ctx} {next : Piece} {l : Line} (hl : l.Ok ctx next) : 1 ≤ l.text.length := by
  obtain ⟨c, t, e, -⟩ := line_head hl []
  rw [List.append_nil] at e
  rw [e]
  simp

theorem lines_length {serial : Nat} {tilde : Bool} : ∀ {l : List (Line × Sep)} {ctx : Ctx}, LinesOk serial tilde ctx l →
    l.length ≤ (l.flatMap fun x => x.1.text ++ x.2.text).length
  | [], _, _ => Nat.zero_le _
  | (l, s) :: r, ctx, h => by
    have h1 := line_text_pos h.1
    have h2 := lines_length h.2.2.2.2.2
    simp only [List.flatMap_cons, List.length_cons, List.length_append]
    omega

/-- **C74.** A zone file is read as its text says. -/
theorem text_exact (files : List UInt8 → Option (List UInt8)) {mode serial : Nat} {zone : Name} (hz : OriginOk zone) (hser : serial < 2 ^ 32)
    {f : File} (hf : f.Ok mode serial zone) :
    readText files mode serial (dotted zone) f.text = .ok (.read ((f.records serial zone).map toEntry)) := by
  have hmode : mode ≤ 3 := by
    have := hf.style
    split_ifs at this <;> omega
  have hst : Style (firstMode mode) f.tilde := by
    have := hf.style
    unfold Style firstMode
    split_ifs at this ⊢ <;> omega
  refine lines_run files serial hser f.tilde f.lines _ _ 0 (firstMode mode) _ _ _ hf.lines
    ⟨rfl, rfl, rfl, rfl, rfl, Nat.le_refl _, hz, fun _ h => (by cases h)⟩ hst ?_ (by have := hf.pushes; omega) ?_ hf.few
    (start_ready mode hmode f.head hf.head hf.pipes hf.short hf.line _)
  · intro x r hx hfree h102
    have h2 : mode = 2 := by
      unfold firstMode at h102
      split_ifs at h102
      omega
    rw [hf.first h2 x (by rw [hx]; rfl)] at hfree
    cases hfree
  · have := lines_length hf.lines
    show f.lines.length < (pieces f.head ++ f.lines.flatMap fun x => x.1.text ++ x.2.text).length + 1
    rw [List.length_append]
    omega

/-! ## From the text to the replies -/

/-- What a record is for `csv2_add_rr`; an address that is wrong has no data, which is not in the model of `csv2_add_rr`. -/
def Entry.rr (e : Entry) : Option Zf.Rr := e.data.map fun d => ⟨e.name, e.type, e.ttl, d⟩

/-- The records that a file gives; what has been read before an error counts. -/
def Outcome.rrs : Outcome → Option (List Zf.Rr)
  | .read l => l.mapM Entry.rr
  | .partly l => l.mapM Entry.rr
  | _ => none

/-- All zone files; nothing is something that is not modelled. -/
def readTexts (h : Host) (files : List UInt8 → Option (List UInt8)) (mode : Nat) : List (Name × List UInt8) → Res (Option (List (Zf.Env × List Zf.Rr)))
  | [] => .ok (some [])
  | (zone, text) :: l => do
    let o ← readText files mode h.serial (dotted zone) text
    let r ← readTexts h files mode l
    .ok (o.rrs.bind fun rrs => r.map fun r => (Zf.envOf h zone, rrs) :: r)

/-- The server starts with zone files. -/
def bootText (h : Host) (files : List UInt8 → Option (List UInt8)) (mode : Nat) (l : List (Name × List UInt8)) : Res (Option Big.Store) := do
  match ← readTexts h files mode l with
  | none => .ok none
  | some r => do
    let s ← Zf.boot r Big.empty
    .ok (some s)

theorem toEntry_rr : ∀ l : List ZoneLine, (l.map toEntry).mapM Entry.rr = some (l.map Zf.toRr)
  | [] => rfl
  | e :: l => by
    rw [List.map_cons, List.mapM_cons, toEntry_rr l]
    rfl

/-- What the text makes sure of. -/
structure Said (e : ZoneLine) : Prop where
  labels : LabelsOk e.name
  clean : ∀ l ∈ e.name, (0 : UInt8) ∉ l
  type : (e.type ≤ 65535 ∧ e.type ≠ 255 ∧ e.type ≠ 251 ∧ e.type ≠ 252) ∨ (e.type = 65765 ∧ e.data.length = 4) ∨
    (e.type = 65766 ∧ e.data.length = 16)

theorem group_flat : ∀ l : List (List UInt8), (l.flatMap Ip6.group).length = 2 * l.length
  | [] => rfl
  | g :: l => by
    rw [List.flatMap_cons, List.length_append, group_flat l]
    simp [Ip6.group]
    omega

theorem ip6_data {ip : Ip6} (h : ip.Ok) : ip.data.length = 16 := by
  cases ip with
  | full l =>
    show (l.flatMap Ip6.group).length = 16
    rw [group_flat, h.1]
  | trail l =>
    show (l.flatMap Ip6.group).length = 16
    rw [group_flat, h.1]
  | short l r =>
    have := h.1
    show (l.flatMap Ip6.group ++ List.replicate (16 - 2 * (l.length + r.length)) 0 ++ r.flatMap Ip6.group).length = 16
    rw [List.length_append, List.length_append, group_flat, group_flat, List.length_replicate]
    omega

theorem body_type {origin : Name} {serial : Nat} {next : Piece} {b : Body} (h : b.Ok origin next) :
    (b.type ≤ 65535 ∧ b.type ≠ 255 ∧ b.type ≠ 251 ∧ b.type ≠ 252) ∨ (b.type = 65765 ∧ (b.data origin serial).length = 4) ∨
      (b.type = 65766 ∧ (b.data origin serial).length = 16) := by
  cases b with
  | bare ip => left; simp [Body.type]
  | addr w k g ip =>
    have hk := h.1
    simp only [addrTypes, List.mem_cons, List.not_mem_nil, or_false] at hk
    rcases hk with rfl | rfl
    · left; simp [Body.type]
    · right; left; exact ⟨rfl, rfl⟩
  | addr6 w k g ip =>
    have hk := h.1
    simp only [addr6Types, List.mem_cons, List.not_mem_nil, or_false] at hk
    rcases hk with rfl | rfl
    · left; simp [Body.type]
    · right; right; exact ⟨rfl, ip6_data h.2.2.2⟩
  | name w k g n =>
    have hk := h.1
    simp only [nameTypes, List.mem_cons, List.not_mem_nil, or_false] at hk
    left
    rcases hk with rfl | rfl | rfl | rfl | rfl <;> simp [Body.type]
  | pref w k g p g' n =>
    have hk := h.1
    simp only [prefTypes, List.mem_cons, List.not_mem_nil, or_false] at hk
    left
    rcases hk with rfl | rfl | rfl <;> simp [Body.type]
  | mail => left; simp [Body.type]
  | srv => left; simp [Body.type]
  | soa => left; simp [Body.type]
  | strs w k g l =>
    have hk := h.1
    simp only [strTypes, List.mem_cons, List.not_mem_nil, or_false] at hk
    left
    rcases hk with rfl | rfl | rfl | rfl <;> simp [Body.type]
  | fixed w k g l =>
    have hk := h.1
    simp only [fixedTypes, List.mem_cons, List.not_mem_nil, or_false] at hk
    left
    rcases hk with rfl | rfl <;> simp [Body.type]
  | raw w g t g' s =>
    obtain ⟨-, -, -, h1, h2, -⟩ := h
    left
    simp only [List.mem_cons, List.not_mem_nil, or_false, not_or] at h2
    exact ⟨h1, h2.1, h2.2.1, h2.2.2.1⟩

theorem name_clean {n : NameText} {origin : Name} (hn : n.Ok origin) (ho : ∀ l ∈ origin, (0 : UInt8) ∉ l) : ∀ l ∈ n.name origin, (0 : UInt8) ∉ l := by
  intro l hl h0
  rw [NameText.name, List.mem_append] at hl
  rcases hl with hl | hl
  · have := (hn.labels l hl).2.2 0 h0
    revert this
    decide
  · split_ifs at hl
    · exact ho l hl h0
    · cases hl

theorem entries_said {serial : Nat} {tilde : Bool} : ∀ {l : List (Line × Sep)} {ctx : Ctx}, LinesOk serial tilde ctx l → OriginOk ctx.origin →
    (∀ o ∈ ctx.stack, OriginOk o) → (∀ o ∈ ctx.origin :: ctx.stack, ∀ x ∈ o, (0 : UInt8) ∉ x) → ∀ e ∈ entries serial ctx l, Said e
  | [], _, _, _, _, _, e, he => by cases he
  | (l, s) :: r, ctx, h, ho, hs, hc, e, he => by
    obtain ⟨h1, -, -, -, -, h6⟩ := h
    rw [entries, List.mem_append] at he
    have hco := hc _ List.mem_cons_self
    cases l with
    | record n g tt cs b =>
      rcases he with he | he
      · rw [List.mem_singleton.mp he]
        exact ⟨(name_labelsOk h1.1 ho).1, name_clean h1.1 hco, body_type h1.2.2.2.2.2.2⟩
      · exact entries_said h6 ho hs hc e he
    | ttl g n =>
      rcases he with he | he
      · cases he
      · exact entries_said h6 ho hs hc e he
    | origin g n =>
      rcases he with he | he
      · cases he
      · refine entries_said h6 (name_originOk h1.2.2.1.ok ho h1.2.2.2) hs ?_ e he
        intro o hmem
        rcases List.mem_cons.mp hmem with rfl | hmem
        · exact name_clean h1.2.2.1.ok hco
        · exact hc o (List.mem_cons_of_mem _ hmem)
    | push g n =>
      rcases he with he | he
      · cases he
      · refine entries_said h6 (name_originOk h1.2.2.1.ok ho h1.2.2.2) ?_ ?_ e he
        · intro o hmem
          rcases List.mem_cons.mp hmem with rfl | hmem
          · exact ho
          · exact hs o hmem
        · intro o hmem
          rcases List.mem_cons.mp hmem with rfl | hmem
          · exact name_clean h1.2.2.1.ok hco
          · exact hc o hmem
    | pop =>
      obtain ⟨o, st, hst⟩ := List.exists_cons_of_ne_nil h1.1
      have estep : step serial ctx .pop = ({ ctx with origin := o, stack := st }, []) := by simp [step, hst]
      rw [estep] at he h6
      rcases he with he | he
      · cases he
      · refine entries_said h6 (hs o (by rw [hst]; simp)) (fun x hx => hs x (by rw [hst]; simp [hx])) ?_ e he
        intro x hx
        exact hc x (by rw [hst]; exact List.mem_cons_of_mem _ hx)

/-- A zone and its file. -/
structure ZoneText.Ok (h : Host) (mode : Nat) (x : Name × File) : Prop where
  zone : Zf.ZoneOk h x.1
  bytes : ∀ l ∈ x.1, (0 : UInt8) ∉ l ∧ (42 : UInt8) ∉ l ∧ (46 : UInt8) ∉ l
  file : x.2.Ok mode h.serial x.1
  /-- not all names and types can be held -/
  fits : ∀ e ∈ x.2.records h.serial x.1, (Big.base e.star e.name).length ≤ 253 ∧ (e.type < 65001 ∨ e.type = 65765 ∨ e.type = 65766)
  /-- name servers of the zone are written without capitals -/
  written : ∀ e ∈ x.2.records h.serial x.1, e.own x.1 = true → e.name = x.1

/-- The zones and what their files say. -/
def saidBy (h : Host) (l : List (Name × File)) : List (Name × List ZoneLine) := l.map fun x => (x.1, x.2.records h.serial x.1)

theorem ZoneText.Ok.origin {h : Host} {mode : Nat} {x : Name × File} (hx : ZoneText.Ok h mode x) : OriginOk x.1 :=
  ⟨hx.zone.labels, hx.zone.notRoot, fun l hl => (hx.bytes l hl).2⟩

theorem ZoneText.Ok.fileOk {h : Host} {mode : Nat} {x : Name × File} (hx : ZoneText.Ok h mode x) :
    Zf.FileOk h (x.1, x.2.records h.serial x.1) := by
  have hs : ∀ e ∈ x.2.records h.serial x.1, Said e := entries_said hx.file.lines hx.origin (fun _ h => by cases h) (by
    intro o ho
    rw [List.mem_singleton.mp ho]
    exact fun l hl => (hx.bytes l hl).1)
  refine ⟨hx.zone, fun l hl => (hx.bytes l hl).1, ?_, ?_⟩
  · intro e he
    have := (hs e he).type
    exact ⟨(hs e he).labels, by omega, hx.written e he⟩
  · intro e he
    have h1 := (hs e he).type
    have h2 := (hx.fits e he)
    exact ⟨(hs e he).clean, h2.1, by omega⟩

theorem readTexts_eq {h : Host} (files : List UInt8 → Option (List UInt8)) {mode : Nat} (hser : h.serial < 2 ^ 32) :
    ∀ {l : List (Name × File)}, (∀ x ∈ l, ZoneText.Ok h mode x) →
      readTexts h files mode (l.map fun x => (x.1, x.2.text)) = .ok (some (Zf.asRead h (saidBy h l)))
  | [], _ => rfl
  | x :: l, hl => by
    have hx := hl x List.mem_cons_self
    rw [List.map_cons, readTexts, text_exact files hx.origin hser hx.file, Dw.Res.ok_bind,
      readTexts_eq files hser fun y hy => hl y (List.mem_cons_of_mem _ hy), Dw.Res.ok_bind]
    show Res.ok ((((x.2.records h.serial x.1).map toEntry).mapM Entry.rr).bind _) = _
    rw [toEntry_rr]
    rfl

/-- **C74.** From the text of the zone files to the replies: the reply to every ordinary question is what the
specification of replies says for the records which the text says. -/
theorem text_served {h : Host} (files : List UInt8 → Option (List UInt8)) {mode : Nat} (hser : h.serial < 2 ^ 32) (h0 : 0 ∉ h.ips)
    {l : List (Name × File)} (hl : ∀ x ∈ l, ZoneText.Ok h mode x) (hd : (l.map Prod.fst).Nodup) :
    ∃ s, bootText h files mode (l.map fun x => (x.1, x.2.text)) = .ok (some s) ∧
      ∀ (cfg : Lookup.Cfg) (raw : Js) (q : Name) (t : Nat), Lookup.Usual cfg → Lookup.Asks cfg raw q t → Lookup.Plain cfg q t →
        Lookup.procQuery cfg (Big.view s) raw =
          .ok (Lookup.sent q ((Spec.Given.toZone (Zf.allRecords h (saidBy h l))).reply (Spec.lowName q) t)) := by
  have hf : ∀ f ∈ saidBy h l, Zf.FileOk h f := by
    intro f hf
    obtain ⟨x, hx, rfl⟩ := List.mem_map.mp hf
    exact (hl x hx).fileOk
  obtain ⟨s, h1, h2⟩ := Zf.zones_served hf (by simpa [saidBy, Function.comp_def] using hd) h0
  refine ⟨s, ?_, h2⟩
  rw [bootText, readTexts_eq files hser hl, Dw.Res.ok_bind]
  show (do let s ← Zf.boot (Zf.asRead h (saidBy h l)) Big.empty; Res.ok (some s)) = _
  rw [h1]
  rfl

/-! ### An example -/

def exGap : Gap := ⟨.blank 32, []⟩

theorem exGap_ok : exGap.Ok := ⟨Or.inr (Or.inr (Or.inr rfl)), fun _ h => (by cases h), by decide, by decide⟩

/-- A blank, a tilde, and the end of the line. -/
def exSep : Sep := ⟨.blank 32, [], true, [.blank 10]⟩

theorem exSep_ok : exSep.Ok where
  first := Or.inr (Or.inr (Or.inr rfl))
  before _ h := by cases h
  after p h := by
    rw [List.mem_singleton.mp h]
    exact Or.inr (Or.inl rfl)
  pipes := by decide
  short := by decide
  none h := by cases h

theorem exSep_line : exSep.newLine := ⟨.blank 10, rfl, rfl⟩

def exRel (l : List String) : NameText := ⟨false, l.map ascii, true⟩

def exStar : NameText := ⟨true, [], true⟩

def exLines : List (Line × Sep) :=
  [(.record (exRel []) exGap none [] (.name (ascii "NS") ("ns", 2) exGap (exRel ["ns"])), exSep),
   (.ttl exGap (ascii "60"), exSep),
   (.push exGap (exRel ["sub"]), exSep),
   (.record (exRel ["www"]) exGap (some (ascii "7200", exGap)) [(ascii "IN", exGap)]
      (.addr6 (ascii "AAAA") ("aaaa", 28) exGap (.short [ascii "2001", ascii "dB8"] [ascii "1"])), exSep),
   (.record exStar exGap none [] (.strs (ascii "TXT") ("txt", 16) exGap
      [[.quoted (ascii "a b")], [.bare 99, .hex 102 70, .quote]]), exSep),
   (.pop, exSep),
   (.record (exRel ["mail"]) exGap none [] (.bare ⟨ascii "10", ascii "0", ascii "0", ascii "1"⟩), exSep)]

def exFile : File := ⟨[.comment (ascii " zone") 10], true, exLines⟩

def exZone : Name := [ascii "example", ascii "com"]

example : exFile.text = ascii "# zone\n% NS ns.% ~\n/ttl 60 ~\n/opush sub.% ~\nwww.% +7200 IN AAAA 2001:dB8::1 ~\n*.% TXT 'a b';c\\xfF\\' ~\n/opop ~\nmail.% 10.0.0.1 ~\n" := by
  decide +kernel

theorem num_ok {l : List UInt8} (h1 : l.all isDigit = true) (h2 : l ≠ []) (h3 : 1 ≤ value l ∧ value l ≤ 2147483647) (h4 : l.length ≤ 256) : NumOk l :=
  ⟨fun c hc => List.all_eq_true.mp h1 c hc, h2, h3.2, fun h => by omega, h4⟩

instance (n : NameText) (origin : Name) : Decidable (n.Ok origin) :=
  decidable_of_iff ((∀ l ∈ n.labels, 1 ≤ l.length ∧ l.length ≤ 63 ∧ ∀ c ∈ l, isPlain c = true ∨ c = 47) ∧ n.text.head? ≠ some 47 ∧ n.text ≠ [] ∧
    (encName (n.name origin)).length + (if n.star then 2 else 0) ≤ 255) ⟨fun ⟨a, b, c, d⟩ => ⟨a, b, c, d⟩, fun ⟨a, b, c, d⟩ => ⟨a, b, c, d⟩⟩

instance (w : List UInt8) (s : String) : Decidable (Says w s) := inferInstanceAs (Decidable (w.map lower = ascii s))

def exSub : Name := ascii "sub" :: exZone

theorem exLines_ok : LinesOk 1 true ⟨exZone, [], 86400⟩ exLines := by
  have hg := exGap_ok
  have hs := exSep_ok
  have hl := exSep_line
  have hnc : exGap.first.isComment = false := rfl
  refine ⟨?_, hs, rfl, fun _ => hl, fun h => (by cases h), ?_, hs, rfl, fun _ => hl, fun h => (by cases h), ?_, hs, rfl, fun _ => hl,
    fun h => (by cases h), ?_, hs, rfl, fun _ => hl, fun h => (by cases h), ?_, hs, rfl, fun _ => hl, fun _ _ => ⟨by decide, by decide⟩, ?_, hs, rfl,
    fun _ => hl, fun h => (by cases h), ?_, hs, rfl, fun _ => hl, fun h => (by cases h), trivial⟩
  · exact ⟨by decide +kernel, fun _ => rfl, hg, fun x h => (by cases h), fun x h => (by cases h), fun ⟨_, h⟩ => (by cases h), by decide,
      by decide +kernel, hg, by decide +kernel, rfl, fun _ => rfl⟩
  · exact ⟨rfl, hg, num_ok (by decide +kernel) (by decide) (by decide +kernel) (by decide)⟩
  · exact ⟨rfl, hg, ⟨by decide +kernel, rfl, fun _ => rfl⟩, by decide +kernel⟩
  · refine ⟨by decide +kernel, fun _ => rfl, hg, ?_, ?_, fun ⟨_, h⟩ => (by cases h), by decide, by decide +kernel, hg, by decide, ?_, ?_⟩
    · intro x hx
      cases hx
      exact ⟨num_ok (by decide +kernel) (by decide) (by decide +kernel) (by decide), hg⟩
    · intro x hx
      rw [List.mem_singleton.mp hx]
      exact ⟨by decide +kernel, hg⟩
    · unfold Ip6.GroupOk
      decide +kernel
    · unfold Ip6.GroupOk
      decide +kernel
  · refine ⟨by decide +kernel, fun _ => rfl, hg, fun x h => (by cases h), fun x h => (by cases h), fun ⟨_, h⟩ => (by cases h), by decide,
      by decide +kernel, hg, ?_, by decide +kernel, by decide +kernel, by decide +kernel, by decide +kernel⟩
    intro s hs b hb
    simp only [List.mem_cons, List.not_mem_nil, or_false] at hs
    rcases hs with rfl | rfl
    · rw [List.mem_singleton.mp hb]
      unfold Bit.Ok
      decide +kernel
    · simp only [List.mem_cons, List.not_mem_nil, or_false] at hb
      rcases hb with rfl | rfl | rfl <;> unfold Bit.Ok <;> decide +kernel
  · exact ⟨by decide, rfl⟩
  · refine ⟨by decide +kernel, fun _ => rfl, hg, fun x h => (by cases h), fun x h => (by cases h), fun _ => rfl, ?_⟩
    show Ip4.Ok _
    unfold Ip4.Ok
    decide +kernel

theorem exFile_ok : exFile.Ok 2 1 exZone where
  head p h := by
    rw [List.mem_singleton.mp h]
    exact ⟨Or.inl rfl, by decide +kernel, by decide +kernel⟩
  pipes := by decide
  short := by decide
  line p h := by
    cases h
    rfl
  lines := exLines_ok
  style := Or.inl rfl
  first _ x hx := by
    cases hx
    rfl
  pushes := by decide
  few := by decide

theorem exZone_ok : OriginOk exZone := ⟨by unfold LabelsOk; decide +kernel, by decide +kernel, by decide +kernel⟩

-- what the file says
example : exFile.records 1 exZone = [⟨false, exZone, 2, 86400, encName (ascii "ns" :: exZone)⟩,
    ⟨false, ascii "www" :: exSub, 28, 7200, [32, 1, 13, 184, 0, 0, 0, 0, 0, 0, 0, 0, 0, 0, 0, 1]⟩,
    ⟨true, exSub, 16, 60, [3, 97, 32, 98, 3, 99, 255, 39]⟩,
    ⟨false, ascii "mail" :: exZone, 1, 60, [10, 0, 0, 1]⟩] := rfl

example : readText (fun _ => none) 2 1 (ascii "example.com.") exFile.text = .ok (.read ((exFile.records 1 exZone).map toEntry)) :=
  text_exact _ exZone_ok (by decide) exFile_ok

def exHost : Host := ⟨[167772161], 1, none⟩

theorem exText_ok : ∀ x ∈ [(exZone, exFile)], ZoneText.Ok exHost 2 x := by
  intro x hx
  rw [List.mem_singleton.mp hx]
  refine ⟨⟨by unfold LabelsOk; decide +kernel, by decide +kernel, by decide +kernel, by decide +kernel, (by intro o ho; cases ho), by decide⟩,
    by decide +kernel, exFile_ok, ?_, ?_⟩ <;> decide +kernel

-- `Mail.example.com` has an address, and the name server of the zone comes with it
example : ∃ s, bootText exHost (fun _ => none) 2 [(exZone, exFile.text)] = .ok (some s) ∧
    Lookup.procQuery {} (Big.view s) (Lookup.exQuery [ascii "Mail", ascii "example", ascii "com"] 1 1) =
      .ok (.success [(1, [10, 0, 0, 1], 60), (2, encName (ascii "ns" :: exZone), 86400)] true) := by
  obtain ⟨s, h1, h2⟩ := text_served (h := exHost) (fun _ => none) (mode := 2) (by decide) (by decide) exText_ok (by decide)
  refine ⟨s, h1, (h2 {} _ [ascii "Mail", ascii "example", ascii "com"] 1 Lookup.exUsual
    (Lookup.exAsks (by unfold LabelsOk; decide +kernel) (by decide +kernel) (by decide) (by decide)) (Lookup.exPlain (by decide +kernel))).trans ?_⟩
  decide +kernel

end Csv2
end Mara
