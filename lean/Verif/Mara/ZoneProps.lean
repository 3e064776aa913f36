import Verif.Mara.ZoneRead
import Verif.Mara.BigHashProps
/-!
# Properties: the server answers with the records of its zone files

Reading the files (`readZone`), giving the records to the main table (`give`), and answering from the
table (`Lookup.procQuery`), put together.
-/

namespace Mara
namespace Zf

open Dw (Res)
open Spec Given
open Big (base enc Clean Fit Loadable Store)

variable {h : Host} {zone : Name}

/-- **C69.** What the server has from a zone file is what the specification says. -/
theorem read_exact (hz : ZoneOk h zone) (es : List ZoneLine) (he : ∀ e ∈ es, ZoneLineOk zone e) :
    readZone (envOf h zone) (es.map toRr) = .ok ((fileRecords h zone es).map outRr) := read_ok hz es he

/-- `csv2_add_rr_bighash` for a record read from a file. -/
def giveRr (env : Env) (s : Store) (rr : Rr) : Res Store := do
  let (_, s) ← Big.add s (enc (rr.query, rr.type)) rr.data rr.ttl.toNat (enc (env.zone, 2))
  .ok s

/-- All records of a file.  In the code they are given as they are read. -/
def giveRrs (env : Env) : List Rr → Store → Res Store
  | [], s => .ok s
  | rr :: l, s => do
    let s ← giveRr env s rr
    giveRrs env l s

/-- The zone files one after the other, `csv2_parse_main_bighash`, Csv2_main.c:89-106; in which order depends
on the hash of the names of the zones. -/
def readAll : List (Env × List Rr) → Store → Res Store
  | [], s => .ok s
  | (env, rrs) :: l, s => do
    let out ← readZone env rrs
    let s ← giveRrs env out s
    readAll l s

/-- `csv2_parse_main_bighash`, Csv2_main.c:43-111: the server stops if one of the addresses for name servers is 0.0.0.0. -/
def boot (files : List (Env × List Rr)) (s : Store) : Res Store :=
  if files.any fun f => f.1.ips.contains 0 then .err else readAll files s

/-- Records that the table can hold. -/
structure StoreOk (e : ZoneLine) : Prop where
  clean : ∀ l ∈ e.name, (0 : UInt8) ∉ l
  fits : (base e.star e.name).length ≤ 253
  type : e.type = 65765 ∨ e.type = 65766 ∨ (e.type < 65001 ∧ e.type ≠ 255 ∧ e.type ≠ 251 ∧ e.type ≠ 252)

/-- A zone file whose records can be held. -/
structure FileOk (h : Host) (f : Name × List ZoneLine) : Prop where
  zone : ZoneOk h f.1
  clean : ∀ l ∈ f.1, (0 : UInt8) ∉ l
  entry : ∀ e ∈ f.2, ZoneLineOk f.1 e
  store : ∀ e ∈ f.2, StoreOk e

theorem lower_zero : ∀ n : Fin 256, lower (UInt8.ofNat n) = 0 → UInt8.ofNat n = 0 := by decide +kernel

theorem lowName_clean {n : Name} (hn : ∀ l ∈ n, (0 : UInt8) ∉ l) : ∀ l ∈ lowName n, (0 : UInt8) ∉ l := by
  intro l hl h0
  unfold lowName at hl
  obtain ⟨l', h1, rfl⟩ := List.mem_map.1 hl
  obtain ⟨c, h2, h3⟩ := List.mem_map.1 h0
  have := lower_zero ⟨c.toNat, c.toNat_lt⟩
  simp only [UInt8.ofNat_toNat] at this
  exact hn l' h1 (this h3 ▸ h2)

theorem lower_lower : ∀ n : Fin 256, lower (lower (UInt8.ofNat n)) = lower (UInt8.ofNat n) := by decide +kernel

theorem lowName_low (n : Name) : lowName (lowName n) = lowName n := by
  unfold lowName
  rw [List.map_map]
  apply List.map_congr_left
  intro l _
  simp only [Function.comp_apply, List.map_map]
  apply List.map_congr_left
  intro c _
  have := lower_lower ⟨c.toNat, c.toNat_lt⟩
  simpa using this

theorem lowName_labels {n : Name} (hn : LabelsOk n) : LabelsOk (lowName n) := by
  intro l hl
  unfold lowName at hl
  obtain ⟨l', h1, rfl⟩ := List.mem_map.1 hl
  rw [List.length_map]
  exact hn l' h1

theorem base_len {n : Name} (hn : LabelsOk n) (star : Bool) : (base star (lowName n)).length = (base star n).length := by
  rw [← base_low hn, List.length_map]

theorem base_pos (star : Bool) (n : Name) : 1 ≤ (base star n).length := by
  unfold base
  cases star <;> simp [encName]

theorem good_base {star : Bool} {n : Name} {t : Nat} (h1 : (base star n).length ≤ 253) (h2 : t < 65001) (h3 : t ≠ 255 ∧ t ≠ 251 ∧ t ≠ 252) :
    Big.Good (base star n, t) := ⟨base_pos star n, h1, h2, h3⟩

theorem encLabels_len (n : Name) : (encLabels n).length = (n.map fun l => l.length + 1).sum := by
  induction n with
  | nil => rfl
  | cons l n ih =>
    unfold encLabels at *
    simp [ih]
    omega

theorem sum_le {n : Name} {m : Nat} (hn : ∀ l ∈ n, l.length ≤ m) : (n.map fun l => l.length + 1).sum ≤ n.length * (m + 1) := by
  induction n with
  | nil => simp
  | cons l n ih =>
    have h1 := hn l (List.mem_cons_self ..)
    have h2 := ih fun x hx => hn x (List.mem_cons_of_mem _ hx)
    rw [List.map_cons, List.sum_cons, List.length_cons, Nat.add_mul]
    omega

theorem reverse4_len {ip : List UInt8} (hi : ip.length = 4) : (encName (reverse4 ip)).length ≤ 253 := by
  have h1 : (encLabels (ip.reverse.map fun b => decimal b.toNat)).length ≤ 16 := by
    rw [encLabels_len]
    refine Nat.le_trans (sum_le (m := 3) ?_) ?_
    · intro l hl
      obtain ⟨b, _, rfl⟩ := List.mem_map.1 hl
      exact (decimal_ok b).1
    · simp [hi]
  have h2 : (encLabels [ascii "in-addr", ascii "arpa"]).length = 13 := by decide +kernel
  rw [reverse4, encName, encLabels_append]
  simp only [List.length_append, List.length_cons, List.length_nil]
  omega

theorem reverse6_len {ip : List UInt8} (hi : ip.length = 16) : (encName (reverse6 ip)).length ≤ 253 := by
  have h1 : (encLabels (ip.reverse.flatMap fun b => [[digit (b.toNat % 16)], [digit (b.toNat / 16)]])).length ≤ 64 := by
    rw [encLabels_len]
    refine Nat.le_trans (sum_le (m := 1) ?_) ?_
    · intro l hl
      obtain ⟨b, _, hb⟩ := List.mem_flatMap.1 hl
      simp only [List.mem_cons, List.not_mem_nil, or_false] at hb
      rcases hb with rfl | rfl <;> simp
    · have : ∀ l : List UInt8, (l.flatMap fun b => [[digit (b.toNat % 16)], [digit (b.toNat / 16)]]).length = 2 * l.length := by
        intro l
        induction l with
        | nil => rfl
        | cons a l ih => rw [List.flatMap_cons, List.length_append, ih]; simp; omega
      rw [this, List.length_reverse, hi]
      decide
  have h2 : (encLabels [ascii "ip6", ascii "arpa"]).length = 9 := by decide +kernel
  rw [reverse6, encName, encLabels_append]
  simp only [List.length_append, List.length_cons, List.length_nil]
  omega

theorem given_fit (hz : Clean zone) {e : ZoneLine} (he : ZoneLineOk zone e) (hs : StoreOk e) {t : Nat}
    (ht : t < 65001 ∧ t ≠ 255 ∧ t ≠ 251 ∧ t ≠ 252) : Fit { e.given zone with type := t } where
  name := ⟨lowName_labels he.labels, lowName_clean hs.clean⟩
  zone := hz
  low := lowName_low _
  good := ⟨base_pos _ _, by
    show (base e.star (lowName e.name)).length ≤ 253
    rw [base_len he.labels]
    exact hs.fits, ht.1, ht.2⟩

theorem stands_fit (hz : Clean zone) {e : ZoneLine} (he : ZoneLineOk zone e) (hs : StoreOk e) : ∀ g ∈ e.stands zone, Fit g ∧ g.zone = zone := by
  intro g hg
  unfold ZoneLine.stands at hg
  simp only at hg
  split at hg
  · rename_i h1
    have hd : e.data.length = 4 := by
      rcases he.type with ht | ht | ht
      · omega
      · exact ht.2
      · omega
    simp only [List.mem_cons, List.not_mem_nil, or_false] at hg
    obtain ⟨r1, r2, r3⟩ := reverse4_ok e.data
    rcases hg with rfl | rfl
    · exact ⟨⟨⟨r1, r3⟩, hz, r2, good_base (star := false) (t := 12) (reverse4_len hd) (by decide) (by decide)⟩, rfl⟩
    · exact ⟨given_fit hz he hs (by decide), rfl⟩
  · split at hg
    · rename_i h1
      have hd : e.data.length = 16 := by
        rcases he.type with ht | ht | ht
        · omega
        · omega
        · exact ht.2
      simp only [List.mem_cons, List.not_mem_nil, or_false] at hg
      obtain ⟨r1, r2, r3⟩ := reverse6_ok e.data
      rcases hg with rfl | rfl
      · exact ⟨⟨⟨r1, r3⟩, hz, r2, good_base (star := false) (t := 12) (reverse6_len hd) (by decide) (by decide)⟩, rfl⟩
      · exact ⟨given_fit hz he hs (by decide), rfl⟩
    · rename_i h1 h2
      simp only [List.mem_cons, List.not_mem_nil, or_false] at hg
      subst hg
      exact ⟨given_fit hz he hs (by
        rcases hs.type with ht | ht | ht
        · exact absurd ht h1
        · exact absurd ht h2
        · exact ht), rfl⟩

theorem stands_type2 {e : ZoneLine} {g : Given} (hg : g ∈ e.stands zone) (h2 : g.type = 2) (hs : g.star = false) (hn : g.name = g.zone)
    (hgz : g.zone = zone) : e.own zone = true := by
  unfold ZoneLine.stands at hg
  simp only at hg
  split at hg
  · simp only [List.mem_cons, List.not_mem_nil, or_false] at hg
    rcases hg with rfl | rfl <;> simp at h2
  · split at hg
    · simp only [List.mem_cons, List.not_mem_nil, or_false] at hg
      rcases hg with rfl | rfl <;> simp at h2
    · simp only [List.mem_cons, List.not_mem_nil, or_false] at hg
      subst hg
      unfold ZoneLine.own
      rw [decide_eq_true_iff]
      exact ⟨hs, hn, h2⟩

theorem mem_takeWhile {p : ZoneLine → Bool} {e : ZoneLine} : ∀ {l : List ZoneLine}, e ∈ l.takeWhile p → e ∈ l ∧ p e = true
  | [], h => by cases h
  | a :: l, h => by
    rw [List.takeWhile_cons] at h
    split at h
    · rcases List.mem_cons.1 h with rfl | h
      · exact ⟨List.mem_cons_self .., by assumption⟩
      · exact ⟨List.mem_cons_of_mem _ (mem_takeWhile h).1, (mem_takeWhile h).2⟩
    · cases h

theorem mem_dropWhile {p : ZoneLine → Bool} {e : ZoneLine} {l : List ZoneLine} (h : e ∈ l.dropWhile p) : e ∈ l :=
  (List.dropWhile_suffix p).subset h

theorem soa_fit (hz : ZoneOk h zone) (hc : ∀ l ∈ zone, (0 : UInt8) ∉ l) : Fit (madeSoa h zone) := by
  have hs := hz.short
  refine ⟨⟨hz.labels, hc⟩, ⟨hz.labels, hc⟩, hz.low, good_base (star := false) (n := zone) (t := 6) ?_ (by decide) (by decide)⟩
  show (encName zone).length ≤ 253
  omega

theorem madeNs_fit (hz : ZoneOk h zone) (hc : ∀ l ∈ zone, (0 : UInt8) ∉ l) :
    ∀ g ∈ madeNs h zone, Fit g ∧ g.zone = zone := by
  have hs := hz.short
  intro g hg
  unfold madeNs at hg
  simp only [List.mem_append, List.mem_map] at hg
  rcases hg with ⟨ip, _, rfl⟩ | ⟨ip, _, rfl⟩
  · refine ⟨⟨⟨hz.labels, hc⟩, ⟨hz.labels, hc⟩, hz.low, good_base (star := false) (n := zone) (t := 2) ?_ (by decide) (by decide)⟩, rfl⟩
    show (encName zone).length ≤ 253
    omega
  · obtain ⟨h1, h2⟩ := synthLabels_ok hz ip
    refine ⟨⟨⟨h1, ?_⟩, ⟨hz.labels, hc⟩, h2, good_base (star := false) (n := synthLabel ip :: zone) (t := 1) ?_ (by decide) (by decide)⟩, rfl⟩
    · intro l hl
      rcases List.mem_cons.1 hl with rfl | hl
      · exact (synthLabel_ok ip).2.2
      · exact hc l hl
    · show (encName (synthLabel ip :: zone)).length ≤ 253
      rw [Lookup.encName_cons, List.length_cons, List.length_append, (synthLabel_ok ip).1]
      omega

/-- The records of one file. -/
theorem file_loadable {f : Name × List ZoneLine} (hf : FileOk h f) :
    Loadable (fileRecords h f.1 f.2) ∧ ∀ g ∈ fileRecords h f.1 f.2, g.zone = f.1 := by
  obtain ⟨zone, es⟩ := f
  have hz : ZoneOk h zone := hf.zone
  have hc : ∀ l ∈ zone, (0 : UInt8) ∉ l := hf.clean
  have hcl : Clean zone := ⟨hz.labels, hc⟩
  cases es with
  | nil =>
    refine ⟨⟨fun g hg => ?_, ?_⟩, fun g hg => ?_⟩
    · cases hg
    · exact List.Pairwise.nil
    · cases hg
  | cons e l =>
    simp only
    unfold fileRecords
    simp only
    generalize hr : List.filter (fun e => decide (e.type ≠ 6)) (if e.type = 6 then l else e :: l) = rest
    have hrest : ∀ x ∈ rest, x ∈ e :: l := by
      intro x hx
      rw [← hr] at hx
      have := (List.mem_filter.1 hx).1
      split at this
      · exact List.mem_cons_of_mem _ this
      · exact this
    generalize hsoa : (if e.type = 6 then e.given zone else madeSoa h zone) = soa
    have hsf : Fit soa ∧ soa.zone = zone ∧ soa.type = 6 := by
      rw [← hsoa]
      split
      · rename_i h6
        have he := hf.entry e (List.mem_cons_self ..)
        have hst := hf.store e (List.mem_cons_self ..)
        refine ⟨?_, rfl, h6⟩
        exact given_fit hcl he hst (t := e.type) (by omega)
      · exact ⟨soa_fit hz hc, rfl, rfl⟩
    have htop : ∀ g ∈ (rest.takeWhile (ZoneLine.own zone)).map (ZoneLine.given zone), Fit g ∧ g.zone = zone ∧ g.type = 2 := by
      intro g hg
      obtain ⟨x, hx, rfl⟩ := List.mem_map.1 hg
      obtain ⟨h1, h2⟩ := mem_takeWhile hx
      unfold ZoneLine.own at h2
      rw [decide_eq_true_iff] at h2
      exact ⟨given_fit hcl (hf.entry x (hrest x h1)) (hf.store x (hrest x h1)) (t := x.type) (by omega), rfl, h2.2.2⟩
    have hoth : ∀ g ∈ ((rest.dropWhile (ZoneLine.own zone)).filter fun e => !e.own zone).flatMap (ZoneLine.stands zone),
        Fit g ∧ g.zone = zone ∧ ¬ (g.star = false ∧ g.type = 2 ∧ g.name = g.zone) := by
      intro g hg
      obtain ⟨x, hx, hxg⟩ := List.mem_flatMap.1 hg
      obtain ⟨h1, h2⟩ := List.mem_filter.1 hx
      have h1 := hrest x (mem_dropWhile h1)
      obtain ⟨h3, h4⟩ := stands_fit hcl (hf.entry x h1) (hf.store x h1) g hxg
      refine ⟨h3, h4, fun ⟨a, b, c⟩ => ?_⟩
      rw [stands_type2 hxg b a c h4] at h2
      cases h2
    have hsoaNo : ¬ (soa.star = false ∧ soa.type = 2 ∧ soa.name = soa.zone) := fun hh => by
      have := hsf.2.2
      omega
    have hnsPair : ∀ ns : List Given, (∀ g ∈ ns, g.type = 2) →
        ns.Pairwise fun x g => g.star = false ∧ g.type = 2 ∧ g.name = g.zone ∧ x.zone = g.zone → x.type = 2 := by
      intro ns hns
      apply List.Pairwise.imp_of_mem (R := fun _ _ => True)
      · intro a b ha _ _ _
        exact hns a ha
      · exact List.pairwise_of_forall (fun _ _ => trivial)
    have hnoPair : ∀ ns : List Given, (∀ g ∈ ns, ¬ (g.star = false ∧ g.type = 2 ∧ g.name = g.zone)) →
        ns.Pairwise fun x g => g.star = false ∧ g.type = 2 ∧ g.name = g.zone ∧ x.zone = g.zone → x.type = 2 := by
      intro ns hns
      apply List.Pairwise.imp_of_mem (R := fun _ _ => True)
      · intro a b _ hb _ hh
        exact absurd ⟨hh.1, hh.2.1, hh.2.2.1⟩ (hns b hb)
      · exact List.pairwise_of_forall (fun _ _ => trivial)
    have hjoin : ∀ a b : List Given, (∀ g ∈ a, Fit g ∧ g.zone = zone) → (∀ g ∈ b, Fit g ∧ g.zone = zone ∧ ¬ (g.star = false ∧ g.type = 2 ∧ g.name = g.zone)) →
        (a.Pairwise fun x g => g.star = false ∧ g.type = 2 ∧ g.name = g.zone ∧ x.zone = g.zone → x.type = 2) →
        Loadable (a ++ b) ∧ ∀ g ∈ a ++ b, g.zone = zone := by
      intro a b ha hb hp
      refine ⟨⟨fun g hg => ?_, List.pairwise_append.2 ⟨hp, hnoPair b fun g hg => (hb g hg).2.2, ?_⟩⟩, fun g hg => ?_⟩
      · rcases List.mem_append.1 hg with hg | hg
        · exact (ha g hg).1
        · exact (hb g hg).1
      · intro x _ g hg hh
        exact absurd ⟨hh.1, hh.2.1, hh.2.2.1⟩ (hb g hg).2.2
      · rcases List.mem_append.1 hg with hg | hg
        · exact (ha g hg).2
        · exact (hb g hg).2.1
    have htopP := hnsPair _ fun g hg => (htop g hg).2.2
    have hsoa1 : ∀ g ∈ [soa], Fit g ∧ g.zone = zone ∧ ¬ (g.star = false ∧ g.type = 2 ∧ g.name = g.zone) := by
      intro g hg
      rw [List.mem_singleton] at hg
      subst hg
      exact ⟨hsf.1, hsf.2.1, hsoaNo⟩
    have hsoa2 : ∀ g ∈ [soa] ++ ((rest.dropWhile (ZoneLine.own zone)).filter fun e => !e.own zone).flatMap (ZoneLine.stands zone),
        Fit g ∧ g.zone = zone ∧ ¬ (g.star = false ∧ g.type = 2 ∧ g.name = g.zone) := by
      intro g hg
      rcases List.mem_append.1 hg with hg | hg
      · exact hsoa1 g hg
      · exact hoth g hg
    split
    · exact hjoin _ _ (fun g hg => ⟨(htop g hg).1, (htop g hg).2.1⟩) hsoa1 htopP
    · rw [List.append_assoc]
      split
      · refine hjoin _ _ (madeNs_fit hz hc) hsoa2 ?_
        unfold madeNs
        simp only
        refine List.pairwise_append.2 ⟨hnsPair _ ?_, hnoPair _ ?_, ?_⟩
        · intro g hg
          obtain ⟨_, _, rfl⟩ := List.mem_map.1 hg
          rfl
        · intro g hg hh
          obtain ⟨_, _, rfl⟩ := List.mem_map.1 hg
          simp at hh
        · intro x hx g hg hh
          obtain ⟨_, _, rfl⟩ := List.mem_map.1 hg
          simp at hh
      · exact hjoin _ _ (fun g hg => ⟨(htop g hg).1, (htop g hg).2.1⟩) hsoa2 htopP

/-- The records of all files. -/
def allRecords (h : Host) (files : List (Name × List ZoneLine)) : List Given := files.flatMap fun f => fileRecords h f.1 f.2

theorem files_loadable : ∀ {files : List (Name × List ZoneLine)}, (∀ f ∈ files, FileOk h f) → (files.map Prod.fst).Nodup →
    Loadable (allRecords h files)
  | [], _, _ => ⟨fun g hg => (by cases hg), List.Pairwise.nil⟩
  | f :: files, hf, hd => by
    rw [List.map_cons, List.nodup_cons] at hd
    obtain ⟨h1, h2⟩ := file_loadable (hf f (List.mem_cons_self ..))
    have h3 := files_loadable (fun x hx => hf x (List.mem_cons_of_mem _ hx)) hd.2
    unfold allRecords
    rw [List.flatMap_cons]
    refine ⟨fun g hg => ?_, List.pairwise_append.2 ⟨h1.nsFirst, h3.nsFirst, ?_⟩⟩
    · rcases List.mem_append.1 hg with hg | hg
      · exact h1.fit g hg
      · exact h3.fit g hg
    · intro x hx g hg hh
      obtain ⟨f', hf', hg'⟩ := List.mem_flatMap.1 hg
      have e1 := h2 x hx
      have e2 := (file_loadable (hf f' (List.mem_cons_of_mem _ hf'))).2 g hg'
      exfalso
      apply hd.1
      rw [List.mem_map]
      exact ⟨f', hf', by rw [← e2, ← hh.2.2.2, e1]⟩

theorem giveRrs_eq : ∀ (gs : List Given) (s : Store), (∀ g ∈ gs, g.zone = zone) → giveRrs (envOf h zone) (gs.map outRr) s = Big.load gs s
  | [], s, _ => rfl
  | g :: gs, s, hz => by
    have hg := hz g (List.mem_cons_self ..)
    have h1 : giveRr (envOf h zone) s (outRr g) = Big.give s g := by
      unfold giveRr Big.give
      rw [hg]
      rfl
    rw [List.map_cons, giveRrs, Big.load, h1]
    cases Big.give s g with
    | ok s' => exact giveRrs_eq gs s' fun x hx => hz x (List.mem_cons_of_mem _ hx)
    | err => rfl
    | ub => rfl

/-- The files as the server sees them. -/
def asRead (h : Host) (files : List (Name × List ZoneLine)) : List (Env × List Rr) := files.map fun f => (envOf h f.1, f.2.map toRr)

theorem readAll_eq : ∀ (files : List (Name × List ZoneLine)) (s : Store), (∀ f ∈ files, FileOk h f) →
    readAll (asRead h files) s = Big.load (allRecords h files) s
  | [], s, _ => rfl
  | f :: files, s, hf => by
    have h1 := hf f (List.mem_cons_self ..)
    unfold asRead allRecords
    rw [List.map_cons, List.flatMap_cons, readAll, read_exact h1.zone f.2 h1.entry, Res.ok_bind, Big.load_append,
      giveRrs_eq _ s (file_loadable h1).2]
    cases Big.load (fileRecords h f.1 f.2) s with
    | ok s' => exact readAll_eq files s' fun x hx => hf x (List.mem_cons_of_mem _ hx)
    | err => rfl
    | ub => rfl

theorem boot_eq (files : List (Name × List ZoneLine)) (s : Store) (hf : ∀ f ∈ files, FileOk h f) (h0 : 0 ∉ h.ips) :
    boot (asRead h files) s = Big.load (allRecords h files) s := by
  unfold boot
  rw [if_neg, readAll_eq files s hf]
  rw [List.any_eq_true]
  rintro ⟨x, hx, h1⟩
  obtain ⟨f, _, rfl⟩ := List.mem_map.1 hx
  exact h0 (List.contains_iff_mem.1 h1)

/-- **C69.** From the zone files to the replies: the reply to every ordinary question is what the
specification of replies says for the records which the specification of zone files says. -/
theorem zones_served {files : List (Name × List ZoneLine)} (hf : ∀ f ∈ files, FileOk h f) (hd : (files.map Prod.fst).Nodup)
    (h0 : 0 ∉ h.ips) : ∃ s, boot (asRead h files) Big.empty = .ok s ∧
      ∀ (cfg : Lookup.Cfg) (raw : Js) (q : Name) (t : Nat), Lookup.Usual cfg → Lookup.Asks cfg raw q t → Lookup.Plain cfg q t →
        Lookup.procQuery cfg (Big.view s) raw = .ok (Lookup.sent q ((toZone (allRecords h files)).reply (lowName q) t)) := by
  rw [boot_eq files _ hf h0]
  exact Big.served_exact (files_loadable hf hd)

theorem mem_records {e : ZoneLine} : ∀ {es : List ZoneLine}, e ∈ es → e.type ≠ 6 → e.own zone = false → ∀ g ∈ e.stands zone, g ∈ fileRecords h zone es
  | [], he, _, _, _, _ => by cases he
  | a :: l, he, h6, ho, g, hg => by
    unfold fileRecords
    simp only
    generalize hr : List.filter (fun e => decide (e.type ≠ 6)) (if a.type = 6 then l else a :: l) = rest
    have h1 : e ∈ rest := by
      rw [← hr, List.mem_filter]
      refine ⟨?_, by simpa using h6⟩
      split
      · rcases List.mem_cons.1 he with rfl | he
        · exact absurd (by assumption) h6
        · exact he
      · exact he
    have h2 : e ∈ (rest.dropWhile (ZoneLine.own zone)).filter fun e => !e.own zone := by
      rw [List.mem_filter]
      refine ⟨?_, by rw [ho]; rfl⟩
      rw [← List.takeWhile_append_dropWhile (p := ZoneLine.own zone) (l := rest)] at h1
      rcases List.mem_append.1 h1 with h1 | h1
      · rw [(mem_takeWhile h1).2] at ho
        cases ho
      · exact h1
    rw [if_neg]
    · exact List.mem_append_right _ (List.mem_flatMap.2 ⟨e, h2, hg⟩)
    · intro hc
      rw [List.isEmpty_iff] at hc
      rw [hc] at h2
      cases h2

/-- **C69.** A record in a zone file reaches the clients: for a record of the name of the zone or of a name
directly below it (other than SOA records, delegations, and name servers of the zone), the reply to a
question for the name and type has the record, and everything in the reply is in the files or made up for a zone without SOA or name servers. -/
theorem entry_served {files : List (Name × List ZoneLine)} (hf : ∀ f ∈ files, FileOk h f) (hd : (files.map Prod.fst).Nodup)
    (h0 : 0 ∉ h.ips) {zone : Name} {es : List ZoneLine} (hfile : (zone, es) ∈ files) {e : ZoneLine} (he : e ∈ es) (hs : e.star = false)
    (ht : e.type ≠ 6 ∧ e.type ≠ 2 ∧ e.type ≤ 65535) (hn : lowName e.name = zone ∨ (e.name ≠ [] ∧ lowName e.name.tail = zone)) :
    ∃ s, boot (asRead h files) Big.empty = .ok s ∧
      ∀ (cfg : Lookup.Cfg) (raw : Js) (q : Name), Lookup.Usual cfg → Lookup.Asks cfg raw q e.type → Lookup.Plain cfg q e.type →
        lowName q = lowName e.name → ∃ rs, Lookup.procQuery cfg (Big.view s) raw = .ok (.success rs true) ∧
          (e.type, e.data, ttlOf e.ttl) ∈ rs ∧ ∀ x ∈ rs, ∃ g ∈ allRecords h files, x = (g.type, g.data, g.ttl) := by
  have hstand : e.stands zone = [e.given zone] := stands_plain (by omega)
  have hown : e.own zone = false := by
    unfold ZoneLine.own
    rw [decide_eq_false_iff_not]
    exact fun hc => ht.2.1 hc.2.2
  have hg : e.given zone ∈ allRecords h files :=
    List.mem_flatMap.2 ⟨_, hfile, mem_records he ht.1 hown _ (by rw [hstand]; exact List.mem_singleton_self _)⟩
  have hdec : (e.given zone).decided = true := by
    unfold Given.decided
    rw [if_neg (by rw [ZoneLine.given, hs]; simp), decide_eq_true_iff]
    rcases hn with hn | ⟨hn1, hn2⟩
    · exact .inl hn
    · refine .inr ⟨ht.2.1, ?_, ?_⟩
      · show lowName e.name ≠ []
        unfold lowName
        simpa using hn1
      · show (lowName e.name).tail = zone
        rw [← hn2]
        unfold lowName
        rw [List.map_tail]
  obtain ⟨s, h1, h2⟩ := Big.record_served (files_loadable hf hd) hg hs hdec
  refine ⟨s, by rw [boot_eq files _ hf h0]; exact h1, fun cfg raw q hu ha hp hq => ?_⟩
  obtain ⟨rs, h3, h4, h5⟩ := h2 cfg raw q hu ha hp hq
  refine ⟨rs, h3, h4, fun x hx => ?_⟩
  obtain ⟨g, h6, h7, _⟩ := h5 x hx
  exact ⟨g, h6, h7⟩

/-- The files of `c.` (without SOA and name servers, with an FQDN4 record and a delegation) and of `d.c.` -/
def exFiles : List (Name × List ZoneLine) :=
  [([[99]], [⟨false, [[65], [99]], 65765, 3600, [10, 0, 0, 1]⟩, ⟨true, [[99]], 16, 3600, [2, 104, 105]⟩, ⟨false, [[100], [99]], 2, 3600, [1, 120, 0]⟩,
    ⟨false, [[99]], 2, 3600, [1, 120, 0]⟩]),
   ([[100], [99]], [⟨false, [[100], [99]], 6, 5, [8, 8]⟩, ⟨false, [[100], [99]], 2, 5, [1, 110, 0]⟩, ⟨false, [[100], [99]], 1, 5, [10, 0, 0, 9]⟩])]

def exHost : Host := ⟨[2130706433, 167772161], 1, none⟩

theorem exFiles_ok : ∀ f ∈ exFiles, FileOk exHost f := by
  intro f hf
  simp only [exFiles, List.mem_cons, List.not_mem_nil, or_false] at hf
  rcases hf with rfl | rfl
  · refine ⟨⟨by unfold LabelsOk; decide, by decide, by decide, by decide, (by intro o ho; cases ho), by decide⟩, by decide, ?_, ?_⟩
    · intro e he
      simp only [List.mem_cons, List.not_mem_nil, or_false] at he
      rcases he with rfl | rfl | rfl | rfl <;> exact ⟨by unfold LabelsOk; decide, by decide, by decide⟩
    · intro e he
      simp only [List.mem_cons, List.not_mem_nil, or_false] at he
      rcases he with rfl | rfl | rfl | rfl <;> exact ⟨by decide, by decide, by decide⟩
  · refine ⟨⟨by unfold LabelsOk; decide, by decide, by decide, by decide, (by intro o ho; cases ho), by decide⟩, by decide, ?_, ?_⟩
    · intro e he
      simp only [List.mem_cons, List.not_mem_nil, or_false] at he
      rcases he with rfl | rfl | rfl <;> exact ⟨by unfold LabelsOk; decide, by decide, by decide⟩
    · intro e he
      simp only [List.mem_cons, List.not_mem_nil, or_false] at he
      rcases he with rfl | rfl | rfl <;> exact ⟨by decide, by decide, by decide⟩

-- a name server is made up for the address 10.0.0.1 and not for 127.0.0.1; the late name server is left out
example : (fileRecords exHost [[99]] (exFiles.head!).2).map (fun g => (g.name, g.type)) =
    [([[99]], 2), ([ascii "synth-ip-0a000001", [99]], 1), ([[99]], 6), ([[49], [48], [48], ascii "10", ascii "in-addr", ascii "arpa"], 12),
     ([[97], [99]], 1), ([[99]], 16), ([[100], [99]], 2)] := by decide +kernel

example : ∃ s, boot (asRead exHost exFiles) Big.empty = .ok s ∧ Lookup.procQuery {} (Big.view s) (Lookup.exQuery [[97], [67]] 1 1) =
    .ok (.success [(1, [10, 0, 0, 1], 3600), (2, encName [ascii "synth-ip-0a000001", [99]], 86400)] true) := by
  obtain ⟨s, h1, h2⟩ := zones_served exFiles_ok (by decide) (by decide)
  refine ⟨s, h1, (h2 {} _ [[97], [67]] 1 Lookup.exUsual
    (Lookup.exAsks (by unfold LabelsOk; decide) (by decide) (by decide) (by decide)) (Lookup.exPlain (by decide +kernel))).trans ?_⟩
  decide +kernel

example : ∃ s, boot (asRead exHost exFiles) Big.empty = .ok s ∧ ∃ rs, Lookup.procQuery {} (Big.view s) (Lookup.exQuery [[68], [67]] 1 1) =
    .ok (.success rs true) ∧ (1, [10, 0, 0, 9], 60) ∈ rs := by
  obtain ⟨s, h1, h2⟩ := entry_served exFiles_ok (by decide) (by decide) (zone := [[100], [99]])
    (es := [⟨false, [[100], [99]], 6, 5, [8, 8]⟩, ⟨false, [[100], [99]], 2, 5, [1, 110, 0]⟩, ⟨false, [[100], [99]], 1, 5, [10, 0, 0, 9]⟩])
    (by simp [exFiles]) (e := ⟨false, [[100], [99]], 1, 5, [10, 0, 0, 9]⟩) (by simp) rfl (by decide) (.inl (by decide))
  obtain ⟨rs, h3, h4, _⟩ := h2 {} (Lookup.exQuery [[68], [67]] 1 1) [[68], [67]] Lookup.exUsual
    (Lookup.exAsks (by unfold LabelsOk; decide) (by decide) (by decide) (by decide)) (Lookup.exPlain (by decide +kernel)) (by decide)
  exact ⟨s, h1, rs, h3, h4⟩

/-- **C69.** With a zone file, the server does not start if it would have to make up name servers for 0.0.0.0. -/
theorem bound_to_any_refused (h0 : 0 ∈ h.ips) {files : List (Name × List ZoneLine)} (hf : files ≠ []) (s : Store) :
    boot (asRead h files) s = .err := by
  obtain ⟨f, l, rfl⟩ := List.exists_cons_of_ne_nil hf
  unfold boot
  rw [if_pos]
  exact List.any_eq_true.2 ⟨_, List.mem_cons_self .., List.contains_iff_mem.2 h0⟩

example : boot (asRead ⟨[167772161, 0], 1, none⟩ exFiles) Big.empty = .err := bound_to_any_refused (by decide) (by decide) _

/-- The file of `d.c.`, with the name server under the name `D.c.` -/
def exCapital : List (Name × List ZoneLine) :=
  [([[100], [99]], [⟨false, [[100], [99]], 6, 60, [8, 8]⟩, ⟨false, [[68], [99]], 2, 60, [1, 110, 0]⟩])]

def exCapitalReply : Option (Lookup.Out (List (Nat × List UInt8 × Nat))) :=
  match boot (asRead exHost exCapital) Big.empty with
  | .ok s =>
    match Lookup.procQuery {} (Big.view s) (Lookup.exQuery [[100], [99]] 2 1) with
    | .ok r => some r
    | _ => none
  | _ => none

/-- **C69, against the code.** Capitals in the name of a name server record at the top of a file matter
(the condition `written` of `ZoneLineOk` cannot be left out): the record is not taken as a name server of the
zone, and the client gets a name server that has been made up next to the one in the file. -/
theorem capital_ns_made_up : (fileRecords exHost [[100], [99]] (exCapital.head!).2).map (fun g => (g.type, g.data)) = [(2, [1, 110, 0]), (6, [8, 8])] ∧
    ∃ s, boot (asRead exHost exCapital) Big.empty = .ok s ∧
      Lookup.procQuery {} (Big.view s) (Lookup.exQuery [[100], [99]] 2 1) =
        .ok (.success [(2, encName [ascii "synth-ip-0a000001", [100], [99]], 86400), (2, [1, 110, 0], 60)] true) := by
  refine ⟨by decide +kernel, ?_⟩
  have h : exCapitalReply = some (.success [(2, encName [ascii "synth-ip-0a000001", [100], [99]], 86400), (2, [1, 110, 0], 60)] true) := by
    decide +kernel
  unfold exCapitalReply at h
  split at h
  · rename_i s hs
    refine ⟨s, hs, ?_⟩
    split at h
    · rename_i r hr
      exact hr.trans (congrArg Res.ok (Option.some.inj h))
    · exact absurd h (by simp)
  · exact absurd h (by simp)

end Zf
end Mara
