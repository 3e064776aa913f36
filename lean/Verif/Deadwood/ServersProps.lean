import Verif.Deadwood.ServersLemmas
import Verif.Deadwood.DissectList
import Verif.Deadwood.AnyLemmas
/-!
# C124: the servers written in the configuration are those asked
-/

namespace Dw
namespace Conf
open DwStr Spec Acl Ns

/-- The zone a line is for: the root when none is given, otherwise the name given. -/
def ForZone (bailiwick : Option DwStr) (zone : List UInt8) : Prop :=
  (bailiwick = none ∧ zone = [0]) ∨
  ∃ b ls, bailiwick = some b ∧ Usable b ∧ Readable ls ∧ b.contents = encName ls ∧ zone = encName ls

theorem init_made {bailiwick : Option DwStr} {zone : List UInt8} (h : ForZone bailiwick zone) (junk : List UInt8) :
    ∃ out m, convertInit bailiwick junk = .ok out ∧ Made out m zone ∧ zone.length + 255 ≤ m ∧ m ≤ 1000 ∧ zone.length ≤ 255 := by
  rcases h with ⟨rfl, rfl⟩ | ⟨b, ls, rfl, hu, hr, hc, rfl⟩
  · obtain ⟨o, e, ho, hoc, hom⟩ := create_usable 256 junk (by omega) (by omega)
    obtain ⟨s', e', h'⟩ := put8 (s := o) (m := 256) (c := []) ⟨ho, hom, hoc⟩ 0 (by omega) (by simp)
    exact ⟨s', 256, by simp only [convertInit, e, Res.ok_bind, e'], h', by simp, by omega, by simp⟩
  · have hz := hr.1.2
    have hg := Alias.getDname_in (raw := b.buf) (offset := 0) (size := 260) hr (rest := b.buf.drop b.len)
      (by rw [List.drop_zero, ← hc]; exact Dissect.buf_contents hu) (by omega) (by omega)
    obtain ⟨n1, n2, n3⟩ := Alias.nameOf_ok (size := 260) (by omega) hz junk
    obtain ⟨c, e, hc1, hc2, hc3⟩ := substr_in n1 0 (encName ls).length 256 junk (by rw [n2]; omega) (by omega)
    have hnl : (Alias.nameOf 260 (encName ls) junk).len = (encName ls).length := rfl
    refine ⟨c, (encName ls).length + 257, ?_, ⟨hc1, by omega, by rw [hc3, n2]; simp⟩, by omega, by omega, hz⟩
    simp only [convertInit, hg, Res.ok_bind]
    rw [if_neg (by omega)]
    have hs := substr_minus1 (s := Alias.nameOf 260 (encName ls) junk) (b := 0) (by omega) 256 junk
    rw [show ((0 : Nat) : Int) = 0 from rfl] at hs
    rw [hs, hnl]
    exact e

/-- **C124 in general.** What is kept for a line that ends in the addresses `items`, when these are thirty, or nothing
comes before them, or what comes before them is not an address: exactly these addresses, the last one first. -/
theorem line_exact {t : AddrText} (ht : t.Ok) {line : DwStr} (hl : Usable line) (hlen : line.contents.length < 100000000)
    {bailiwick : Option DwStr} {zone : List UInt8} (hz : ForZone bailiwick zone) (olds : List (List UInt8))
    (items : List (Item t)) (hc : line.contents = lineText (olds ++ items.map Item.raw)) (h30 : items.length ≤ 30)
    (hend : items.length = 30 ∨ Ends t olds) (hfit : listSize (items.map (·.addr)) ≤ 254) (up : Bool) (junk : List UInt8) :
    ∃ v, nsConvert t line up bailiwick junk = .ok v ∧ Usable v ∧
      v.contents = serverList zone (items.map (·.addr)).reverse (kindOf up) := by
  obtain ⟨mangle, e0, hm, -, hmc⟩ := copy_exact hl junk
  obtain ⟨out, m, e1, h1, hroom, hmax, hzl⟩ := init_made hz junk
  have hes : ((items.reverse.map fun i => addrEntry i.addr).flatten).length = (((items.map (·.addr)).map addrEntry).flatten).length := by
    rw [List.map_map, List.map_reverse, List.length_flatten, List.length_flatten, List.map_reverse, List.sum_reverse]
    rfl
  have hfit' : ((items.reverse.map fun i => addrEntry i.addr).flatten).length + 2 * items.length + 2 ≤ 254 := by
    rw [hes]; simpa [listSize] using hfit
  obtain ⟨out2, e2, h2⟩ := addLoop_made ht junk hmax (olds := olds) 30 items.reverse mangle out zone [] hm (by rw [hmc]; omega)
    (by rw [hmc, hc]; simp) (by simpa using h30) (by simpa using hend) h1 (by omega)
  rw [List.nil_append] at e2
  have hpl := Dissect.place_length (items.reverse.map fun i => addrEntry i.addr) zone.length
  rw [List.length_map, List.length_reverse] at hpl
  obtain ⟨out3, e3, h3⟩ := putOffsets_made hmax (place zone.length (items.reverse.map fun i => addrEntry i.addr)) h2
    (by rw [List.length_append, hpl]; omega)
  have hl3 : (zone ++ (items.reverse.map fun i => addrEntry i.addr).flatten ++
      (place zone.length (items.reverse.map fun i => addrEntry i.addr)).flatMap be16).length =
      zone.length + ((items.reverse.map fun i => addrEntry i.addr).flatten).length + 2 * items.length := by
    rw [List.length_append, List.length_append, Dissect.flatMap_be16_length, hpl]
  obtain ⟨out4, e4, h4⟩ := put8 h3 items.length hmax (by rw [hl3]; omega)
  obtain ⟨out5, e5, h5⟩ := put8 h4 (if up then 22 else 16) hmax (by rw [List.length_append, hl3, List.length_singleton]; omega)
  refine ⟨out5, ?_, h5.usable, ?_⟩
  · simp only [nsConvert, e0, Res.ok_bind, convertMangle, e1, e2, e3, hpl, e4, e5]
  · rw [h5.contents]
    have hk : UInt8.ofNat (if up then 22 else 16) = kindOf up := by cases up <;> rfl
    have hmm : (items.map (·.addr)).reverse.map addrEntry = items.reverse.map fun i => addrEntry i.addr := by
      rw [← List.map_reverse, List.map_map]; rfl
    simp only [serverList, hmm, hk, List.length_reverse, List.length_map, List.append_assoc, List.cons_append, List.nil_append]

/-- **C124 (partial).** A line of up to thirty addresses, with blanks around them and commas between them, is kept as the
list of exactly these addresses for the zone of the line.  (Partial: a line with more addresses, or with something that
is not an address among them, loses addresses without a word: see `last_thirty` and `bad_item_hides`.) -/
theorem servers_exact_partial {t : AddrText} (ht : t.Ok) {line : DwStr} (hl : Usable line)
    (hlen : line.contents.length < 100000000) {bailiwick : Option DwStr} {zone : List UInt8} (hz : ForZone bailiwick zone)
    (items : List (Item t)) (hc : line.contents = lineText (items.map Item.raw)) (h30 : items.length ≤ 30)
    (hfit : listSize (items.map (·.addr)) ≤ 254) (up : Bool) (junk : List UInt8) :
    ∃ v, nsConvert t line up bailiwick junk = .ok v ∧ Usable v ∧
      v.contents = serverList zone (items.map (·.addr)).reverse (kindOf up) :=
  line_exact ht hl hlen hz [] items (by simpa using hc) h30 (.inr (.inl rfl)) hfit up junk

theorem size_le {t : AddrText} (k : Nat) : ∀ (items : List (Item t)), (∀ i ∈ items, i.addr.length ≤ k) →
    (((items.map (·.addr)).map addrEntry).flatten).length ≤ (k + 1) * items.length
  | [], _ => by simp
  | i :: is, h => by
    have h1 := h i (by simp)
    have ih := size_le k is (fun j hj => h j (by simp [hj]))
    simp only [List.map_cons, List.flatten_cons, List.length_append, addrEntry, List.length_cons, Nat.mul_add] at ih ⊢
    omega

/-- Thirteen addresses of any kind always have room. -/
theorem thirteen_fit {t : AddrText} (ht : t.Ok) (items : List (Item t)) (h : items.length ≤ 13) :
    listSize (items.map (·.addr)) ≤ 254 := by
  have := size_le 16 items (fun i _ => by have := read_size ht i.reads; omega)
  simp only [listSize, List.length_map]
  omega

/-- Thirty IPv4 addresses always have room. -/
theorem thirty_fit {t : AddrText} (items : List (Item t)) (h : items.length ≤ 30) (h4 : ∀ i ∈ items, i.addr.length = 4) :
    listSize (items.map (·.addr)) ≤ 254 := by
  have := size_le 4 items (fun i hi => by have := h4 i hi; omega)
  simp only [listSize, List.length_map]
  omega

/-! ### Who is asked -/

theorem lists_kind {l : List UInt8} {S : List (Nat × Nat)} (L : Lists (l ++ [16]) S) (h : ∀ p ∈ S, p.1 < l.length)
    {k : UInt8} (hk : k = 16 ∨ k = 22) : Lists (l ++ [k]) S := by
  have hs := L.some
  have hr := L.room
  simp only [List.length_append, List.length_singleton] at hr
  have e : ∀ i, i < l.length → (l ++ [k])[i]? = (l ++ [16])[i]? := by
    intro i hi
    rw [List.getElem?_append_left hi, List.getElem?_append_left hi]
  refine ⟨hs, L.few, by simpa using hr, ?_, ?_, ?_, ?_, ?_⟩
  · simp only [List.length_append, List.length_singleton, Nat.add_sub_cancel]
    rw [List.getElem?_append_right (by omega)]
    simpa using hk
  · have := L.count
    simp only [List.length_append, List.length_singleton] at this ⊢
    rw [e _ (by omega)]
    exact this
  · intro a ha
    have := L.hi a ha
    simp only [List.length_append, List.length_singleton] at this ⊢
    rw [e _ (by omega)]
    exact this
  · intro a ha
    have := L.lo a ha
    simp only [List.length_append, List.length_singleton] at this ⊢
    rw [e _ (by omega)]
    exact this
  · intro p hp
    rw [e _ (h p hp)]
    exact L.type p hp

theorem entry_at (zone rest : List UInt8) (es : List (List UInt8)) (i : Nat) (h : i < es.length) :
    ∃ more, (zone ++ es.flatten ++ rest).drop (zone.length + (es.take i).flatten.length) = es[i] ++ more := by
  have h1 : es.flatten = (es.take i).flatten ++ (es[i] ++ (es.drop (i + 1)).flatten) := by
    rw [← List.flatten_cons, ← List.drop_eq_getElem_cons h, ← List.flatten_append, List.take_append_drop]
  refine ⟨(es.drop (i + 1)).flatten ++ rest, ?_⟩
  conv => lhs; arg 2; rw [h1]
  rw [← List.length_append, show zone ++ ((es.take i).flatten ++ (es[i] ++ (es.drop (i + 1)).flatten)) ++ rest =
    (zone ++ (es.take i).flatten) ++ (es[i] ++ ((es.drop (i + 1)).flatten ++ rest)) by simp, List.drop_left]

/-- **C124.** Whichever server was used last and whatever the random numbers, when the list made of a line is used as
often as the line has addresses, each address of the line is chosen exactly once: the choice with the number `a` points
to the `a`th address of the line. -/
theorem servers_asked {t : AddrText} (ht : t.Ok) {line : DwStr} (hl : Usable line)
    (hlen : line.contents.length < 100000000) {bailiwick : Option DwStr} {zone : List UInt8} (hz : ForZone bailiwick zone)
    (items : List (Item t)) (hne : items ≠ []) (hc : line.contents = lineText (items.map Item.raw)) (h30 : items.length ≤ 30)
    (hfit : listSize (items.map (·.addr)) ≤ 254) (up : Bool) (junk : List UInt8) (current : Option Nat) (rnd : Nat → List Nat) :
    ∃ v, nsConvert t line up bailiwick junk = .ok v ∧
      ∃ (order : List Nat) (spot : Nat → Nat), order.Perm (List.range items.length) ∧
        picks v rnd items.length current = order.map (fun a => .ok (a, spot a, if (items[a]?.map (·.addr.length)) = some 4 then 1 else 28)) ∧
        ∀ a (h : a < items.length), ∃ more, v.contents.drop (spot a + 1) = items[a].addr ++ more := by
  obtain ⟨v, e, hv, hvc⟩ := servers_exact_partial ht hl hlen hz items hc h30 hfit up junk
  refine ⟨v, e, ?_⟩
  obtain ⟨-, -, -, -, -, -, hzl⟩ := init_made hz junk
  let es := (items.map (·.addr)).reverse.map addrEntry
  have hel : es.length = items.length := by simp [es]
  have hflat : es.flatten.length ≤ 252 := by
    have h1 : es.flatten.length = (((items.map (·.addr)).map addrEntry).flatten).length := by
      show (((items.map (·.addr)).reverse.map addrEntry).flatten).length = _
      rw [List.map_reverse]
      simp [List.length_flatten]
    rw [h1]
    unfold listSize at hfit
    omega
  have hee : ∀ e ∈ es, e ≠ [] := by
    intro e he
    obtain ⟨a, -, rfl⟩ := List.mem_map.1 he
    simp [addrEntry]
  have L0 := Dissect.referral_lists (zone := zone) (es := es) (by
    intro h; rw [h] at hel; exact hne (List.length_eq_zero_iff.1 hel.symm)) (by omega) hee (by omega)
  have hsl := Dissect.serversOf_length zone.length es
  have hsg := Dissect.serversOf_get zone.length es
  have heq : referral zone es = (zone ++ es.flatten ++ (place zone.length es).flatMap be16 ++ [UInt8.ofNat es.length]) ++ [16] := by
    simp [referral]
  have hveq : v.contents = (zone ++ es.flatten ++ (place zone.length es).flatMap be16 ++ [UInt8.ofNat es.length]) ++ [kindOf up] := by
    rw [hvc]; simp [serverList, es]
  rw [heq] at L0
  have L := lists_kind (k := kindOf up) L0 (by
    intro p hp
    obtain ⟨a, ha, rfl⟩ := List.getElem_of_mem hp
    have hg := hsg a (by omega)
    rw [List.getElem?_eq_getElem ha] at hg
    rw [Option.some.inj hg]
    have := Dissect.take_flatten_le es (es.length - 1 - a)
    simp only [List.length_append, List.length_singleton]
    omega) (by cases up <;> simp [kindOf])
  rw [← hveq] at L
  obtain ⟨order, hp, hpick⟩ := every_server_tried hv L current rnd
  rw [hsl, hel] at hp hpick
  have hgetr : ∀ a (h : a < items.length) (h' : es.length - 1 - a < es.length), es[es.length - 1 - a] = addrEntry items[a].addr := by
    intro a h h'
    simp only [es, List.getElem_map, List.getElem_reverse]
    congr 2
    simp only [List.length_map, List.length_reverse]
    congr 1
    omega
  refine ⟨order, fun a => zone.length + (es.take (es.length - 1 - a)).flatten.length, hp, ?_, ?_⟩
  · rw [hpick]
    apply List.map_congr_left
    intro a ha
    have ha' : a < items.length := List.mem_range.1 (hp.mem_iff.1 ha)
    rw [hsg a (by omega), hgetr a ha' (by omega), List.getElem?_eq_getElem ha']
    simp only [Option.getD_some, addrEntry, List.headD_cons, Option.map_some, Option.some.injEq]
    split <;> rfl
  · intro a ha
    obtain ⟨more, hm⟩ := entry_at zone ((place zone.length es).flatMap be16 ++ [UInt8.ofNat es.length] ++ [kindOf up]) es
      (es.length - 1 - a) (by omega)
    refine ⟨more, ?_⟩
    have : v.contents = zone ++ es.flatten ++ ((place zone.length es).flatMap be16 ++ [UInt8.ofNat es.length] ++ [kindOf up]) := by
      rw [hveq]; simp
    rw [this, ← List.drop_drop, hm, hgetr a ha (by omega)]
    rfl

/-! ### Lines that lose servers -/

/-- As the code has it: of a line with more than thirty addresses only the last thirty are kept, and Deadwood starts. -/
theorem last_thirty {t : AddrText} (ht : t.Ok) {line : DwStr} (hl : Usable line) (hlen : line.contents.length < 100000000)
    {bailiwick : Option DwStr} {zone : List UInt8} (hz : ForZone bailiwick zone) (front : List (List UInt8))
    (items : List (Item t)) (hc : line.contents = lineText (front ++ items.map Item.raw)) (h30 : items.length = 30)
    (hfit : listSize (items.map (·.addr)) ≤ 254) (up : Bool) (junk : List UInt8) :
    ∃ v, nsConvert t line up bailiwick junk = .ok v ∧ accepted (.ok v) = true ∧
      v.contents = serverList zone (items.map (·.addr)).reverse (kindOf up) := by
  obtain ⟨v, e, hv, hvc⟩ := line_exact ht hl hlen hz front items hc (by omega) (.inl h30) hfit up junk
  refine ⟨v, e, ?_, hvc⟩
  have hcl := hv.clen
  rw [hvc] at hcl
  simp only [serverList, List.length_append, Dissect.flatMap_be16_length, Dissect.place_length, List.length_map, List.length_reverse,
    h30] at hcl
  simp only [accepted, decide_eq_true_eq]
  omega

/-- As the code has it: an item that is not an address hides all addresses before it, and Deadwood starts when an
address comes after it. -/
theorem bad_item_hides {t : AddrText} (ht : t.Ok) {line : DwStr} (hl : Usable line) (hlen : line.contents.length < 100000000)
    {bailiwick : Option DwStr} {zone : List UInt8} (hz : ForZone bailiwick zone) (front : List (List UInt8)) {bad : List UInt8}
    (hb : Bad t bad) (items : List (Item t)) (hne : items ≠ []) (hc : line.contents = lineText (front ++ [bad] ++ items.map Item.raw))
    (h30 : items.length ≤ 30) (hfit : listSize (items.map (·.addr)) ≤ 254) (up : Bool) (junk : List UInt8) :
    ∃ v, nsConvert t line up bailiwick junk = .ok v ∧ accepted (.ok v) = true ∧
      v.contents = serverList zone (items.map (·.addr)).reverse (kindOf up) := by
  obtain ⟨v, e, hv, hvc⟩ := line_exact ht hl hlen hz (front ++ [bad]) items hc h30 (.inr (.inr ⟨front, bad, rfl, hb⟩)) hfit up junk
  refine ⟨v, e, ?_, hvc⟩
  have hcl := hv.clen
  have hpos : 0 < items.length := List.length_pos_iff.2 hne
  rw [hvc] at hcl
  have hzp : 0 < zone.length := by
    rcases hz with ⟨-, rfl⟩ | ⟨b, ls, -, -, -, -, rfl⟩
    · simp
    · simp [encName]
  simp only [serverList, List.length_append, Dissect.flatMap_be16_length, Dissect.place_length, List.length_map, List.length_reverse,
    List.length_cons, List.length_nil] at hcl
  simp only [accepted, decide_eq_true_eq]
  omega

/-- As the code has it: a line without any address is refused for the root, and taken for every other zone. -/
theorem no_servers {t : AddrText} (ht : t.Ok) {line : DwStr} (hl : Usable line) (hc : line.contents = [])
    {bailiwick : Option DwStr} {zone : List UInt8} (hz : ForZone bailiwick zone) (up : Bool) (junk : List UInt8) :
    ∃ v, nsConvert t line up bailiwick junk = .ok v ∧ v.contents = zone ++ [0, kindOf up] ∧
      (accepted (.ok v) = true ↔ 1 < zone.length) := by
  obtain ⟨v, e, hv, hvc⟩ := servers_exact_partial ht hl (by rw [hc]; simp) hz [] (by rw [hc]; simp [lineText, List.intercalate]) (by simp)
    (by simp [listSize]) up junk
  have hvc' : v.contents = zone ++ [0, kindOf up] := by rw [hvc]; simp [serverList, place]
  refine ⟨v, e, hvc', ?_⟩
  have hcl := hv.clen
  rw [hvc'] at hcl
  simp only [List.length_append, List.length_cons, List.length_nil] at hcl
  simp only [accepted, decide_eq_true_eq]
  omega

/-! ### Examples -/

/-- `1.0.0.0` -/
def ex4 : Item exText := ⟨[], [49, 46, 48, 46, 48, 46, 48], [32], [1, 0, 0, 0], by simp [Blank], by simp [Blank], by decide, by decide +kernel⟩
/-- `::1` -/
def ex6 : Item exText := ⟨[32], [58, 58, 49], [], [0, 0, 0, 0, 0, 0, 0, 0, 0, 0, 0, 0, 0, 0, 0, 1], by simp [Blank], by simp [Blank], by decide, by decide +kernel⟩

/-- `1.0.0.0 , ::1` -/
def exLine : DwStr := ⟨13, 20, [49, 46, 48, 46, 48, 46, 48, 32, 44, 32, 58, 58, 49] ++ List.replicate 9 0⟩

example : Usable exLine ∧ exLine.contents = lineText ([ex4, ex6].map Item.raw) ∧ listSize ([ex4, ex6].map (·.addr)) ≤ 254 :=
  ⟨⟨rfl, by decide, by decide⟩, by decide +kernel, thirteen_fit exText_ok _ (by simp)⟩

/-- The zone `a.` -/
def exZone : DwStr := ⟨3, 20, [1, 97, 0] ++ List.replicate 19 0⟩

example : ForZone (some exZone) [1, 97, 0] :=
  .inr ⟨exZone, [[97]], rfl, ⟨rfl, by decide, by decide⟩,
    ⟨⟨by simp [LabelsOk], by decide⟩, by simp⟩, by decide, by decide⟩

example : (nsConvert exText exLine true (some exZone) []).bind (fun v => .ok v.contents) =
    .ok [1, 97, 0, 28, 0, 0, 0, 0, 0, 0, 0, 0, 0, 0, 0, 0, 0, 0, 0, 1, 1, 1, 0, 0, 0, 0, 3, 0, 20, 2, 22] := by decide +kernel

/-- `1.0.0.0,x,::1`: only `::1` is kept. -/
def exBad : DwStr := ⟨13, 20, [49, 46, 48, 46, 48, 46, 48, 44, 120, 44, 58, 58, 49] ++ List.replicate 9 0⟩

theorem ex_bad : Bad exText [120] where
  comma := by decide
  null := by decide
  wrong := by
    intro w l h hw _
    have hw0 : w = [] := by
      cases w with
      | nil => rfl
      | cons x w =>
        have hx : x = 120 := by
          have := congrArg List.head? h
          simpa using this.symm
        have := hw x (by simp)
        rw [hx] at this
        exact absurd this (by decide)
    subst hw0
    rw [List.nil_append] at h
    subst h
    decide +kernel

/-- So it is not true that each address of a line is kept or the line is refused. -/
theorem servers_not_all : ∃ v, nsConvert exText exBad false none [] = .ok v ∧ accepted (.ok v) = true ∧
    v.contents = serverList [0] [[0, 0, 0, 0, 0, 0, 0, 0, 0, 0, 0, 0, 0, 0, 0, 1]] 16 :=
  bad_item_hides exText_ok (line := exBad) ⟨rfl, by decide, by decide⟩ (by decide) (.inl ⟨rfl, rfl⟩) [[49, 46, 48, 46, 48, 46, 48]]
    ex_bad [⟨[], [58, 58, 49], [], _, by simp [Blank], by simp [Blank], by decide, rfl⟩] (by simp) (by decide +kernel) (by simp)
    (thirteen_fit exText_ok _ (by simp)) false []

end Conf
end Dw
