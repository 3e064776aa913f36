import Verif.Mara.LookupSound
/-!
# Which answer a question gets: properties (C61 to C64)
-/

namespace Mara
namespace Lookup

open Dw (Res)
open Spec

variable {ρ : Type}

/-! ## A server to try the theorems on -/

/-- A hash given by a table. -/
def ofTable (tbl : List (List UInt8 × Val ρ)) : Hash ρ := fun k => tbl.lookup k

/-- What a hash holds. -/
def zoneOf (h : Hash ρ) : Zone ρ where
  rr n t := rrOf (h (encName n ++ u16 t))
  exists? n := isList (h (encName n ++ u16 255))
  star n t := (rrOf (h (95 :: (encName n ++ u16 t)))).map (·.2)
  starExists n := isList (h (95 :: (encName n ++ u16 255)))

theorem mem_of_lookup {tbl : List (List UInt8 × Val ρ)} {k : List UInt8} {v : Val ρ} :
    tbl.lookup k = some v → (k, v) ∈ tbl := by
  induction tbl with
  | nil => intro h; cases h
  | cons p tbl ih =>
    obtain ⟨k', v'⟩ := p
    intro h
    rw [List.lookup_cons] at h
    by_cases hk : k = k'
    · subst hk
      simp at h
      subst h
      simp
    · have : (k == k') = false := by simpa using hk
      rw [this] at h
      exact List.mem_cons_of_mem _ (ih h)

theorem stores_ofTable {tbl : List (List UInt8 × Val ρ)}
    (h1 : ∀ p ∈ tbl, (rrOf (some p.2)).isSome = true → p.1.getLast? ≠ some 255)
    (h2 : ∀ p ∈ tbl, ∀ c ∈ p.1, Spec.lower c = c) : Stores (ofTable tbl) (zoneOf (ofTable tbl)) where
  rr _ _ _ _ := rfl
  star _ _ _ _ := rfl
  exists? _ _ := rfl
  starExists _ _ := rfl
  noAny n _ := by
    unfold zoneOf
    simp only
    cases hv : ofTable tbl (95 :: (encName n ++ u16 255)) with
    | none => rfl
    | some v =>
      cases v with
      | list => rfl
      | rr a r =>
        have := h1 _ (mem_of_lookup hv) rfl
        exact absurd (by simp [u16, List.getLast?_cons, List.getLast?_append]) this
  small n _ hn := by
    unfold zoneOf at hn
    simp only at hn
    cases hv : ofTable tbl (encName n ++ u16 255) with
    | none => rw [hv] at hn; cases hn
    | some v =>
      have hm := h2 _ (mem_of_lookup hv)
      unfold lowName
      conv => rhs; rw [← List.map_id n]
      apply List.map_congr_left
      intro l hl
      conv => rhs; rw [id, ← List.map_id l]
      apply List.map_congr_left
      intro c hc
      apply hm
      simp only [encName, encLabels, List.mem_append, List.mem_flatMap]
      exact Or.inl (Or.inl ⟨l, hl, by simp [hc]⟩)

/-- A server with the zone `c.` that has `a.c.`, a delegation of `d.c.` to `n.d.c.`, a TXT star record and, below
`b.c.`, a star CNAME. -/
def exTable : List (List UInt8 × Val Nat) :=
  [([1, 99, 0, 0, 2], .rr true 1), ([1, 99, 0, 0, 6], .rr true 2), ([1, 99, 0, 0, 255], .list),
   ([1, 110, 1, 100, 1, 99, 0, 0, 1], .rr false 7), ([1, 110, 1, 100, 1, 99, 0, 0, 255], .list),
   ([1, 97, 1, 99, 0, 0, 1], .rr true 3), ([1, 97, 1, 99, 0, 0, 255], .list),
   ([1, 100, 1, 99, 0, 0, 2], .rr false 4), ([1, 100, 1, 99, 0, 0, 255], .list),
   ([95, 1, 99, 0, 0, 16], .rr true 5), ([95, 1, 99, 0, 0, 255], .list),
   ([95, 1, 98, 1, 99, 0, 0, 5], .rr true 6), ([95, 1, 98, 1, 99, 0, 0, 255], .list)]

theorem ex_stores : Stores (ofTable exTable) (zoneOf (ofTable exTable)) :=
  stores_ofTable (by decide +kernel) (by decide +kernel)

/-- A query for the tests, with the identity 7. -/
def exHeader : Header :=
  { id := 7, qr := false, opcode := 0, aa := false, tc := false, rd := true, ra := false, z := false,
    ad := false, cd := false, rcode := 0, qdcount := 1, ancount := 0, nscount := 0, arcount := 0 }

/-- A query as a string, in a block of 512 bytes. -/
def exQuery (q : Name) (t c : Nat) : Js :=
  ⟨(queryBytes exHeader q t c []).length, 512, queryBytes exHeader q t c [] ++ List.replicate (515 - (queryBytes exHeader q t c []).length) 0⟩

/-! ## The decision -/

/-- The string is a question for the type `t` of the name `q`, in the class IN, of a kind that the server
looks up: not one for all records or for a zone transfer, not one of a type that is turned away. -/
structure Asks (cfg : Cfg) (raw : Js) (q : Name) (t : Nat) : Prop where
  live : Js.Ok raw
  bytes : ∃ hd rest, Ordinary hd ∧ raw.contents = queryBytes hd q t 1 rest
  labels : LabelsOk q
  name : q ≠ []
  fits : (encName q).length ≤ 253
  type : t < 65536
  kind : t < 250 ∨ 255 < t
  aaaa : t = 28 → cfg.rejectAaaa = false
  ptr : t = 12 → cfg.rejectPtr = false

/-- The question is not about the server itself and the name is not written like an address. -/
def Plain (cfg : Cfg) (q : Name) (t : Nat) : Prop :=
  (cfg.noFingerprint = true ∨ t ≠ 1 ∨ dottedQuad q = none) ∧ cfg.egg (encName q ++ u16 t) = none

theorem Asks.search {cfg : Cfg} {raw : Js} {q : Name} {t : Nat} (a : Asks cfg raw q t) (h : Hash ρ) :
    ∃ (id : Nat) (rd : Bool), procQuery cfg h raw = .ok (servFail cfg (Lookup.search cfg h id rd (key q t))) := by
  obtain ⟨hd, rest, ho, hc⟩ := a.bytes
  have hk := a.kind
  refine ⟨hd.id.val, hd.rd, ?_⟩
  rw [front a.live cfg h ho a.labels (by have := a.fits; omega) a.type hc, if_neg (by have := a.fits; omega), if_neg (by decide),
    if_neg (by rintro ⟨h1, h2⟩; rw [a.aaaa h1] at h2; cases h2), if_neg (by rintro ⟨h1, h2⟩; rw [a.ptr h1] at h2; cases h2),
    if_neg (by omega), if_neg (by omega)]

/-- **C61.** The reply to every ordinary question is the one of the specification, however the letters
of the name are written. -/
theorem answer_exact {h : Hash ρ} {z : Zone ρ} (s : Stores h z) {cfg : Cfg} (hu : Usual cfg)
    {raw : Js} {q : Name} {t : Nat} (ha : Asks cfg raw q t) (hp : Plain cfg q t) :
    procQuery cfg h raw = .ok (sent q (z.reply (lowName q) t)) := by
  obtain ⟨id, rd, e⟩ := ha.search h
  rw [e, search_spec s hu _ _ ⟨ha.labels, ha.fits⟩ ha.name ha.type (by have := ha.kind; omega) hp.1 (.inr hp.2)]
  congr 1
  cases z.reply (lowName q) t <;> rfl

theorem exAsks {q : Name} {t : Nat} (h1 : LabelsOk q) (h2 : q ≠ []) (h3 : (encName q).length ≤ 253) (h4 : t < 250) :
    Asks {} (exQuery q t 1) q t where
  live := by
    have : (queryBytes exHeader q t 1 []).length = 12 + (encName q).length + 4 := by
      simp [queryBytes, u16, enc_length]; omega
    refine ⟨?_, ?_, by simp [exQuery]⟩
    · simp only [exQuery, List.length_append, List.length_replicate]; omega
    · simp only [exQuery]; omega
  bytes := ⟨exHeader, [], ⟨rfl, rfl, rfl⟩, by simp [exQuery, Js.contents]⟩
  labels := h1
  name := h2
  fits := h3
  type := by omega
  kind := Or.inl h4
  aaaa _ := rfl
  ptr _ := rfl

theorem exUsual : Usual {} := ⟨⟨rfl, rfl, rfl⟩, Nat.zero_le _⟩

theorem exPlain {q : Name} {t : Nat} (h : t ≠ 1 ∨ dottedQuad q = none) : Plain {} q t := ⟨Or.inr h, rfl⟩

-- `A.c.`, with a capital letter: the record of `a.c.`
example : procQuery {} (ofTable exTable) (exQuery [[65], [99]] 1 1) = .ok (.success 3 true) :=
  (answer_exact ex_stores exUsual (exAsks (by unfold LabelsOk; decide) (by decide) (by decide) (by decide))
    (exPlain (by decide +kernel))).trans (by decide +kernel)

-- `x.y.d.c.` is delegated
example : procQuery {} (ofTable exTable) (exQuery [[120], [121], [100], [99]] 1 1) = .ok (.success 4 false) :=
  (answer_exact ex_stores exUsual (exAsks (by unfold LabelsOk; decide) (by decide) (by decide) (by decide))
    (exPlain (by decide +kernel))).trans (by decide +kernel)

-- `x.y.c.` has the TXT record of the star name
example : procQuery {} (ofTable exTable) (exQuery [[120], [121], [99]] 16 1) =
    .ok (.star 5 [1, 120, 1, 121, 1, 99, 0, 0, 16] 0) :=
  (answer_exact ex_stores exUsual (exAsks (by unfold LabelsOk; decide) (by decide) (by decide) (by decide))
    (exPlain (by decide +kernel))).trans (by decide +kernel)

-- `a.c.` is there and does not have it
example : procQuery {} (ofTable exTable) (exQuery [[97], [99]] 16 1) = .ok (.negative 2 0) :=
  (answer_exact ex_stores exUsual (exAsks (by unfold LabelsOk; decide) (by decide) (by decide) (by decide))
    (exPlain (by decide +kernel))).trans (by decide +kernel)

-- `z.` is not ours
example : procQuery {} (ofTable exTable) (exQuery [[122]] 1 1) = .ok (.error 5 false) :=
  (answer_exact ex_stores exUsual (exAsks (by unfold LabelsOk; decide) (by decide) (by decide) (by decide))
    (exPlain (by decide +kernel))).trans (by decide +kernel)

/-- **C61.** The letters may be written large or small: the replies are the same, but for the name
that is repeated in them. -/
theorem letter_case {h : Hash ρ} {z : Zone ρ} (s : Stores h z) {cfg : Cfg} (hu : Usual cfg)
    {q q' : Name} (hcase : lowName q = lowName q') {t : Nat}
    {raw raw' : Js} (ha : Asks cfg raw q t) (ha' : Asks cfg raw' q' t) (hp : Plain cfg q t) (hp' : Plain cfg q' t) :
    ∃ r : Reply ρ, procQuery cfg h raw = .ok (sent q r) ∧ procQuery cfg h raw' = .ok (sent q' r) := by
  refine ⟨z.reply (lowName q) t, answer_exact s hu ha hp, ?_⟩
  rw [hcase]
  exact answer_exact s hu ha' hp'

example : ∃ r : Reply Nat, procQuery {} (ofTable exTable) (exQuery [[120], [67]] 16 1) = .ok (sent [[120], [67]] r) ∧
    procQuery {} (ofTable exTable) (exQuery [[88], [99]] 16 1) = .ok (sent [[88], [99]] r) :=
  letter_case ex_stores exUsual (by decide)
    (exAsks (by unfold LabelsOk; decide) (by decide) (by decide) (by decide))
    (exAsks (by unfold LabelsOk; decide) (by decide) (by decide) (by decide))
    (exPlain (by decide)) (exPlain (by decide))

/-- **C62.** A client is told that a name does not exist exactly if there is nothing at the name and no star
name stands for it, and the server is the authority for the closest zone; the SOA record is the
one of this zone. -/
theorem nxdomain_iff {h : Hash ρ} {z : Zone ρ} (s : Stores h z) {cfg : Cfg} (hu : Usual cfg)
    {raw : Js} {q : Name} {t : Nat} (ha : Asks cfg raw q t) (hp : Plain cfg q t) (soa : ρ) :
    procQuery cfg h raw = .ok (.negative soa 3) ↔
      z.rr (lowName q) t = none ∧ z.rr (lowName q) 5 = none ∧ z.exists? (lowName q) = false ∧
      (∀ n ∈ upward (lowName q).tail, z.star n t = none ∧ z.starExists n = false) ∧ z.star (lowName q).tail 5 = none ∧
      ∃ apex r a, z.closestNs (lowName q) = some (apex, true, r) ∧ z.rr apex 6 = some (a, soa) := by
  rw [answer_exact s hu ha hp]
  generalize lowName q = n
  have hx : (Res.ok (sent q (z.reply n t)) = Res.ok (.negative soa 3)) ↔ z.reply n t = .nxDomain soa := by
    cases z.reply n t <;> simp [sent]
  rw [hx]
  have hw : z.wildcardFor n t = none ↔ (∀ m ∈ upward n.tail, z.star m t = none) ∧ z.star n.tail 5 = none := by
    unfold Zone.wildcardFor
    simp [Option.or_eq_none_iff, List.findSome?_eq_none_iff]
  have hcov : z.covered n = false ↔ ∀ m ∈ upward n.tail, z.starExists m = false := by
    unfold Zone.covered
    simp
  have hsplit : (∀ m ∈ upward n.tail, z.star m t = none ∧ z.starExists m = false) ↔
      (∀ m ∈ upward n.tail, z.star m t = none) ∧ ∀ m ∈ upward n.tail, z.starExists m = false :=
    ⟨fun h => ⟨fun m hm => (h m hm).1, fun m hm => (h m hm).2⟩, fun h m hm => ⟨h.1 m hm, h.2 m hm⟩⟩
  rw [hsplit, ← hcov]
  unfold Zone.reply
  cases h1 : z.rr n t with
  | some v => simp
  | none =>
    cases h2 : z.rr n 5 with
    | some v => simp
    | none =>
      simp only [Option.none_or, true_and]
      rcases h3 : z.closestNs n with _ | ⟨apex, a, r⟩
      · simp only
        cases he : z.exists? n <;> cases hw' : z.wildcardFor n t <;> simp
      · cases a with
        | false => simp
        | true =>
          simp only
          cases he : z.exists? n with
          | true =>
            simp only [if_true]
            rcases h6 : z.rr apex 6 with _ | ⟨a, r⟩ <;> simp
          | false =>
            simp only [Bool.false_eq_true, if_false, false_or]
            cases hw' : z.wildcardFor n t with
            | some v =>
              simp only
              constructor
              · intro h; cases h
              · rintro ⟨_, ⟨h7, _⟩, h8, _⟩
                rw [hw.2 ⟨h7, h8⟩] at hw'
                cases hw'
            | none =>
              have := hw.1 hw'
              simp only
              rcases h6 : z.rr apex 6 with _ | ⟨a6, r6⟩
              · constructor
                · intro h; cases h
                · rintro ⟨_, _, _, apex', r', a', he', h6'⟩
                  simp only [Option.some.injEq, Prod.mk.injEq] at he'
                  rw [← he'.1, h6] at h6'
                  cases h6'
              · simp only
                cases hc : z.covered n with
                | true => simp
                | false =>
                  simp only [Bool.false_eq_true, if_false, Reply.nxDomain.injEq, true_and]
                  constructor
                  · rintro rfl
                    exact ⟨⟨this.1, trivial⟩, this.2, apex, r, a6, rfl, h6⟩
                  · rintro ⟨_, _, apex', r', a', he', h6'⟩
                    simp only [Option.some.injEq, Prod.mk.injEq] at he'
                    rw [← he'.1, h6] at h6'
                    simp only [Option.some.injEq, Prod.mk.injEq] at h6'
                    exact h6'.2

-- `x.b.c.` is none of this; neither is `x.e.` in a server with the zone `e.` alone
example : procQuery {} (ofTable [([1, 101, 0, 0, 2], .rr true 1), ([1, 101, 0, 0, 6], .rr true 2), ([1, 101, 0, 0, 255], .list)])
    (exQuery [[120], [101]] 1 1) = .ok (.negative 2 3) :=
  (nxdomain_iff (stores_ofTable (by decide +kernel) (by decide +kernel)) exUsual
    (exAsks (by unfold LabelsOk; decide) (by decide) (by decide) (by decide)) (exPlain (by decide +kernel)) 2).2
    ⟨by decide +kernel, by decide +kernel, by decide +kernel, by decide +kernel, by decide +kernel,
      [[101]], 1, true, by decide +kernel, by decide +kernel⟩

/-- **C62.** A question is refused exactly if nothing is known for it: no record, no star record, and no name
servers at or above the name. -/
theorem refused_iff {h : Hash ρ} {z : Zone ρ} (s : Stores h z) {cfg : Cfg} (hu : Usual cfg)
    {raw : Js} {q : Name} {t : Nat} (ha : Asks cfg raw q t) (hp : Plain cfg q t) :
    procQuery cfg h raw = .ok (.error 5 false) ↔
      z.rr (lowName q) t = none ∧ z.rr (lowName q) 5 = none ∧
      (∀ n ∈ upward (lowName q), z.rr n 2 = none) ∧
      (z.exists? (lowName q) = true ∨
        (∀ n ∈ upward (lowName q).tail, z.star n t = none) ∧ z.star (lowName q).tail 5 = none) := by
  rw [answer_exact s hu ha hp]
  generalize lowName q = n
  have hx : (Res.ok (sent q (z.reply n t)) = Res.ok (.error 5 false)) ↔ z.reply n t = .refused := by
    cases z.reply n t <;> simp [sent]
  rw [hx]
  have hw : z.wildcardFor n t = none ↔ (∀ m ∈ upward n.tail, z.star m t = none) ∧ z.star n.tail 5 = none := by
    unfold Zone.wildcardFor
    simp [Option.or_eq_none_iff, List.findSome?_eq_none_iff]
  have hns : z.closestNs n = none ↔ ∀ m ∈ upward n, z.rr m 2 = none := by
    unfold Zone.closestNs
    simp [List.findSome?_eq_none_iff]
  rw [← hw, ← hns]
  unfold Zone.reply
  cases h1 : z.rr n t with
  | some v => simp
  | none =>
    cases h2 : z.rr n 5 with
    | some v => simp
    | none =>
      simp only [Option.none_or, true_and]
      rcases h3 : z.closestNs n with _ | ⟨apex, a, r⟩
      · simp only
        cases he : z.exists? n <;> cases hw' : z.wildcardFor n t <;> simp
      · cases a with
        | false => simp
        | true =>
          simp only
          cases he : z.exists? n <;> cases hw' : z.wildcardFor n t <;> rcases h6 : z.rr apex 6 with _ | ⟨a6, r6⟩ <;>
            cases hc : z.covered n <;> simp [h6]

example : procQuery {} (ofTable exTable) (exQuery [[122]] 1 1) = .ok (.error 5 false) :=
  (refused_iff ex_stores exUsual (exAsks (by unfold LabelsOk; decide) (by decide) (by decide) (by decide))
    (exPlain (by decide +kernel))).2 ⟨by decide +kernel, by decide +kernel, by decide +kernel, by decide +kernel⟩

/-- **C62.** A star record is sent only for names that do not exist, and then it is the closest one of the type
asked for or, if there is none, a CNAME directly above; the name in the reply is the one asked for. -/
theorem wildcard_iff {h : Hash ρ} {z : Zone ρ} (s : Stores h z) {cfg : Cfg} (hu : Usual cfg)
    {raw : Js} {q : Name} {t : Nat} (ha : Asks cfg raw q t) (hp : Plain cfg q t) (r : ρ) (shown : List UInt8) :
    procQuery cfg h raw = .ok (.star r shown 0) ↔
      z.rr (lowName q) t = none ∧ z.rr (lowName q) 5 = none ∧ z.exists? (lowName q) = false ∧
      (∀ apex v, z.closestNs (lowName q) ≠ some (apex, false, v)) ∧
      ((∃ below n above, upward (lowName q).tail = below ++ n :: above ∧ (∀ m ∈ below, z.star m t = none) ∧
          z.star n t = some r ∧ shown = encName q ++ u16 t) ∨
        (∀ m ∈ upward (lowName q).tail, z.star m t = none) ∧ z.star (lowName q).tail 5 = some r ∧
          shown = encName q ++ u16 5) := by
  rw [answer_exact s hu ha hp]
  generalize lowName q = n
  have hfind : ∀ (l : List Name) (r : ρ), (l.findSome? fun m => z.star m t) = some r ↔
      ∃ below n above, l = below ++ n :: above ∧ (∀ m ∈ below, z.star m t = none) ∧ z.star n t = some r := by
    intro l r
    rw [List.findSome?_eq_some_iff]
    constructor
    · rintro ⟨b, n, a, h1, h2, h3⟩; exact ⟨b, n, a, h1, h3, h2⟩
    · rintro ⟨b, n, a, h1, h2, h3⟩; exact ⟨b, n, a, h1, h3, h2⟩
  have hx : (Res.ok (sent q (z.reply n t)) = Res.ok (.star r shown 0)) ↔
      ∃ u, z.reply n t = .wildcard r u ∧ shown = encName q ++ u16 u := by
    cases z.reply n t <;> simp [sent]
    rename_i r' u'
    constructor
    · rintro ⟨rfl, rfl⟩; exact ⟨u', ⟨rfl, rfl⟩, rfl⟩
    · rintro ⟨_, ⟨rfl, rfl⟩, rfl⟩; exact ⟨rfl, rfl⟩
  rw [hx]
  have hw : (∃ u, z.wildcardFor n t = some (r, u) ∧ shown = encName q ++ u16 u) ↔
      ((∃ below m above, upward n.tail = below ++ m :: above ∧ (∀ m ∈ below, z.star m t = none) ∧
          z.star m t = some r ∧ shown = encName q ++ u16 t) ∨
        (∀ m ∈ upward n.tail, z.star m t = none) ∧ z.star n.tail 5 = some r ∧ shown = encName q ++ u16 5) := by
    unfold Zone.wildcardFor
    rw [findSome_pair]
    cases hf : (upward n.tail).findSome? fun m => z.star m t with
    | some r' =>
      obtain ⟨b, m, a, h1, h2, h3⟩ := (hfind _ _).1 hf
      simp only [Option.map_some, Option.some_or, Option.some.injEq, Prod.mk.injEq]
      constructor
      · rintro ⟨u, ⟨rfl, rfl⟩, hs⟩
        exact Or.inl ⟨b, m, a, h1, h2, h3, hs⟩
      · rintro (⟨b', m', a', h1', h2', h3', hs⟩ | ⟨hno, _⟩)
        · have := (hfind _ _).2 ⟨b', m', a', h1', h2', h3'⟩
          rw [hf] at this
          cases this
          exact ⟨t, ⟨rfl, rfl⟩, hs⟩
        · have := hno m (by rw [h1]; simp)
          rw [h3] at this
          cases this
    | none =>
      have hno := List.findSome?_eq_none_iff.1 hf
      simp only [Option.map_none, Option.none_or]
      constructor
      · rintro ⟨u, hu, hs⟩
        cases h5 : z.star n.tail 5 with
        | none => rw [h5] at hu; cases hu
        | some r' =>
          rw [h5] at hu
          simp only [Option.map_some, Option.some.injEq, Prod.mk.injEq] at hu
          obtain ⟨rfl, rfl⟩ := hu
          exact Or.inr ⟨hno, rfl, hs⟩
      · rintro (⟨b', m', a', h1', h2', h3', hs⟩ | ⟨_, h5, hs⟩)
        · have := hno m' (by rw [h1']; simp)
          rw [h3'] at this
          cases this
        · exact ⟨5, by rw [h5]; rfl, hs⟩
  rw [← hw]
  unfold Zone.reply
  cases h1 : z.rr n t with
  | some v => simp
  | none =>
    cases h2 : z.rr n 5 with
    | some v => simp
    | none =>
      simp only [Option.none_or, true_and]
      rcases h3 : z.closestNs n with _ | ⟨apex, a, r0⟩
      · cases he : z.exists? n <;> cases hw' : z.wildcardFor n t <;> simp
        · rename_i v
          obtain ⟨r1, u1⟩ := v
          simp
      · cases a with
        | false => simp
        | true =>
          cases he : z.exists? n <;> cases hw' : z.wildcardFor n t <;> simp
          · rcases h6 : z.rr apex 6 with _ | ⟨a6, r6⟩
            · simp
            · simp; split <;> simp
          · rename_i v
            obtain ⟨r1, u1⟩ := v
            simp
          · rcases h6 : z.rr apex 6 with _ | ⟨a6, r6⟩ <;> simp
          · rcases h6 : z.rr apex 6 with _ | ⟨a6, r6⟩ <;> simp

-- `x.b.c.`: the CNAME of `*.b.c.`
example : procQuery {} (ofTable exTable) (exQuery [[120], [98], [99]] 1 1) =
    .ok (.star 6 (encName [[120], [98], [99]] ++ u16 5) 0) :=
  (wildcard_iff ex_stores exUsual (exAsks (by unfold LabelsOk; decide) (by decide) (by decide) (by decide))
    (exPlain (by decide +kernel)) 6 _).2 ⟨by decide +kernel, by decide +kernel, by decide +kernel,
      by
        have : (zoneOf (ofTable exTable)).closestNs (lowName [[120], [98], [99]]) = some ([[99]], true, 1) := by decide +kernel
        intro a v; rw [this]; simp,
      Or.inr ⟨by decide +kernel, by decide +kernel, rfl⟩⟩

/-- **C63.** Whatever the settings for star handling and protection, with the default zone disabled: records
sent as an answer are those at the name, a referral has the closest name servers, star records are those
of a name above, an answer that there is nothing carries the SOA record of the closest zone, and the reply
for names written like an address has this address. -/
theorem reply_fair {h : Hash ρ} {z : Zone ρ} (s : Stores h z) {cfg : Cfg} (hz : cfg.defaultZone = false)
    {raw : Js} {q : Name} {t : Nat} (ha : Asks cfg raw q t) :
    ∃ o, procQuery cfg h raw = .ok o ∧ Fair z q t o := by
  obtain ⟨id, rd, e⟩ := ha.search h
  refine ⟨_, e, ?_⟩
  have := search_fair s hz id rd ⟨ha.labels, ha.fits⟩ ha.name ha.type (by have := ha.kind; omega)
  unfold servFail quiet
  split
  · split <;> trivial
  · exact this

example : ∃ o, procQuery {} (ofTable exTable) (exQuery [[120], [98], [99]] 1 1) = .ok o ∧
    Fair (zoneOf (ofTable exTable)) [[120], [98], [99]] 1 o :=
  reply_fair ex_stores rfl (exAsks (by unfold LabelsOk; decide) (by decide) (by decide) (by decide))

/-- **C63.** Records at the name are sent whatever the settings, unless the server does not look at its zones
at all (levels 78 and 79). -/
theorem record_sent {h : Hash ρ} {z : Zone ρ} (s : Stores h z) {cfg : Cfg} (hd : cfg.dos ≠ 78 ∧ cfg.dos ≠ 79)
    {raw : Js} {q : Name} {t : Nat} (ha : Asks cfg raw q t) {a : Bool} {r : ρ} (hr : z.rr (lowName q) t = some (a, r)) :
    procQuery cfg h raw = .ok (.success r true) := by
  obtain ⟨id, rd, e⟩ := ha.search h
  rw [e]
  unfold Lookup.search
  rw [if_neg hd.1]
  simp only
  rw [if_neg hd.2, if_neg (by rw [getRtype_key q t ha.type]; have := ha.kind; simp; omega), foldCase_key ha.labels,
    s.rrNone (lowName_ok ha.labels) ha.type, hr]
  rfl

example : procQuery {} (ofTable exTable) (exQuery [[65], [99]] 1 1) = .ok (.success 3 true) :=
  record_sent ex_stores (by decide) (a := true) (exAsks (by unfold LabelsOk; decide) (by decide) (by decide) (by decide))
    (by decide +kernel)

/-- **C63.** A question for the address of a name that is written like an address gets this address, unless
there are records, a CNAME or a delegation at this very name. -/
theorem dotted_quad_answered {h : Hash ρ} {z : Zone ρ} (s : Stores h z) {cfg : Cfg} (hu : Usual cfg)
    (hn : cfg.noFingerprint = false) (he : ∀ k, cfg.egg k = none)
    {raw : Js} {q : Name} {hd : Header} {rest : List UInt8} (hs : Js.Ok raw) (ho : Ordinary hd)
    (hc : raw.contents = queryBytes hd q 1 1 rest) (hq : LabelsOk q)
    {vs : List Nat} (hv : dottedQuad q = some vs) (hid : hd.id ≠ 0 ∧ hd.id ≠ 65535)
    (h1 : z.rr (lowName q) 1 = none) (h5 : z.rr (lowName q) 5 = none)
    (h2 : ∀ r, z.rr (lowName q) 2 ≠ some (false, r)) :
    procQuery cfg h raw = .ok (.ddip (vs.map UInt8.ofNat)) := by
  have hlen : (encName q).length ≤ 17 := by
    unfold dottedQuad at hv
    split at hv
    · rename_i a b c d
      have hb : ∀ (l : List UInt8) v, byteLabel l = some v → l.length ≤ 3 := by
        intro l v h
        unfold byteLabel at h
        simp only at h
        split at h
        · rename_i hh; exact hh.2.1
        · cases h
      cases ha : byteLabel a with
      | none => rw [ha] at hv; cases hv
      | some va =>
        cases hbb : byteLabel b with
        | none => rw [ha, hbb] at hv; cases hv
        | some vb =>
          cases hcc : byteLabel c with
          | none => rw [ha, hbb, hcc] at hv; cases hv
          | some vc =>
            cases hdd : byteLabel d with
            | none => rw [ha, hbb, hcc, hdd] at hv; cases hv
            | some vd =>
              have := hb _ _ ha; have := hb _ _ hbb; have := hb _ _ hcc; have := hb _ _ hdd
              simp only [encName_cons_length, encName_nil, List.length_singleton]
              omega
    · cases hv
  have hfl : LabelsOk (lowName q) := lowName_ok hq
  have hidv : 0 < hd.id.val ∧ hd.id.val < 65535 := by
    have hlt := hd.id.isLt
    have h0 : hd.id.val ≠ 0 := fun e => hid.1 (Fin.ext e)
    have h6 : hd.id.val ≠ 65535 := fun e => hid.2 (Fin.ext e)
    omega
  rw [front hs cfg h ho hq (by omega) (by omega) hc, if_neg (by omega), if_neg (by decide), if_neg (by omega),
    if_neg (by omega), if_neg (by omega), if_neg (by omega)]
  unfold Lookup.search
  rw [if_neg (by have := hu.dos; omega)]
  simp only
  rw [if_neg (by have := hu.dos; omega), if_neg (by rw [getRtype_key q 1 (by omega)]; simp),
    foldCase_key hq, s.rrNone hfl (by omega), h1]
  simp only
  rw [if_neg (by have := hu.dos; omega), changeRtype_key _ _ 5 (by omega)]
  simp only
  rw [s.rrNone hfl (by omega), h5]
  simp only
  rw [he]
  simp only [ite_self]
  unfold fromNs
  simp only
  rw [if_neg (by have := hu.dos; omega), foldCase_key hq, changeRtype_key _ _ 2 (by omega)]
  simp only
  rw [s.rrNone hfl (by omega), hn, ddipCheck_spec hq, hv]
  simp only [Bool.false_eq_true, if_false]
  rw [if_pos hidv]
  cases h0 : z.rr (lowName q) 2 with
  | none => rfl
  | some v =>
    obtain ⟨a, r⟩ := v
    cases a
    · exact absurd h0 (h2 r)
    · rfl

example : procQuery {} (ofTable exTable) (exQuery [[49], [50], [51], [50, 53, 53]] 1 1) = .ok (.ddip [1, 2, 3, 255]) := by
  have ha := exAsks (q := [[49], [50], [51], [50, 53, 53]]) (t := 1) (by unfold LabelsOk; decide) (by decide) (by decide) (by decide)
  exact dotted_quad_answered ex_stores exUsual rfl (fun _ => rfl) (hd := exHeader) (rest := []) ha.live ⟨rfl, rfl, rfl⟩
    (by decide +kernel) ha.labels (vs := [1, 2, 3, 255]) (by decide +kernel) (by decide) (by decide +kernel) (by decide +kernel)
    (by
      have : (zoneOf (ofTable exTable)).rr (lowName [[49], [50], [51], [50, 53, 53]]) 2 = none := by decide +kernel
      intro r; rw [this]; simp)

/-! ## Any packet at all -/

/-- **C64.** No packet makes the server read outside of the string it is in. -/
theorem procQuery_safe {raw : Js} (hs : Js.Ok raw) (cfg : Cfg) (h : Hash ρ) : procQuery cfg h raw ≠ .ub := by
  have hb := hs.block
  have hfit := hs.fits
  have rdok : ∀ i, i < raw.max + 3 → ∃ x, Js.rd raw.buf i = .ok x := by
    intro i hi
    unfold Js.rd
    rw [List.getElem?_eq_getElem (by omega)]
    exact ⟨_, rfl⟩
  unfold procQuery
  rw [if_neg (by simp [Js.sane]; omega)]
  by_cases h14 : raw.max < 14
  · rw [if_pos h14]; exact fun e => by cases e
  rw [if_neg h14]
  obtain ⟨x0, e0⟩ := rdok 0 (by omega)
  obtain ⟨x1, e1⟩ := rdok 1 (by omega)
  obtain ⟨x2, e2⟩ := rdok 2 (by omega)
  obtain ⟨x4, e4⟩ := rdok 4 (by omega)
  obtain ⟨x5, e5⟩ := rdok 5 (by omega)
  rw [e0, e1, e2, e4, e5, Dw.Res.ok_bind, Dw.Res.ok_bind, Dw.Res.ok_bind, Dw.Res.ok_bind, Dw.Res.ok_bind]
  by_cases c1 : x2 &&& 0x80 ≠ 0
  · rw [if_pos c1]; exact fun e => by cases e
  rw [if_neg c1]
  by_cases c2 : x4.toNat * 256 + x5.toNat ≠ 1
  · rw [if_pos c2]; exact fun e => by cases e
  rw [if_neg c2]
  by_cases c3 : raw.count < 14
  · rw [if_pos c3]; exact fun e => by cases e
  rw [if_neg c3, dlabelLength_list hs 12 (by omega)]
  cases hdl : dlabel raw.contents 12 256 0 with
  | none => exact fun e => by cases e
  | some k =>
    simp only
    by_cases c4 : k > 255
    · rw [if_pos c4]; exact fun e => by cases e
    rw [if_neg c4]
    by_cases c5 : raw.count < 16 + k
    · rw [if_pos c5]; exact fun e => by cases e
    rw [if_neg c5]
    cases L.substr raw.contents 12 (k + 2) 256 with
    | none => exact fun e => by cases e
    | some orig =>
      simp only
      by_cases c6 : x2 &&& 0x78 ≠ 0
      · rw [if_pos c6]; exact fun e => by cases e
      rw [if_neg c6]
      obtain ⟨y0, f0⟩ := rdok (k + 14) (by omega)
      obtain ⟨y1, f1⟩ := rdok (k + 15) (by omega)
      rw [f0, f1, Dw.Res.ok_bind, Dw.Res.ok_bind]
      by_cases c7 : y0 ≠ 0 ∧ y1 ≠ 1
      · rw [if_pos c7]; exact fun e => by cases e
      rw [if_neg c7]
      cases getRtype orig with
      | none => exact fun e => by cases e
      | some t =>
        simp only
        split_ifs <;> exact fun e => by cases e

example : procQuery {} (ofTable exTable) ⟨0, 512, List.replicate 515 255⟩ ≠ .ub :=
  procQuery_safe ⟨by decide +kernel, by decide, by decide⟩ _ _

/-- **C64.** Replies are never answered, so two servers cannot keep each other busy. -/
theorem replies_ignored {raw : Js} (hs : Js.Ok raw) (h14 : 14 ≤ raw.max) {b : UInt8} (hb : raw.contents[2]? = some b)
    (hq : b &&& 0x80 ≠ 0) (cfg : Cfg) (h : Hash ρ) : procQuery cfg h raw = .ok .none := by
  have hbl := hs.block
  have hfit := hs.fits
  have rdok : ∀ i, i < raw.max + 3 → ∃ x, Js.rd raw.buf i = .ok x := by
    intro i hi
    unfold Js.rd
    rw [List.getElem?_eq_getElem (by omega)]
    exact ⟨_, rfl⟩
  obtain ⟨x0, e0⟩ := rdok 0 (by omega)
  obtain ⟨x1, e1⟩ := rdok 1 (by omega)
  obtain ⟨x4, e4⟩ := rdok 4 (by omega)
  obtain ⟨x5, e5⟩ := rdok 5 (by omega)
  unfold procQuery
  rw [if_neg (by simp [Js.sane]; omega), if_neg (by omega), e0, e1, rd_get hb, e4, e5]
  simp only [Dw.Res.ok_bind]
  rw [if_pos hq]

example : procQuery {} (ofTable exTable) ⟨12, 512, [0, 7, 129, 128, 0, 1, 0, 0, 0, 0, 0, 0] ++ List.replicate 503 0⟩ = .ok .none :=
  replies_ignored ⟨by decide +kernel, by decide, by decide⟩ (by decide) (b := 129) rfl (by decide) _ _

end Lookup
end Mara
