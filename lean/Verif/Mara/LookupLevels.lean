import Verif.Mara.LookupProps
/-!
# C66: `dos_protection_level`
-/

namespace Mara
namespace Lookup

open Dw (Res)
open Spec

variable {ρ : Type}

theorem limited_rr (z : Zone ρ) (d t : Nat) (n : Name) (u : Nat) : (z.limited d t).rr n u =
    if (8 ≤ d ∧ u = 5) ∨ (12 ≤ d ∧ u = 2) then none else z.rr n u := rfl

theorem limited_star (z : Zone ρ) (d t : Nat) (n : Name) (u : Nat) : (z.limited d t).star n u =
    if 18 ≤ d ∨ (8 ≤ d ∧ u = 5 ∧ t ≠ 5) then none else z.star n u := rfl

/-- The search for star records without CNAME records. -/
theorem stars_eight {h : Hash ρ} {z : Zone ρ} (s : Stores h z) {cfg : Cfg} (hb : cfg.bindStar = 1)
    (hd : 8 ≤ cfg.dos) (hd' : cfg.dos ≤ 17) (soa : Option ρ) {l : List UInt8} {m : Name} (hf : Fits (l :: m)) {t : Nat} (ht : t < 65536) :
    stars cfg h soa (key (l :: m) t) 0 =
      if z.exists? (lowName (l :: m)) then .go 4
      else match (upward (lowName (l :: m)).tail).findSome? fun n => z.star n t with
        | some r => .out (.star r (key (l :: m) t) 0)
        | none => .go (if z.covered (lowName (l :: m)) then 4 else 0) := by
  have hfl := hf.lower
  have hlm : lowName (l :: m) = l.map lower :: lowName m := rfl
  have hfm : Fits (lowName m) := by rw [hlm] at hfl; exact hfl.tail
  have hlen : (encName (lowName m)).length ≤ 251 := by
    have h1 := hfl.2
    have h2 := hfl.1
    rw [hlm] at h1 h2
    rw [encName_cons_length] at h1
    have := h2.head
    omega
  have hex := s.exists? (lowName (l :: m)) hfl.1
  change isList (h (key (lowName (l :: m)) 255)) = _ at hex
  unfold stars
  rw [if_neg (by omega : ¬ cfg.dos > 17)]
  simp only
  rw [if_pos (by omega : cfg.bindStar ≥ 1), foldCase_key hf.1, changeRtype_key _ _ 255 (by omega)]
  simp only [Option.map_some]
  rw [hex]
  by_cases he : z.exists? (lowName (l :: m)) = true
  · rw [if_pos he, if_pos he]
  rw [if_neg he, if_neg he]
  have hms : makeStar (key (lowName (l :: m)) t) = .done 1 (95 :: key (lowName m) t) := by
    rw [hlm] at hfl ⊢
    exact makeStar_cons hfl t
  rw [hms]
  simp only
  have e1 := s.star (lowName m) t hfm.1 ht
  change (rrOf (h (95 :: key (lowName m) t))).map _ = _ at e1
  have e2 := s.starExists (lowName m) hfm.1
  change isList (h (95 :: key (lowName m) 255)) = _ at e2
  have hw : ((upward (lowName (l :: m)).tail).findSome? fun n => z.star n t) = (z.star (lowName m) t).or
      ((above (lowName m)).findSome? fun n => z.star n t) := by
    rw [hlm, List.tail_cons, upward_above, List.findSome?_cons]
    cases z.star (lowName m) t <;> rfl
  have hc : z.covered (lowName (l :: m)) = (z.starExists (lowName m) || (above (lowName m)).any z.starExists) := by
    unfold Zone.covered
    rw [hlm, List.tail_cons, upward_above, List.any_cons]
  rw [hw, hc]
  cases hr : rrOf (h (95 :: key (lowName m) t)) with
  | some v =>
    rw [hr] at e1
    simp only [Option.map_some] at e1
    rw [← e1]
    rfl
  | none =>
    rw [hr] at e1
    simp only [Option.map_none] at e1
    rw [← e1]
    simp only [Option.none_or]
    rw [changeRtype_skey _ _ 255 (by omega)]
    simp only [Option.map_some]
    rw [if_pos (by omega : cfg.bindStar ≥ 1)]
    simp only
    rw [if_neg (by omega : ¬ cfg.bindStar = 2), e2, starAbove_one s hb soa _ ht (lowName m) 256 _ hfm.1 (by omega)
      (by have := hfm.len; omega)]
    cases hfs : (above (lowName m)).findSome? fun n => z.star n t with
    | some r => rfl
    | none =>
      simp only
      rw [if_pos (by omega : cfg.dos > 7)]
      cases z.starExists (lowName m) <;> cases (above (lowName m)).any z.starExists <;> rfl

/-- The search for star records at any level. -/
theorem stars_limited {h : Hash ρ} {z : Zone ρ} (s : Stores h z) {cfg : Cfg} (hb : cfg.bindStar = 1)
    (hd' : cfg.dos ≤ 17) {q : Name} (hq : q ≠ []) (hf : Fits q) {t : Nat} (ht : t < 65536) :
    StarsGive cfg h (z.limited cfg.dos t) q t := by
  intro soa
  cases q with
  | nil => exact absurd rfl hq
  | cons l m =>
    have hstar : ∀ n, (z.limited cfg.dos t).star n t = z.star n t := by
      intro n
      rw [limited_star, if_neg (by omega)]
    by_cases h8 : cfg.dos ≤ 7
    · rw [stars_one s hb h8 soa hf ht]
      have e : z.limited cfg.dos t = z := by
        unfold Zone.limited
        congr
        · funext n u; rw [if_neg (by omega)]
        · funext n u; rw [if_neg (by omega)]
      rw [e]
      rfl
    · rw [stars_eight s hb (by omega) hd' soa hf ht]
      change _ = if z.exists? (lowName (l :: m)) then _ else match (z.limited cfg.dos t).wildcardFor (lowName (l :: m)) t with
        | some (r, u) => Step.out (.star r (key (l :: m) u) 0)
        | none => Step.go (if z.covered (lowName (l :: m)) then 4 else 0)
      have hw : (z.limited cfg.dos t).wildcardFor (lowName (l :: m)) t =
          ((upward (lowName (l :: m)).tail).findSome? fun n => z.star n t).map (·, t) := by
        unfold Zone.wildcardFor
        rw [findSome_pair]
        simp only [hstar]
        cases hx : (upward (lowName (l :: m)).tail).findSome? fun n => z.star n t with
        | some r => rfl
        | none =>
          simp only [Option.map_none, Option.none_or]
          by_cases h5 : t = 5
          · subst h5
            rw [hstar]
            rw [upward_above, List.findSome?_cons] at hx
            cases hy : z.star (lowName (l :: m)).tail 5 with
            | none => rfl
            | some r => rw [hy] at hx; cases hx
          · rw [limited_star, if_pos (by omega)]
            rfl
      rw [hw]
      cases (upward (lowName (l :: m)).tail).findSome? fun n => z.star n t <;> rfl

theorem closest_gone {z : Zone ρ} {d t : Nat} (h : 12 ≤ d) (n : Name) : (z.limited d t).closestNs n = none := by
  unfold Zone.closestNs
  rw [List.findSome?_eq_none_iff]
  intro x _
  rw [limited_rr, if_pos (by omega)]
  rfl

theorem reply_gone {z : Zone ρ} {d t : Nat} (h : 12 ≤ d) {n : Name} (h1 : z.rr n t = none) :
    (z.limited d t).reply n t = match (if z.exists? n then none else (z.limited d t).wildcardFor n t) with
      | some (r, u) => .wildcard r u
      | none => .refused := by
  unfold Zone.reply
  rw [closest_gone h]
  have e1 : (z.limited d t).rr n t = none := by rw [limited_rr]; split <;> simp [h1]
  have e5 : (z.limited d t).rr n 5 = none := by rw [limited_rr, if_pos (by omega)]
  rw [e1, e5]
  simp only [Option.none_or]
  change (match (if z.exists? n then none else (z.limited d t).wildcardFor n t), (none : Option (Name × Bool × ρ)) with
    | some (r, u), _ => _ | none, none => _ | none, some (apex, _) => _) = _
  cases (if z.exists? n then none else (z.limited d t).wildcardFor n t) <;> rfl

/-- From the delegation on, at a level that leaves out the delegation. -/
theorem fromNs_twelve {h : Hash ρ} {z : Zone ρ} (s : Stores h z) {cfg : Cfg} (hu : Mild cfg) (hd : 12 ≤ cfg.dos)
    (id : Nat) (rd : Bool) {q : Name} (hf : Fits q) (hq : q ≠ []) {t : Nat} (ht : t < 65536)
    (h1 : z.rr (lowName q) t = none) :
    fromNs cfg h id rd (key q t) = sent q ((z.limited cfg.dos t).reply (lowName q) t) := by
  rw [reply_gone hd h1]
  unfold fromNs
  simp only
  rw [if_pos (by omega)]
  have fin : ∀ ant, finish cfg h .nothing (key q t) ant = .error 5 false := by
    intro ant
    unfold finish
    rw [hu.defaultZone]
    rfl
  by_cases h18 : cfg.dos ≤ 17
  · rw [stars_limited s hu.bindStar h18 hq hf ht]
    change (match (if z.exists? (lowName q) then _ else _) with | Step.out o => o | Step.go ant => finish cfg h .nothing (key q t) ant) = _
    by_cases he : z.exists? (lowName q) = true
    · rw [if_pos he, if_pos he]
      exact fin _
    · rw [if_neg he, if_neg he]
      cases (z.limited cfg.dos t).wildcardFor (lowName q) t with
      | none => exact fin _
      | some v => rfl
  · have hs : stars cfg h (none : Option ρ) (key q t) 0 = .go 0 := by
      unfold stars
      rw [if_pos (by omega)]
    rw [hs]
    simp only
    rw [fin]
    have hw : (z.limited cfg.dos t).wildcardFor (lowName q) t = none := by
      unfold Zone.wildcardFor
      have : ∀ n u, (z.limited cfg.dos t).star n u = none := by
        intro n u
        rw [limited_star, if_pos (by omega)]
      simp [this]
    rw [hw]
    simp [sent]

theorem search_level {h : Hash ρ} {z : Zone ρ} (s : Stores h z) {cfg : Cfg} (hu : Mild cfg) (id : Nat) (rd : Bool)
    {q : Name} (hf : Fits q) (hq : q ≠ []) {t : Nat} (ht : t < 65536) (h255 : t ≠ 255 ∨ 14 ≤ cfg.dos)
    (hdd : 12 ≤ cfg.dos ∨ cfg.noFingerprint = true ∨ t ≠ 1 ∨ dottedQuad q = none)
    (hegg : (0 < cfg.dos ∧ cfg.dos ≠ 79) ∨ cfg.egg (key q t) = none) :
    search cfg h id rd (key q t) = sent q (z.replyAt cfg.dos (lowName q) t) := by
  have hfl := hf.lower
  unfold Zone.replyAt
  by_cases h7 : cfg.dos ≤ 7
  · rw [if_neg (by omega)]
    have e : z.limited cfg.dos t = z := by
      unfold Zone.limited
      congr
      · funext n u; rw [if_neg (by omega)]
      · funext n u; rw [if_neg (by omega)]
    have hdd' : cfg.noFingerprint = true ∨ t ≠ 1 ∨ dottedQuad q = none := hdd.resolve_left (by omega)
    have key' : ∀ v, z.rr (lowName q) t = some v → sent q (.records v.2) = sent q (z.reply (lowName q) t) := by
      intro v hv
      simp [Zone.reply, hv]
    have base : search cfg h id rd (key q t) = sent q (z.reply (lowName q) t) := by
      exact search_spec s ⟨hu, h7⟩ id rd hf hq ht (by omega) hdd' (hegg.imp_left (·.1))
    rw [base]
    cases hv : z.rr (lowName q) t with
    | none => simp only; rw [e]
    | some v => obtain ⟨a, r⟩ := v; exact (key' _ hv).symm
  · unfold search
    by_cases h78 : cfg.dos = 78
    · rw [if_pos h78, hu.defaultZone, if_pos (Or.inl h78)]
      rfl
    rw [if_neg h78]
    simp only
    by_cases h79 : cfg.dos = 79
    · rw [if_pos h79, hegg.resolve_left (by omega), hu.defaultZone, if_pos (Or.inr h79)]
      rfl
    rw [if_neg h79, if_neg (by omega : ¬ (cfg.dos = 78 ∨ cfg.dos = 79)), if_neg (by rw [getRtype_key q t ht, Option.some.injEq]; omega), foldCase_key hf.1,
      s.rrNone hfl.1 ht]
    cases h1 : z.rr (lowName q) t with
    | some v => rfl
    | none =>
      simp only
      rw [if_pos (by omega), if_pos (by omega)]
      by_cases h12 : 12 ≤ cfg.dos
      · exact fromNs_twelve s hu h12 id rd hf hq ht h1
      · refine fromNs_give (z := z.limited cfg.dos t) s (fun n u hu => ?_) rfl hu (by omega) id rd hf hq ht (by omega) (hdd.resolve_left h12) ?_ ?_
          (stars_limited s hu.bindStar (by omega) hq hf ht)
        · exact (limited_rr z _ _ _ _).symm ▸ (if_neg (by omega)).symm
        · rw [limited_rr]
          split <;> simp [h1]
        · rw [limited_rr, if_pos (by omega)]

/-- **C66.** At every `dos_protection_level` the reply to an ordinary question is the one of the
records that the documentation leaves in use at that level. -/
theorem level_exact {h : Hash ρ} {z : Zone ρ} (s : Stores h z) {cfg : Cfg} (hu : Mild cfg)
    {raw : Js} {q : Name} {t : Nat} (ha : Asks cfg raw q t)
    (hdd : 12 ≤ cfg.dos ∨ cfg.noFingerprint = true ∨ t ≠ 1 ∨ dottedQuad q = none)
    (hegg : (0 < cfg.dos ∧ cfg.dos ≠ 79) ∨ cfg.egg (encName q ++ u16 t) = none) :
    procQuery cfg h raw = .ok (sent q (z.replyAt cfg.dos (lowName q) t)) := by
  obtain ⟨id, rd, e⟩ := ha.search h
  rw [e, search_level s hu _ _ ⟨ha.labels, ha.fits⟩ ha.name ha.type (Or.inl (by have := ha.kind; omega)) hdd hegg]
  congr 1
  cases z.replyAt cfg.dos (lowName q) t <;> rfl

/-- The settings as they are by default, but for the level. -/
def exLevel (d : Nat) : Cfg := { dos := d }

theorem exLevelAsks {d : Nat} {q : Name} {t : Nat} (a : Asks {} (exQuery q t 1) q t) : Asks (exLevel d) (exQuery q t 1) q t :=
  ⟨a.live, a.bytes, a.labels, a.name, a.fits, a.type, a.kind, a.aaaa, a.ptr⟩

-- `x.y.d.c.` is delegated at level 11 and refused at level 12
example : procQuery (exLevel 11) (ofTable exTable) (exQuery [[120], [121], [100], [99]] 1 1) = .ok (.success 4 false) :=
  (level_exact ex_stores ⟨rfl, rfl, rfl⟩ (exLevelAsks (exAsks (by unfold LabelsOk; decide) (by decide) (by decide) (by decide)))
    (by decide +kernel) (Or.inl (by decide))).trans (by decide +kernel)

example : procQuery (exLevel 12) (ofTable exTable) (exQuery [[120], [121], [100], [99]] 1 1) = .ok (.error 5 false) :=
  (level_exact ex_stores ⟨rfl, rfl, rfl⟩ (exLevelAsks (exAsks (by unfold LabelsOk; decide) (by decide) (by decide) (by decide)))
    (by decide +kernel) (Or.inl (by decide))).trans (by decide +kernel)

-- `x.b.c.` has a star CNAME up to level 7
example : procQuery (exLevel 7) (ofTable exTable) (exQuery [[120], [98], [99]] 1 1) = .ok (.star 6 [1, 120, 1, 98, 1, 99, 0, 0, 5] 0) :=
  (level_exact ex_stores ⟨rfl, rfl, rfl⟩ (exLevelAsks (exAsks (by unfold LabelsOk; decide) (by decide) (by decide) (by decide)))
    (by decide +kernel) (Or.inl (by decide))).trans (by decide +kernel)

example : procQuery (exLevel 8) (ofTable exTable) (exQuery [[120], [98], [99]] 1 1) = .ok (.negative 2 0) :=
  (level_exact ex_stores ⟨rfl, rfl, rfl⟩ (exLevelAsks (exAsks (by unfold LabelsOk; decide) (by decide) (by decide) (by decide)))
    (by decide +kernel) (Or.inl (by decide))).trans (by decide +kernel)

/-- **C66.** A question for all records of a name is answered with all of them up to level 13
(`cfg.any` is what the code that gathers them comes to) and like one for a single, unknown type from level 14 on. -/
theorem any_exact {h : Hash ρ} {z : Zone ρ} (s : Stores h z) {cfg : Cfg} (hu : Mild cfg) {raw : Js} (hs : Js.Ok raw)
    {hd : Header} (ho : Ordinary hd) {q : Name} {rest : List UInt8} (hc : raw.contents = queryBytes hd q 255 1 rest)
    (hq : LabelsOk q) (hq0 : q ≠ []) (hl : (encName q).length ≤ 253) :
    (cfg.dos ≤ 13 → cfg.any (encName (lowName q) ++ u16 255) = some true → procQuery cfg h raw = .ok .any) ∧
    (14 ≤ cfg.dos → cfg.dos ≠ 79 → procQuery cfg h raw = .ok (sent q (z.replyAt cfg.dos (lowName q) 255))) := by
  have e : procQuery cfg h raw = .ok (servFail cfg (search cfg h hd.id.val hd.rd (key q 255))) := by
    rw [front hs cfg h ho hq (by omega) (by omega) hc, if_neg (by omega), if_neg (by decide),
      if_neg (by omega), if_neg (by omega), if_neg (by omega), if_neg (by omega)]
  constructor
  · intro hd hany
    rw [e]
    unfold search
    rw [if_neg (by omega)]
    simp only
    rw [if_neg (by omega), if_pos ⟨hd, getRtype_key q 255 (by omega)⟩, foldCase_key hq]
    change Res.ok (servFail cfg (match cfg.any (encName (lowName q) ++ u16 255) with | some true => _ | some false => _ | none => _)) = _
    rw [hany]
    rfl
  · intro hd h79
    rw [e, search_level s hu _ _ ⟨hq, hl⟩ hq0 (by omega) (Or.inr hd) (Or.inl (by omega)) (Or.inl ⟨by omega, h79⟩)]
    congr 1
    cases z.replyAt cfg.dos (lowName q) 255 <;> rfl

-- at level 14 there is nothing for `a.c.`
example : procQuery (exLevel 14) (ofTable exTable) (exQuery [[97], [99]] 255 1) = .ok (.error 5 false) :=
  ((any_exact ex_stores (cfg := exLevel 14) ⟨rfl, rfl, rfl⟩ ⟨by decide +kernel, by decide +kernel, by decide +kernel⟩ (hd := exHeader) ⟨rfl, rfl, rfl⟩
    (rest := []) (q := [[97], [99]]) (by decide +kernel) (by unfold LabelsOk; decide) (by decide) (by decide)).2 (by decide) (by decide)).trans (by decide +kernel)

end Lookup
end Mara
