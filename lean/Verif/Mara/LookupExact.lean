import Verif.Mara.LookupZone
/-!
# Lemmas: the search for an answer, as a whole
-/

namespace Mara
namespace Lookup

open Dw (Res)
open Spec

variable {ρ : Type}

/-- The reply in terms of what is sent: `udpsuccess`, `udpstar`, `udpnotfound` or an error. -/
def sent (q : Name) : Reply ρ → Out ρ
  | .records r => .success r true
  | .referral r => .success r false
  | .wildcard r u => .star r (encName q ++ u16 u) 0
  | .noData soa => .negative soa 0
  | .nxDomain soa => .negative soa 3
  | .refused => .error 5 false
  | .failure => .error 2 false

/-- The settings as they are by default, but for `no_fingerprint`, `dos_protection_level` and the
access to the replies about MaraDNS itself. -/
structure Mild (cfg : Cfg) : Prop where
  bindStar : cfg.bindStar = 1
  defaultZone : cfg.defaultZone = false
  recurse : cfg.recurseDelegation = false

/-- The same, with a `dos_protection_level` that leaves all records usable. -/
structure Usual (cfg : Cfg) : Prop extends Mild cfg where
  dos : cfg.dos ≤ 7

/-- What the search for star records comes to in terms of the records there are. -/
def StarsGive (cfg : Cfg) (h : Hash ρ) (z : Zone ρ) (q : Name) (t : Nat) : Prop :=
  ∀ soa, stars cfg h soa (key q t) 0 =
    if z.exists? (lowName q) then .go 4
    else match z.wildcardFor (lowName q) t with
      | some (r, u) => .out (.star r (key q u) 0)
      | none => .go (if z.covered (lowName q) then 4 else 0)

theorem fromNs_give {h : Hash ρ} {z' z : Zone ρ} (s : Stores h z') (hrr : ∀ n u, u = 2 ∨ u = 6 → z'.rr n u = z.rr n u)
    (hexs : z'.exists? = z.exists?) {cfg : Cfg} (hu : Mild cfg) (hdos : cfg.dos ≤ 11)
    (id : Nat) (rd : Bool) {q : Name} (hf : Fits q) (hq : q ≠ []) {t : Nat} (ht : t < 65536)
    (h255 : t ≠ 255) (hdd : cfg.noFingerprint = true ∨ t ≠ 1 ∨ dottedQuad q = none)
    (h1 : z.rr (lowName q) t = none) (h2 : z.rr (lowName q) 5 = none) (hst : StarsGive cfg h z q t) :
    fromNs cfg h id rd (key q t) = sent q (z.reply (lowName q) t) := by
  have hfl := hf.lower
  obtain ⟨l, m, rfl⟩ : ∃ l m, q = l :: m := by
    cases q with
    | nil => exact absurd rfl hq
    | cons l m => exact ⟨l, m, rfl⟩
  have hddn : (if cfg.noFingerprint then none else ddipCheck (ρ := ρ) id (key (l :: m) t)) = none := by
    rcases hdd with hdd | hdd | hdd
    · rw [if_pos hdd]
    · split
      · rfl
      · exact ddipCheck_other ht hdd h255 id
    · split
      · rfl
      · by_cases h1 : t = 1
        · subst h1
          rw [ddipCheck_spec hf.1, hdd]
        · exact ddipCheck_other ht h1 h255 id
  have hcl : z.closestNs (lowName (l :: m)) = match z.rr (lowName (l :: m)) 2 with
      | some v => some (lowName (l :: m), v)
      | none => (above (lowName (l :: m))).findSome? fun s => (z.rr s 2).map fun v => (s, v) := by
    unfold Zone.closestNs
    rw [upward_above, List.findSome?_cons]
    cases z.rr (lowName (l :: m)) 2 <;> rfl
  unfold fromNs
  simp only
  have hclz : z'.closestNs (lowName (l :: m)) = z.closestNs (lowName (l :: m)) := by
    unfold Zone.closestNs
    congr 1
    funext x
    rw [hrr x 2 (.inl rfl)]
  rw [if_neg (by omega), foldCase_key hf.1, changeRtype_key _ _ 2 (by omega)]
  simp only
  rw [s.rrNone hfl.1 (by omega), hddn, hu.recurse, nsWalk_spec s _ 256 hfl (by have := hfl.len; omega), hclz, hrr _ 2 (.inl rfl)]
  simp only [hrr _ 6 (.inr rfl)]
  simp only [Bool.not_false, Bool.or_true, if_true]
  unfold Zone.reply
  rw [h1, h2]
  simp only [Option.none_or]
  have hany : isList (h (key (l :: m) 255)) = z.exists? (l :: m) := by rw [← hexs]; exact s.exists? _ hf.1
  have hsm : z.exists? (lowName (l :: m)) = false → z.exists? (l :: m) = false := by
    intro h0
    cases hx : z.exists? (l :: m) with
    | false => rfl
    | true => rw [s.small _ hf.1 (by rw [hexs]; exact hx)] at h0; rw [← hx, h0]
  have tail : ∀ w : Walk ρ, ∀ ns : Option (Name × Bool × ρ), (∀ x r, ns ≠ some (x, false, r)) →
      w = (match ns with
        | none => .nothing
        | some (_, false, r) => .referral r
        | some (apex, true, _) => .authority ((z.rr apex 6).map (·.2))) →
      (match stars cfg h (match w with | .authority s => s | _ => none) (key (l :: m) t) 0 with
        | .out o => o
        | .go ant => finish cfg h w (key (l :: m) t) ant) =
      sent (l :: m) (match (if z.exists? (lowName (l :: m)) then none else z.wildcardFor (lowName (l :: m)) t), ns with
        | some (r, u), _ => .wildcard r u
        | none, none => .refused
        | none, some (apex, _) =>
          match z.rr apex 6 with
          | none => .failure
          | some (_, soa) => if z.exists? (lowName (l :: m)) ∨ z.covered (lowName (l :: m)) then .noData soa else .nxDomain soa) := by
    intro w ns hns hw
    subst hw
    rw [hst]
    have hfin : ∀ ant, finish cfg h (match ns with
        | none => .nothing
        | some (_, false, r) => .referral r
        | some (apex, true, _) => .authority ((z.rr apex 6).map (·.2))) (key (l :: m) t) ant = match (generalizing := false) ns with
        | none => .error 5 false
        | some (apex, _) => notFound h ((z.rr apex 6).map (·.2)) (key (l :: m) t) ant := by
      intro ant
      unfold finish
      rw [hu.defaultZone]
      simp only [Bool.false_eq_true, if_false]
      rcases ns with _ | ⟨apex, a, r⟩
      · rfl
      · cases a
        · exact absurd rfl (hns _ _)
        · rfl
    by_cases he : z.exists? (lowName (l :: m)) = true
    · rw [if_pos he, if_pos he]
      simp only
      rw [hfin]
      rcases ns with _ | ⟨apex, a, r⟩
      · rfl
      · simp only
        rcases hz : z.rr apex 6 with _ | ⟨_, soa⟩
        · rfl
        · simp [notFound, he, sent]
    · rw [if_neg he, if_neg he]
      cases hw : z.wildcardFor (lowName (l :: m)) t with
      | some v => rfl
      | none =>
        simp only
        rw [hfin]
        rcases ns with _ | ⟨apex, a, r⟩
        · rfl
        · simp only
          rcases hz : z.rr apex 6 with _ | ⟨_, soa⟩
          · rfl
          · have hx := hsm (by simpa using he)
            unfold notFound
            simp only [Option.map_some, changeRtype_key _ _ 255 (by omega : 255 < 65536)]
            rw [hany, hx]
            cases hcv : z.covered (lowName (l :: m)) <;> simp [sent, he]
  cases hns : z.closestNs (lowName (l :: m)) with
  | none =>
    have h0 : z.rr (lowName (l :: m)) 2 = none := by
      rw [hcl] at hns
      split at hns
      · cases hns
      · assumption
    rw [h0]
    exact tail .nothing none (by simp) rfl
  | some v =>
    obtain ⟨apex, a, r⟩ := v
    cases a with
    | false =>
      simp only
      cases h0 : z.rr (lowName (l :: m)) 2 with
      | none => rfl
      | some w =>
        rw [hcl, h0] at hns
        obtain ⟨a', r'⟩ := w
        obtain ⟨_, rfl, rfl⟩ : _ ∧ a' = false ∧ r' = r := by
          simpa using hns
        rfl
    | true =>
      have := tail (.authority ((z.rr apex 6).map (·.2))) (some (apex, true, r)) (by simp) rfl
      cases h0 : z.rr (lowName (l :: m)) 2 with
      | none => exact this
      | some w =>
        rw [hcl, h0] at hns
        obtain ⟨a', r'⟩ := w
        obtain ⟨_, rfl, rfl⟩ : _ ∧ a' = true ∧ r' = r := by
          simpa using hns
        exact this

theorem fromNs_spec {h : Hash ρ} {z : Zone ρ} (s : Stores h z) {cfg : Cfg} (hu : Usual cfg) (id : Nat) (rd : Bool)
    {q : Name} (hf : Fits q) (hq : q ≠ []) {t : Nat} (ht : t < 65536)
    (h255 : t ≠ 255) (hdd : cfg.noFingerprint = true ∨ t ≠ 1 ∨ dottedQuad q = none)
    (h1 : z.rr (lowName q) t = none) (h2 : z.rr (lowName q) 5 = none) :
    fromNs cfg h id rd (key q t) = sent q (z.reply (lowName q) t) := by
  have hd := hu.dos
  refine fromNs_give s (fun _ _ _ => rfl) rfl hu.toMild (by omega) id rd hf hq ht h255 hdd h1 h2 fun soa => ?_
  cases q with
  | nil => exact absurd rfl hq
  | cons l m => exact stars_one s hu.bindStar hu.dos soa hf ht

/-- The search with the settings as they are by default. -/
theorem search_spec {h : Hash ρ} {z : Zone ρ} (s : Stores h z) {cfg : Cfg} (hu : Usual cfg) (id : Nat) (rd : Bool)
    {q : Name} (hf : Fits q) (hq : q ≠ []) {t : Nat} (ht : t < 65536) (h255 : t ≠ 255)
    (hdd : cfg.noFingerprint = true ∨ t ≠ 1 ∨ dottedQuad q = none)
    (hegg : 0 < cfg.dos ∨ cfg.egg (key q t) = none) :
    search cfg h id rd (key q t) = sent q (z.reply (lowName q) t) := by
  have hfl := hf.lower
  have hd := hu.dos
  unfold search
  rw [if_neg (by omega)]
  simp only
  rw [if_neg (by omega), if_neg (by rw [getRtype_key q t ht]; simp [h255]),
    foldCase_key hf.1, s.rrNone hfl.1 ht]
  cases h1 : z.rr (lowName q) t with
  | some v => 
    obtain ⟨a, r⟩ := v
    simp only [Zone.reply, h1, Option.some_or]
    rfl
  | none =>
    simp only
    rw [if_neg (by omega), changeRtype_key _ _ 5 (by omega)]
    simp only
    rw [s.rrNone hfl.1 (by omega)]
    cases h2 : z.rr (lowName q) 5 with
    | some v =>
      obtain ⟨a, r⟩ := v
      simp only [Zone.reply, h1, h2, Option.none_or]
      rfl
    | none =>
      simp only
      have fin := fromNs_spec s hu id rd hf hq ht h255 hdd h1 h2
      rcases hegg with hegg | hegg
      · rw [if_pos hegg]
        exact fin
      · rw [hegg]
        simp only [ite_self]
        exact fin

end Lookup
end Mara
