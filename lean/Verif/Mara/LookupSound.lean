import Verif.Mara.LookupFront
/-!
# Lemmas: what can be sent, for all settings of star handling and protection
-/

namespace Mara
namespace Lookup

open Dw (Res)
open Spec

variable {ρ : Type}

/-- What may be sent for a question, apart from errors and replies about the server itself. -/
def Fair (z : Zone ρ) (q : Name) (t : Nat) : Out ρ → Prop
  | .success r true => ∃ a, z.rr (lowName q) t = some (a, r) ∨ z.rr (lowName q) 5 = some (a, r)
  | .success r false => ∃ s, z.closestNs (lowName q) = some (s, false, r)
  | .star r shown k => k = 0 ∧ ∃ s ∈ upward (lowName q).tail, ∃ u, (u = t ∨ u = 5) ∧ z.star s u = some r ∧
      shown = encName q ++ u16 u
  | .negative soa rcode => ∃ s a r, z.closestNs (lowName q) = some (s, true, r) ∧ z.rr s 6 = some (a, soa) ∧
      (rcode = 0 ∨ rcode = 3 ∧ z.exists? q = false)
  | .rejected => False
  | .ddip ip => ∃ vs, dottedQuad q = some vs ∧ ip = vs.map UInt8.ofNat
  | _ => True

theorem notFound_fair {h : Hash ρ} {z : Zone ρ} (s : Stores h z) {q : Name} (hf : Fits q) {t : Nat}
    (soa : Option ρ) (hsoa : ∀ r, soa = some r → ∃ s a r', z.closestNs (lowName q) = some (s, true, r') ∧ z.rr s 6 = some (a, r))
    (ant : Nat) : Fair z q t (notFound h soa (key q t) ant) := by
  unfold notFound
  cases soa with
  | none => trivial
  | some r =>
    obtain ⟨s', a, r', h1, h2⟩ := hsoa r rfl
    simp only
    split
    · exact ⟨s', a, r', h1, h2, Or.inl rfl⟩
    · rw [changeRtype_key _ _ 255 (by omega)]
      have hx : isList (h (key q 255)) = z.exists? q := s.exists? q hf.1
      simp only
      rw [hx]
      refine ⟨s', a, r', h1, h2, ?_⟩
      cases z.exists? q
      · exact Or.inr ⟨rfl, rfl⟩
      · exact Or.inl rfl

theorem starAbove_fair {h : Hash ρ} {z : Zone ρ} (s : Stores h z) (cfg : Cfg)
    {q : Name} (hf : Fits q) {t : Nat} (ht : t < 65536) (soa : Option ρ)
    (hsoa : ∀ r, soa = some r → ∃ s a r', z.closestNs (lowName q) = some (s, true, r') ∧ z.rr s 6 = some (a, r)) :
    ∀ (n : Name) (k ant : Nat), LabelsOk n → (encName n).length ≤ 252 →
    (∀ m ∈ upward n, m ∈ upward (lowName q).tail) → ∀ o,
    starAbove cfg h soa (key q t) k (95 :: key n t) ant = .out o → Fair z q t o
  | _, 0, ant, _, _, _, o, hr => by cases hr
  | [], k + 1, ant, _, _, _, o, hr => by
    unfold starAbove at hr
    rw [bobbitStar_nil] at hr
    cases hr
  | l :: n, k + 1, ant, ho, hl, hup, o, hr => by
    have hx := encName_cons_length l n
    have ho' : LabelsOk n := ho.tail
    have hup' : ∀ m ∈ upward n, m ∈ upward (lowName q).tail := fun m hm => hup m (by
      simp only [upward]; exact List.mem_cons_of_mem _ hm)
    have ih := fun ant => starAbove_fair s cfg hf ht soa hsoa n k ant ho' (by omega) hup' o
    have e1 := s.star n t ho' ht
    change (rrOf (h (95 :: key n t))).map _ = _ at e1
    unfold starAbove at hr
    rw [bobbitStar_cons ho hl] at hr
    simp only at hr
    cases hv : rrOf (h (95 :: key n t)) with
    | some v =>
      rw [hv] at hr e1
      simp only at hr
      cases hr
      exact ⟨rfl, n, hup' n (by rw [upward_above]; simp), t, Or.inl rfl, e1.symm, rfl⟩
    | none =>
      rw [hv] at hr
      simp only at hr
      rw [changeRtype_skey n t 255 (by omega)] at hr
      simp only at hr
      split at hr
      · split at hr
        · exact ih _ hr
        · split at hr
          · split at hr
            · cases hr; trivial
            · cases hr; exact notFound_fair s hf soa hsoa _
            · exact ih _ hr
          · exact ih _ hr
      · exact ih _ hr

theorem cnameAbove_fair {h : Hash ρ} {z : Zone ρ} (s : Stores h z) (cfg : Cfg)
    {q : Name} {t : Nat} :
    ∀ (n : Name) (k ant : Nat), LabelsOk n → (encName n).length ≤ 252 →
    (∀ m ∈ upward n, m ∈ upward (lowName q).tail) → ∀ o,
    cnameAbove cfg h (key q t) k (95 :: key n 5) ant = .out o → Fair z q t o
  | _, 0, ant, _, _, _, o, hr => by cases hr
  | [], k + 1, ant, _, _, _, o, hr => by
    unfold cnameAbove at hr
    rw [bobbitStar_nil] at hr
    cases hr
  | l :: n, k + 1, ant, ho, hl, hup, o, hr => by
    have hx := encName_cons_length l n
    have ho' : LabelsOk n := ho.tail
    have hup' : ∀ m ∈ upward n, m ∈ upward (lowName q).tail := fun m hm => hup m (by
      simp only [upward]; exact List.mem_cons_of_mem _ hm)
    have ih := fun ant => cnameAbove_fair s cfg (t := t) n k ant ho' (by omega) hup' o
    have e1 := s.star n 5 ho' (by omega)
    change (rrOf (h (95 :: key n 5))).map _ = _ at e1
    have e255 := s.star n 255 ho' (by omega)
    rw [s.noAny _ ho'] at e255
    change (rrOf (h (95 :: key n 255))).map _ = _ at e255
    have hr255 : rrOf (h (95 :: key n 255)) = none := by
      cases hv : rrOf (h (95 :: key n 255)) with
      | none => rfl
      | some v => rw [hv] at e255; cases e255
    unfold cnameAbove at hr
    rw [bobbitStar_cons ho hl] at hr
    simp only at hr
    rw [changeRtype_skey n 5 255 (by omega)] at hr
    simp only at hr
    split at hr
    · rw [hr255] at hr
      simp only [Option.getD_none] at hr
      split at hr
      · cases hr
      · exact ih _ hr
    · cases hv : rrOf (h (95 :: key n 5)) with
      | some v =>
        rw [hv, changeRtype_key _ _ 5 (by omega)] at hr
        rw [hv] at e1
        simp only [Option.getD_some] at hr
        cases hr
        exact ⟨rfl, n, hup' n (by rw [upward_above]; simp), 5, Or.inr rfl, e1.symm, rfl⟩
      | none =>
        rw [hv] at hr
        simp only [Option.getD_none] at hr
        exact ih _ hr

theorem stars_fair {h : Hash ρ} {z : Zone ρ} (s : Stores h z) (cfg : Cfg)
    {l : List UInt8} {m : Name} (hf : Fits (l :: m)) {t : Nat} (ht : t < 65536) (soa : Option ρ)
    (hsoa : ∀ r, soa = some r → ∃ s a r', z.closestNs (lowName (l :: m)) = some (s, true, r') ∧ z.rr s 6 = some (a, r))
    (ant : Nat) (o : Out ρ) (hr : stars cfg h soa (key (l :: m) t) ant = .out o) : Fair z (l :: m) t o := by
  have hfl := hf.lower
  have hlm : lowName (l :: m) = l.map lower :: lowName m := rfl
  have hfm : Fits (lowName m) := by rw [hlm] at hfl; exact hfl.tail
  have hlen : (encName (lowName m)).length ≤ 251 := by
    have h1 := hfl.2
    have h2 := hfl.1
    rw [hlm] at h1 h2
    rw [encName_cons_length] at h1
    have := h2.head
    omega
  have hms : makeStar (key (lowName (l :: m)) t) = .done 1 (95 :: key (lowName m) t) := by
    rw [hlm] at hfl ⊢
    exact makeStar_cons hfl t
  have hup : ∀ n ∈ upward (lowName m), n ∈ upward (lowName (l :: m)).tail := fun n hn => by
    rw [hlm, List.tail_cons]; exact hn
  have hself : lowName m ∈ upward (lowName (l :: m)).tail := hup _ (by rw [upward_above]; simp)
  have e1 := s.star (lowName m) t hfm.1 ht
  change (rrOf (h (95 :: key (lowName m) t))).map _ = _ at e1
  have e5 := s.star (lowName m) 5 hfm.1 (by omega)
  change (rrOf (h (95 :: key (lowName m) 5))).map _ = _ at e5
  unfold stars at hr
  simp only at hr
  rw [foldCase_key hf.1, hms, changeRtype_key _ _ 255 (by omega)] at hr
  simp only [Option.map_some] at hr
  rw [changeRtype_skey _ _ 255 (by omega)] at hr
  simp only [Option.map_some] at hr
  split at hr
  · cases hr
  split at hr
  · cases hr; trivial
  split at hr
  · cases hr
  cases hv : rrOf (h (95 :: key (lowName m) t)) with
  | some v =>
    rw [hv] at hr e1
    simp only at hr
    cases hr
    exact ⟨rfl, lowName m, hself, t, Or.inl rfl, e1.symm, rfl⟩
  | none =>
    rw [hv] at hr
    simp only at hr
    have tail : ∀ ant', (match starAbove cfg h soa (key (l :: m) t) 256 (95 :: key (lowName m) t) ant' with
        | .out o => Step.out o
        | .go ant =>
          if cfg.dos > 7 then .go ant
          else
            match changeRtype (95 :: key (lowName m) t) 5 with
            | .none => .out (.error 2 true)
            | some look =>
              match rrOf (h look) with
              | some (_, r) =>
                match changeRtype (key (l :: m) t) 5 with
                | .none => .out (.error 2 true)
                | some s => .out (.star r s 0)
              | .none => cnameAbove cfg h (key (l :: m) t) 256 look ant) = .out o → Fair z (l :: m) t o := by
      intro ant' hr
      split at hr
      · rename_i o' ho'
        cases hr
        exact starAbove_fair s cfg hf ht soa hsoa (lowName m) 256 ant' hfm.1 (by omega) hup o ho'
      · split at hr
        · cases hr
        · rw [changeRtype_skey _ _ 5 (by omega)] at hr
          simp only at hr
          cases hv5 : rrOf (h (95 :: key (lowName m) 5)) with
          | some v =>
            rw [hv5, changeRtype_key _ _ 5 (by omega)] at hr
            rw [hv5] at e5
            simp only at hr
            cases hr
            exact ⟨rfl, lowName m, hself, 5, Or.inr rfl, e5.symm, rfl⟩
          | none =>
            rw [hv5] at hr
            simp only at hr
            exact cnameAbove_fair s cfg (lowName m) 256 _ hfm.1 (by omega) hup o hr
    split at hr
    · cases hr; trivial
    · split at hr
      · split at hr
        · cases hr; trivial
        · cases hr; exact notFound_fair s hf soa hsoa _
        · exact tail _ hr
      · exact tail _ hr

theorem fromNs_fair {h : Hash ρ} {z : Zone ρ} (s : Stores h z) {cfg : Cfg} (hz : cfg.defaultZone = false) (id : Nat) (rd : Bool)
    {q : Name} (hf : Fits q) (hq : q ≠ []) {t : Nat} (ht : t < 65536) (h255 : t ≠ 255) :
    Fair z q t (fromNs cfg h id rd (key q t)) := by
  have hfl := hf.lower
  obtain ⟨l, m, rfl⟩ : ∃ l m, q = l :: m := by
    cases q with
    | nil => exact absurd rfl hq
    | cons l m => exact ⟨l, m, rfl⟩
  have tail : ∀ w : Walk ρ, (∀ r, w = .authority (some r) → ∃ s a r', z.closestNs (lowName (l :: m)) = some (s, true, r') ∧
      z.rr s 6 = some (a, r)) →
      Fair z (l :: m) t (match stars cfg h (match w with | .authority s => s | _ => none) (key (l :: m) t) 0 with
        | .out o => o
        | .go ant => finish cfg h w (key (l :: m) t) ant) := by
    intro w hw
    have hsoa : ∀ r, (match w with | .authority s => s | _ => none) = some r →
        ∃ s a r', z.closestNs (lowName (l :: m)) = some (s, true, r') ∧ z.rr s 6 = some (a, r) := by
      intro r hr
      apply hw r
      cases w <;> simp_all
    split
    · rename_i o ho
      exact stars_fair s cfg hf ht _ hsoa 0 o ho
    · unfold finish
      rw [hz]
      simp only [Bool.false_eq_true, if_false]
      cases w with
      | authority soa => exact notFound_fair s hf soa hsoa _
      | _ => trivial
  unfold fromNs
  simp only
  split
  · exact tail .nothing (by simp)
  rw [foldCase_key hf.1, changeRtype_key _ _ 2 (by omega)]
  simp only
  rw [s.rrNone hfl.1 (by omega)]
  have hns := nsWalk_spec s _ 256 hfl (by have := hfl.len; omega)
  have main : Fair z (l :: m) t (match (if cfg.noFingerprint then .none else ddipCheck id (key (l :: m) t)) with
        | some o => o
        | .none =>
          if !rd || !cfg.recurseDelegation then
            match nsWalk h 256 (key (lowName (l :: m)) 2) with
            | .referral r => .success r false
            | .fail => .error 2 true
            | w => match stars cfg h (match w with | .authority s => s | _ => none) (key (l :: m) t) 0 with
                | .out o => o
                | .go ant => finish cfg h w (key (l :: m) t) ant
          else match stars cfg h (match (Walk.nothing : Walk ρ) with | .authority s => s | _ => none) (key (l :: m) t) 0 with
                | .out o => o
                | .go ant => finish cfg h .nothing (key (l :: m) t) ant) := by
    split
    · rename_i o ho
      split at ho
      · cases ho
      · by_cases h1 : t = 1
        · subst h1
          rw [ddipCheck_spec hf.1] at ho
          cases hdq : dottedQuad (l :: m) with
          | none => rw [hdq] at ho; cases ho
          | some vs =>
            rw [hdq] at ho
            simp only [Option.some.injEq] at ho
            rw [← ho]
            split
            · exact ⟨vs, hdq, rfl⟩
            · trivial
        · rw [ddipCheck_other ht h1 h255] at ho
          cases ho
    · split
      · rw [hns]
        cases hc : z.closestNs (lowName (l :: m)) with
        | none => exact tail .nothing (by simp)
        | some v =>
          obtain ⟨apex, a, r⟩ := v
          cases a with
          | false => exact ⟨apex, hc⟩
          | true =>
            apply tail (.authority ((z.rr apex 6).map (·.2)))
            intro r' hr'
            injection hr' with hr'
            cases h6 : z.rr apex 6 with
            | none => rw [h6] at hr'; cases hr'
            | some v =>
              rw [h6] at hr'
              simp only [Option.map_some, Option.some.injEq] at hr'
              exact ⟨apex, v.1, r, hc, by rw [← hr']; exact h6⟩
      · exact tail .nothing (by simp)
  cases h0 : z.rr (lowName (l :: m)) 2 with
  | none => exact main
  | some v =>
    obtain ⟨a, r⟩ := v
    cases a with
    | false =>
      refine ⟨lowName (l :: m), ?_⟩
      unfold Zone.closestNs
      rw [upward_above, List.findSome?_cons, h0]
      rfl
    | true => exact main

theorem search_fair {h : Hash ρ} {z : Zone ρ} (s : Stores h z) {cfg : Cfg} (hz : cfg.defaultZone = false) (id : Nat) (rd : Bool)
    {q : Name} (hf : Fits q) (hq : q ≠ []) {t : Nat} (ht : t < 65536) (h255 : t ≠ 255) :
    Fair z q t (search cfg h id rd (key q t)) := by
  have hfl := hf.lower
  have hfr := fromNs_fair s hz id rd hf hq ht h255
  have heggs : ∀ o : Out ρ, Fair z q t o → Fair z q t (match cfg.egg (key q t) with
      | some true => .egg
      | some false => .error 2 true
      | .none => o) := by
    intro o ho
    split
    · trivial
    · trivial
    · exact ho
  unfold search
  rw [hz]
  simp only [Bool.false_eq_true, if_false]
  split
  · trivial
  split
  · exact heggs _ trivial
  rw [if_neg (by rw [getRtype_key q t ht]; simp [h255]), foldCase_key hf.1, s.rrNone hfl.1 ht]
  have next : Fair z q t (if cfg.dos > 0 then fromNs cfg h id rd (key q t) else
      (match cfg.egg (key q t) with
      | some true => .egg
      | some false => .error 2 true
      | .none => fromNs cfg h id rd (key q t))) := by
    split
    · exact hfr
    · exact heggs _ hfr
  cases h1 : z.rr (lowName q) t with
  | some v => exact ⟨v.1, Or.inl h1⟩
  | none =>
    simp only
    split
    · exact next
    · rw [changeRtype_key _ _ 5 (by omega)]
      simp only
      rw [s.rrNone hfl.1 (by omega)]
      cases h2 : z.rr (lowName q) 5 with
      | some v => exact ⟨v.1, Or.inr h2⟩
      | none => exact next

end Lookup
end Mara
