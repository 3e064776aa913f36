import Verif.Mara.BigHashLoad
/-!
# The main table against the records given to it: one more record
-/

namespace Mara
namespace Big

open Dw (Res)
open Lookup (getRtype changeRtype u16)
open Spec Given

variable {gs : List Given} {g : Given} {star : Bool} {n : Name} {t : Nat}

/-- The entry for a name and type, if the records have been given. -/
def entOf (gs : List Given) (star : Bool) (n : Name) (t : Nat) : Option Ent :=
  if gs.any (at? star n t) then
    some ⟨mark gs star n t, (sets gs star n t).map (·.2), (homeOf gs star n t).map encName⟩
  else none

/-- The record that counts as the first one. -/
def first (gs : List Given) (star : Bool) (n : Name) (t : Nat) (g : Given) : Bool :=
  at? star n t g && (decided g || !mark gs star n t)

theorem homeOf_eq : homeOf gs star n t = match gs.find? (first gs star n t) with
    | none => none
    | some g => if t ≠ 2 ∧ (gs.takeWhile fun x => !first gs star n t x).any (at? false g.zone 2) then some g.zone else none := rfl

theorem sets_eq : sets gs star n t = (if t = 2 then (kept gs star n t).take 1 ++ ((kept gs star n t).drop 1).reverse
    else kept gs star n t).map fun g => (g.type, g.data, g.ttl) := rfl

theorem kept_eq : kept gs star n t = if mark gs star n t then (gs.filter (at? star n t)).filter decided
    else gs.filter (at? star n t) := rfl

theorem at_iff : at? star n t g = true ↔ g.star = star ∧ g.name = n ∧ g.type = t := by
  unfold at?
  rw [decide_eq_true_iff]

theorem find_snoc_old {p : Given → Bool} (h : gs.any p = true) :
    (gs ++ [g]).find? p = gs.find? p ∧ ((gs ++ [g]).takeWhile fun x => !p x) = gs.takeWhile fun x => !p x := by
  induction gs with
  | nil => cases h
  | cons a l ih =>
    simp only [List.cons_append, List.find?_cons, List.takeWhile_cons]
    cases hp : p a with
    | true => simp
    | false =>
      rw [List.any_cons, hp, Bool.false_or] at h
      obtain ⟨h1, h2⟩ := ih h
      simp only [Bool.not_false, if_true]
      rw [h1, h2]
      exact ⟨rfl, rfl⟩

theorem find_snoc_new {p : Given → Bool} (h : gs.any p = false) (hg : p g = true) :
    (gs ++ [g]).find? p = some g ∧ ((gs ++ [g]).takeWhile fun x => !p x) = gs := by
  induction gs with
  | nil => simp [hg]
  | cons a l ih =>
    rw [List.any_cons, Bool.or_eq_false_iff] at h
    obtain ⟨h1, h2⟩ := ih h.2
    simp only [List.cons_append, List.find?_cons, List.takeWhile_cons, h.1, Bool.not_false, if_true]
    rw [h1, h2]
    exact ⟨rfl, rfl⟩

theorem find_snoc_none {p : Given → Bool} (h : gs.any p = false) (hg : p g = false) : (gs ++ [g]).find? p = none := by
  rw [List.find?_eq_none]
  intro x hx
  rcases List.mem_append.1 hx with hx | hx
  · rw [List.any_eq_false] at h
    exact h x hx
  · rw [List.mem_singleton.1 hx, hg]
    decide

/-- Records for other names and types. -/
theorem entOf_other (h : at? star n t g = false) : entOf (gs ++ [g]) star n t = entOf gs star n t := by
  have hf : (gs ++ [g]).filter (at? star n t) = gs.filter (at? star n t) := by
    rw [List.filter_append, List.filter_cons, h]
    simp
  have hm : mark (gs ++ [g]) star n t = mark gs star n t := by
    unfold mark
    rw [hf]
  have hk : kept (gs ++ [g]) star n t = kept gs star n t := by
    rw [kept_eq, kept_eq, hm, hf]
  have hs : sets (gs ++ [g]) star n t = sets gs star n t := by
    rw [sets_eq, sets_eq, hk]
  have hfirst : first (gs ++ [g]) star n t = first gs star n t := by
    funext x
    rw [first, first, hm]
  have hg : first gs star n t g = false := by rw [first, h, Bool.false_and]
  have hh : homeOf (gs ++ [g]) star n t = homeOf gs star n t := by
    rw [homeOf_eq, homeOf_eq, hfirst]
    cases ha : gs.any (first gs star n t) with
    | true =>
      obtain ⟨h1, h2⟩ := find_snoc_old (g := g) ha
      rw [h1, h2]
    | false =>
      rw [find_snoc_none ha hg]
      have : gs.find? (first gs star n t) = none := by
        rw [List.find?_eq_none]
        rw [List.any_eq_false] at ha
        exact ha
      rw [this]
  unfold entOf
  rw [hm, hs, hh, List.any_append]
  simp [h]

theorem filter_nil_of_any (h : gs.any (at? star n t) = false) : gs.filter (at? star n t) = [] := by
  rw [List.filter_eq_nil_iff]
  rwa [List.any_eq_false] at h

theorem any_first (h : gs.any (at? star n t) = true) : gs.any (first gs star n t) = true := by
  cases hm : mark gs star n t with
  | false =>
    have : first gs star n t = at? star n t := by
      funext x
      rw [first, hm]
      simp
    rw [this, h]
  | true =>
    have hm' := hm
    unfold mark at hm'
    rw [List.any_eq_true] at hm' ⊢
    obtain ⟨x, hx, hd⟩ := hm'
    obtain ⟨h1, h2⟩ := List.mem_filter.1 hx
    exact ⟨x, h1, by rw [first, h2, hd]; rfl⟩

/-- One more record for the same name and type. -/
theorem entOf_same (hg : at? star n t g = true) {e : Ent} (he : entOf gs star n t = some e) (hd : e.auth = g.decided) :
    entOf (gs ++ [g]) star n t = some { e with recs := insertRec t e.recs (g.data, g.ttl) } := by
  unfold entOf at he
  split at he
  · rename_i hany
    injection he with he
    subst he
    have hd : mark gs star n t = g.decided := hd
    have hf : (gs ++ [g]).filter (at? star n t) = gs.filter (at? star n t) ++ [g] := by
      rw [List.filter_append, List.filter_cons, hg]
      simp
    have hm : mark (gs ++ [g]) star n t = mark gs star n t := by
      unfold mark at hd ⊢
      rw [hf, List.any_append, hd]
      simp
    have hk : kept (gs ++ [g]) star n t = kept gs star n t ++ [g] := by
      rw [kept_eq, kept_eq, hm, hf]
      cases hmm : mark gs star n t with
      | false => simp
      | true =>
        rw [hmm] at hd
        simp [← hd]
    have hne : kept gs star n t ≠ [] := by
      rw [kept_eq]
      cases hmm : mark gs star n t with
      | false =>
        rw [List.any_eq_true] at hany
        obtain ⟨x, hx, h1⟩ := hany
        intro h0
        have : x ∈ gs.filter (at? star n t) := List.mem_filter.2 ⟨hx, h1⟩
        simp only [Bool.false_eq_true, if_false] at h0
        rw [h0] at this
        cases this
      | true =>
        unfold mark at hmm
        rw [List.any_eq_true] at hmm
        obtain ⟨x, hx, h1⟩ := hmm
        intro h0
        have : x ∈ (gs.filter (at? star n t)).filter decided := List.mem_filter.2 ⟨hx, h1⟩
        simp only [if_true] at h0
        rw [h0] at this
        cases this
    have hs : (sets (gs ++ [g]) star n t).map (·.2) = insertRec t ((sets gs star n t).map (·.2)) (g.data, g.ttl) := by
      rw [sets_eq, sets_eq, hk]
      obtain ⟨a, l, hl⟩ : ∃ a l, kept gs star n t = a :: l := by
        cases h : kept gs star n t with
        | nil => exact absurd h hne
        | cons a l => exact ⟨a, l, rfl⟩
      rw [hl]
      unfold insertRec
      split <;> simp
    have hfirst : first (gs ++ [g]) star n t = first gs star n t := by
      funext x
      rw [first, first, hm]
    have hh : homeOf (gs ++ [g]) star n t = homeOf gs star n t := by
      rw [homeOf_eq, homeOf_eq, hfirst]
      obtain ⟨h1, h2⟩ := find_snoc_old (g := g) (any_first hany)
      rw [h1, h2]
    unfold entOf
    rw [hm, hs, hh, List.any_append]
    simp [hany]
  · cases he

/-- A record that is the first one that counts. -/
theorem entOf_first (hg : at? star n t g = true) (h0 : gs.any (at? star n t) = false ∨ (mark gs star n t = false ∧ g.decided = true)) :
    entOf (gs ++ [g]) star n t = some ⟨g.decided, [(g.data, g.ttl)],
      if t ≠ 2 ∧ gs.any (at? false g.zone 2) then some (encName g.zone) else none⟩ := by
  have hf : (gs ++ [g]).filter (at? star n t) = gs.filter (at? star n t) ++ [g] := by
    rw [List.filter_append, List.filter_cons, hg]
    simp
  have hold : ∀ x ∈ gs.filter (at? star n t), decided x = false ∧ g.decided = true := by
    intro x hx
    rcases h0 with h0 | ⟨h0, h1⟩
    · rw [filter_nil_of_any h0] at hx
      cases hx
    · unfold mark at h0
      rw [List.any_eq_false] at h0
      exact ⟨by simpa using h0 x hx, h1⟩
  have hm : mark (gs ++ [g]) star n t = g.decided := by
    unfold mark
    rw [hf, List.any_append]
    have : (gs.filter (at? star n t)).any decided = false := by
      rw [List.any_eq_false]
      intro x hx
      rw [(hold x hx).1]
      decide
    rw [this]
    simp
  have hk : kept (gs ++ [g]) star n t = [g] := by
    rw [kept_eq, hm, hf]
    cases hmm : g.decided with
    | false =>
      have : gs.filter (at? star n t) = [] := by
        cases hl : gs.filter (at? star n t) with
        | nil => rfl
        | cons x l =>
          have := (hold x (by rw [hl]; exact List.mem_cons_self ..)).2
          rw [hmm] at this
          cases this
      rw [this]
      rfl
    | true =>
      have : (gs.filter (at? star n t)).filter decided = [] := by
        rw [List.filter_eq_nil_iff]
        intro x hx
        rw [(hold x hx).1]
        decide
      rw [if_pos rfl, List.filter_append, this]
      simp [hmm]
  have hs : (sets (gs ++ [g]) star n t).map (·.2) = [(g.data, g.ttl)] := by
    rw [sets_eq, hk]
    split <;> rfl
  have hno : gs.any (first (gs ++ [g]) star n t) = false := by
    rw [List.any_eq_false]
    intro x hx hp
    rw [first, Bool.and_eq_true, hm] at hp
    have h1 := hold x (List.mem_filter.2 ⟨hx, hp.1⟩)
    rw [h1.1, h1.2] at hp
    exact absurd hp.2 (by decide)
  have hgf : first (gs ++ [g]) star n t g = true := by
    rw [first, hg, hm]
    cases g.decided <;> rfl
  have hh : homeOf (gs ++ [g]) star n t = if t ≠ 2 ∧ gs.any (at? false g.zone 2) then some g.zone else none := by
    rw [homeOf_eq]
    obtain ⟨h1, h2⟩ := find_snoc_new hno hgf
    rw [h1, h2]
  unfold entOf
  rw [hm, hs, hh, List.any_append]
  have : [g].any (at? star n t) = true := by simp [hg]
  rw [this, Bool.or_true, if_pos rfl]
  congr 2
  split <;> rfl

/-- A record of a zone that does not decide on the name, where there are others that do. -/
theorem entOf_ignored (hg : at? star n t g = true) (hm : mark gs star n t = true) (hd : g.decided = false) :
    entOf (gs ++ [g]) star n t = entOf gs star n t := by
  have hf : (gs ++ [g]).filter (at? star n t) = gs.filter (at? star n t) ++ [g] := by
    rw [List.filter_append, List.filter_cons, hg]
    simp
  have hm' : mark (gs ++ [g]) star n t = mark gs star n t := by
    rw [hm]
    unfold mark at hm ⊢
    rw [hf, List.any_append, hm]
    rfl
  have hany : gs.any (at? star n t) = true := by
    unfold mark at hm
    rw [List.any_eq_true] at hm ⊢
    obtain ⟨x, hx, _⟩ := hm
    exact ⟨x, (List.mem_filter.1 hx).1, (List.mem_filter.1 hx).2⟩
  have hk : kept (gs ++ [g]) star n t = kept gs star n t := by
    rw [kept_eq, kept_eq, hm', hf, hm, if_pos rfl, if_pos rfl, List.filter_append]
    simp [hd]
  have hs : sets (gs ++ [g]) star n t = sets gs star n t := by
    rw [sets_eq, sets_eq, hk]
  have hfirst : first (gs ++ [g]) star n t = first gs star n t := by
    funext x
    rw [first, first, hm']
  have hh : homeOf (gs ++ [g]) star n t = homeOf gs star n t := by
    rw [homeOf_eq, homeOf_eq, hfirst]
    obtain ⟨h1, h2⟩ := find_snoc_old (g := g) (any_first hany)
    rw [h1, h2]
  unfold entOf
  rw [hm', hs, hh, List.any_append]
  simp [hany]

/-- The zone that a set of records belongs to is that of one of them. -/
theorem homeOf_mem {z : Name} (h : homeOf gs star n t = some z) : ∃ x ∈ gs, x.zone = z ∧ x.type ≠ 2 := by
  rw [homeOf_eq] at h
  split at h
  · cases h
  · rename_i x hx
    split at h
    · rename_i hc
      injection h with h
      have h1 := List.mem_of_find?_eq_some hx
      have h2 := List.find?_some hx
      rw [first, Bool.and_eq_true, at_iff] at h2
      exact ⟨x, h1, h, by rw [h2.1.2.2]; exact hc.1⟩
    · cases h

theorem homeOf_ns {z : Name} (h : homeOf gs star n t = some z) : t ≠ 2 ∧ gs.any (at? false z 2) = true := by
  rw [homeOf_eq] at h
  split at h
  · cases h
  · split at h
    · rename_i x hx hc
      injection h with h
      subst h
      refine ⟨hc.1, ?_⟩
      have h2 := hc.2
      rw [List.any_eq_true] at h2 ⊢
      obtain ⟨y, hy, h3⟩ := h2
      exact ⟨y, (List.takeWhile_prefix _).subset hy, h3⟩
    · cases h

end Big
end Mara
