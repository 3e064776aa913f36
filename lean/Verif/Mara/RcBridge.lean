import Verif.Mara.RcModel
import Verif.Mara.JsSearch

/-!
# The searches of the configuration reader are those of the string library
-/

namespace Mara.Rc

open Mara.Js

theorem search_first (s : UInt8 → Bool) (x : List UInt8) (i : Nat) :
    (search s x i = -2 ∧ ∀ c ∈ x, s c = false) ∨
    ∃ j, ∃ h : j < x.length, search s x i = ((i + j : Nat) : Int) ∧ s x[j] = true ∧
      ∀ k, ∀ h : k < j, s (x[k]'(by omega)) = false := by
  induction x generalizing i with
  | nil => left; simp [search]
  | cons c x ih =>
    rw [search]
    by_cases hc : s c = true
    · right
      exact ⟨0, by simp, by rw [if_pos hc]; simp, by simpa using hc, by intro k h; omega⟩
    · rw [if_neg hc]
      have hc : s c = false := by simpa using hc
      rcases ih (i + 1) with ⟨h1, h2⟩ | ⟨j, hj, h1, h2, h3⟩
      · left
        refine ⟨h1, ?_⟩
        intro d hd
        rcases List.mem_cons.1 hd with rfl | hd
        · exact hc
        · exact h2 d hd
      · right
        refine ⟨j + 1, by simpa using hj, by rw [h1]; congr 1; omega, by simpa using h2, ?_⟩
        intro k hk
        cases k with
        | zero => simpa using hc
        | succ k => simpa using h3 k (by omega)

/-- Two answers to one search are the same. -/
theorem found_unique {P : Nat → Prop} {o : Nat} {a c : Int} (ha : Found P o a)
    (hc : Found P o c) : a = c := by
  cases a with
  | ofNat i =>
    cases c with
    | ofNat j =>
      obtain ⟨h1, h2, h3⟩ := ha
      obtain ⟨g1, g2, g3⟩ := hc
      by_cases e : i < j
      · exact absurd h2 (g3 i h1 e)
      · by_cases e' : j < i
        · exact absurd g2 (h3 j g1 e')
        · congr 1; omega
    | negSucc n => exact absurd ha.2.1 (hc.2 i ha.1)
  | negSucc m =>
    cases c with
    | ofNat j => exact absurd hc.2.1 (ha.2 j hc.1)
    | negSucc n => rw [ha.1, hc.1]

/-- `mt` is what `js_match_offset` (`want = true`) and `js_notmatch_offset` (`want = false`)
yield, from the start of the line or from a place in it. -/
theorem mt_js {e l : Js} (he : Ok e) (hl : Ok l) (h0 : 0 < e.count) (want : Bool) (o : Nat) :
    matchOffset want e l o =
      .ok (mt (fun c => decide (c ∈ e.contents) == want) l.contents o) := by
  obtain ⟨r, h1, h2⟩ := match_exact he hl h0 want o
  rw [h1]
  congr 1
  refine found_unique h2 ?_
  have hm : mt (fun c => decide (c ∈ e.contents) == want) l.contents (o : Int) =
      search (fun c => decide (c ∈ e.contents) == want) (l.contents.drop o) o := by
    have h : ¬ ((o : Int) < 0) := by omega
    simp [mt, h]
  rw [hm]
  have hit : ∀ j, ∀ h : j < l.contents.length,
      (Hit want e.contents l.contents j ↔
        (decide (l.contents[j] ∈ e.contents) == want) = true) := by
    intro j h
    constructor
    · rintro ⟨h', hh⟩
      cases want <;> simp_all
    · intro hh
      refine ⟨h, ?_⟩
      cases want <;> simp_all
  rcases search_first (fun c => decide (c ∈ e.contents) == want) (l.contents.drop o) o with
    ⟨g1, g2⟩ | ⟨j, hj, g1, g2, g3⟩
  · rw [g1]
    refine ⟨rfl, ?_⟩
    intro j hj hh
    obtain ⟨hlt, -⟩ := id hh
    have := g2 (l.contents[j]) (by
      rw [List.mem_drop_iff_getElem]
      exact ⟨j - o, by omega, by congr 1; omega⟩)
    rw [(hit j hlt).1 hh] at this
    cases this
  · rw [g1]
    simp only [List.length_drop] at hj
    refine ⟨by omega, (hit (o + j) (by omega)).2 (by simpa using g2), ?_⟩
    intro k hk hkj hh
    have := g3 (k - o) (by omega)
    have e1 : (l.contents.drop o)[k - o]'(by simp; omega) = l.contents[k]'(by omega) := by
      simp only [List.getElem_drop]; congr 1; omega
    rw [e1, (hit k (by omega)).1 hh] at this
    cases this

end Mara.Rc
