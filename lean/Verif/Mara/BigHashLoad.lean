import Verif.Mara.BigHashAdd
import Verif.Spec.Load
/-!
# The main table against the records given to it: names
-/

namespace Mara
namespace Big

open Dw (Res)
open Lookup (getRtype changeRtype u16)
open Spec

/-- The way names are stored: a star is an underscore. -/
def base (star : Bool) (n : Name) : List UInt8 := if star then 95 :: encName n else encName n

/-- Names whose labels have bytes other than 0 only, as those in zone files. -/
def Clean (n : Name) : Prop := LabelsOk n ∧ ∀ l ∈ n, (0 : UInt8) ∉ l

theorem encName_inj : ∀ {a b : Name} {r s : List UInt8}, LabelsOk a → LabelsOk b → encName a ++ r = encName b ++ s →
    a = b ∧ r = s
  | [], [], r, s, _, _, h => by
    rw [Lookup.encName_nil] at h
    injection h with _ h
    exact ⟨rfl, h⟩
  | [], l :: b, r, s, _, hb, h => by
    rw [Lookup.encName_nil, Lookup.encName_cons] at h
    injection h with h _
    have := hb l (List.mem_cons_self ..)
    have := congrArg UInt8.toNat h
    rw [Lookup.ofNat_len (by omega)] at this
    have h0 : (0 : UInt8).toNat = 0 := rfl
    omega
  | l :: a, [], r, s, ha, _, h => by
    rw [Lookup.encName_nil, Lookup.encName_cons] at h
    injection h with h _
    have := ha l (List.mem_cons_self ..)
    have := congrArg UInt8.toNat h
    rw [Lookup.ofNat_len (by omega)] at this
    have h0 : (0 : UInt8).toNat = 0 := rfl
    omega
  | l :: a, m :: b, r, s, ha, hb, h => by
    rw [Lookup.encName_cons, Lookup.encName_cons] at h
    simp only [List.cons_append, List.append_assoc] at h
    injection h with h1 h2
    have hl := ha l (List.mem_cons_self ..)
    have hm := hb m (List.mem_cons_self ..)
    have h1 := congrArg UInt8.toNat h1
    rw [Lookup.ofNat_len hl.2, Lookup.ofNat_len hm.2] at h1
    obtain ⟨e1, e2⟩ := List.append_inj h2 h1
    obtain ⟨e3, e4⟩ := encName_inj (fun x hx => ha x (List.mem_cons_of_mem _ hx)) (fun x hx => hb x (List.mem_cons_of_mem _ hx)) e2
    exact ⟨by rw [e1, e3], e4⟩

theorem encName_head {n : Name} (h : LabelsOk n) : ∃ c l, encName n = c :: l ∧ c < 64 ∧ c ≠ 95 := by
  cases n with
  | nil => exact ⟨0, [], rfl, by decide, by decide⟩
  | cons l n =>
    rw [Lookup.encName_cons]
    have hl := h l (List.mem_cons_self ..)
    have key : ∀ m : Fin 64, UInt8.ofNat m < 64 ∧ UInt8.ofNat m ≠ 95 := by decide +kernel
    exact ⟨_, _, rfl, key ⟨l.length, by omega⟩⟩

theorem base_inj {a b : Bool} {n m : Name} (hn : LabelsOk n) (hm : LabelsOk m) (h : base a n = base b m) : a = b ∧ n = m := by
  obtain ⟨c, l, e, _, hc⟩ := encName_head hn
  obtain ⟨d, l', e', _, hd⟩ := encName_head hm
  unfold base at h
  cases a <;> cases b <;> simp only [Bool.false_eq_true, if_false, if_true] at h
  · exact ⟨rfl, (encName_inj (r := []) (s := []) hn hm (by rw [h])).1⟩
  · rw [e] at h
    injection h with h
    exact absurd h hc
  · rw [e'] at h
    injection h with h
    exact absurd h.symm hd
  · injection h with _ h
    exact ⟨rfl, (encName_inj (r := []) (s := []) hn hm (by rw [h])).1⟩

theorem encLabels_ne {n : Name} (h : Clean n) : (0 : UInt8) ∉ encLabels n := by
  intro h0
  rw [encLabels, List.mem_flatMap] at h0
  obtain ⟨l, hl, h1⟩ := h0
  rcases List.mem_cons.1 h1 with h1 | h1
  · have := h.1 l hl
    have h1 := congrArg UInt8.toNat h1
    rw [Lookup.ofNat_len this.2] at h1
    have h0 : (0 : UInt8).toNat = 0 := rfl
    omega
  · exact h.2 l hl h1

/-- A name can be found in a longer one only at its end. -/
theorem fgrep_end {pre z : List UInt8} {t : Nat} (hp : (0 : UInt8) ∉ pre ++ z) :
    fgrep (z ++ [0] ++ u16 t) (pre ++ (z ++ [0] ++ u16 t)) = some pre.length := by
  unfold fgrep
  rw [List.find?_range_eq_some]
  refine ⟨?_, ?_, ?_⟩
  · rw [List.drop_left, List.take_length]
    simp
  · rw [List.mem_range]
    simp only [List.length_append]
    omega
  · intro j hj
    simp only [Bool.not_eq_true', beq_eq_false_iff_ne, ne_eq]
    intro h
    have hget := congrArg (fun l => l[z.length]?) h
    have hlen : z.length < (z ++ [0] ++ u16 t).length := by simp
    rw [List.getElem?_take_of_lt hlen, List.getElem?_drop] at hget
    have h1 : (z ++ [0] ++ u16 t)[z.length]? = some 0 := by simp
    rw [h1] at hget
    have h2 : (pre ++ (z ++ [0] ++ u16 t))[j + z.length]? = (pre ++ z)[j + z.length]? := by
      rw [List.append_assoc z, ← List.append_assoc pre, List.getElem?_append_left]
      rw [List.length_append]
      omega
    rw [h2] at hget
    exact hp (List.mem_of_getElem? hget)

theorem fgrep_some {e l : List UInt8} {i : Nat} (h : fgrep e l = some i) : (l.drop i).take e.length = e := by
  unfold fgrep at h
  have := List.find?_some h
  simpa using this

/-- The model of the decision whether a zone decides on a record. -/
theorem authority_ok (g : Given) (hn : Clean g.name) (hz : Clean g.zone) (ht : g.type < 65536) :
    authority (enc (base g.star g.name, g.type)) (enc (encName g.zone, 2)) = some g.decided := by
  obtain ⟨star, n, t, data, ttl, z⟩ := g
  simp only at hn hz ht
  have hb : 1 ≤ (base star n).length := by
    have := Lookup.encName_pos n
    unfold base
    split
    · simp
    · exact this
  have hct : changeRtype (enc (encName z, 2)) t = some (enc (encName z, t)) :=
    Lookup.changeRtype_app _ (Lookup.encName_pos z) 2 t ht
  have heq : enc (encName z, t) = enc (base star n, t) ↔ star = false ∧ n = z := by
    constructor
    · intro h
      have h1 := enc_inj (k := (encName z, t)) (k' := (base star n, t)) ht ht h
      have h2 : base false z = base star n := congrArg Prod.fst h1
      obtain ⟨h3, h4⟩ := base_inj hz.1 hn.1 h2
      exact ⟨h3.symm, h4.symm⟩
    · rintro ⟨h1, h2⟩
      subst h1 h2
      rfl
  have hz0 := encLabels_ne hz
  have hdrop : ∀ {pre rest : List UInt8}, (enc (encName z, t)).length + pre.length = (pre ++ (rest ++ u16 t)).length →
      fgrep (enc (encName z, t)) (pre ++ (rest ++ u16 t)) = some pre.length → encName z = rest := by
    intro pre rest hl hf
    have h1 := fgrep_some hf
    rw [List.drop_left] at h1
    rw [List.length_append] at hl
    rw [List.take_of_length_le (by omega)] at h1
    exact (List.append_inj' h1 (by simp [u16])).1.symm
  have hgt : getRtype (enc (base star n, t)) = some t := getRtype_app _ hb ht
  show authority (enc (base star n, t)) (enc (encName z, 2)) = _
  unfold authority
  rw [hgt]
  simp only
  rw [hct]
  simp only
  by_cases h1 : enc (encName z, t) = enc (base star n, t)
  · rw [if_pos h1]
    obtain ⟨h2, h3⟩ := heq.1 h1
    subst h2 h3
    simp [Given.decided]
  · rw [if_neg h1]
    by_cases h2 : t = 2
    · rw [if_pos h2]
      have h3 : ¬ (star = false ∧ n = z) := fun h => h1 (heq.2 h)
      cases star
      · have : n ≠ z := fun h => h3 ⟨rfl, h⟩
        simp [Given.decided, h2, this]
      · simp [Given.decided, h2]
    · rw [if_neg h2]
      cases star with
      | true =>
        have hq : enc (base true n, t) = 95 :: (encName n ++ u16 t) := rfl
        rw [hq]
        simp only [if_true]
        congr 1
        simp only [Given.decided, if_true]
        rw [decide_eq_decide]
        constructor
        · rintro ⟨h3, h4⟩
          have := hdrop (pre := [95]) (rest := encName n) (by simpa using h3) h4
          exact ⟨h2, (encName_inj (r := []) (s := []) hn.1 hz.1 (by rw [this])).1⟩
        · rintro ⟨_, h4⟩
          subst h4
          refine ⟨by simp [enc, u16], ?_⟩
          have := fgrep_end (pre := [95]) (z := encLabels n) (t := t) (by simpa using hz0)
          exact this
      | false =>
        cases n with
        | nil =>
          have hq : enc (base false [], t) = 0 :: u16 t := rfl
          rw [hq]
          have h95 : (0 : UInt8) ≠ 95 := by decide
          have h64 : (0 : UInt8) < 64 := by decide
          simp only
          rw [if_neg h95, if_pos h64]
          congr 1
          have hz' : z ≠ [] := fun h => h1 (heq.2 ⟨rfl, h.symm⟩)
          have hl : ¬ ((enc (encName z, t)).length + ((0 : UInt8).toNat + 1) = (0 :: u16 t).length) := by
            have := Lookup.encName_pos z
            have h0 : (0 : UInt8).toNat = 0 := rfl
            have h3 : (u16 t).length = 2 := rfl
            have h4 : (enc (encName z, t)).length = (encName z).length + 2 := by
              show (encName z ++ u16 t).length = _
              rw [List.length_append, h3]
            rw [h4, List.length_cons, h3, h0]
            omega
          rw [decide_eq_false (fun h => hl h.1)]
          simp [Given.decided, Ne.symm hz']
        | cons l n =>
          have hl := hn.1 l (List.mem_cons_self ..)
          have hq : enc (base false (l :: n), t) = (UInt8.ofNat l.length :: l) ++ (encName n ++ u16 t) := by
            show encName (l :: n) ++ u16 t = _
            rw [Lookup.encName_cons]
            simp
          have key : ∀ m : Fin 64, UInt8.ofNat m < 64 ∧ UInt8.ofNat m ≠ 95 := by decide +kernel
          obtain ⟨k1, k2⟩ := key ⟨l.length, by omega⟩
          simp only at k1 k2
          rw [hq, List.cons_append]
          simp only
          rw [if_neg k2, if_pos k1, Lookup.ofNat_len hl.2, ← List.cons_append]
          congr 1
          have hne : l :: n ≠ z := fun h => h1 (heq.2 ⟨rfl, h⟩)
          simp only [Given.decided, Bool.false_eq_true, if_false]
          rw [decide_eq_decide]
          constructor
          · rintro ⟨h3, h4⟩
            have := hdrop (pre := UInt8.ofNat l.length :: l) (rest := encName n) (by simpa using h3) (by simpa using h4)
            refine .inr ⟨h2, by simp, ?_⟩
            exact (encName_inj (r := []) (s := []) (fun x hx => hn.1 x (List.mem_cons_of_mem _ hx)) hz.1 (by rw [this])).1
          · rintro (h | ⟨_, _, h4⟩)
            · exact absurd h hne
            · have h4 : n = z := h4
              subst h4
              refine ⟨by simp [enc, u16]; omega, ?_⟩
              have hpre : (0 : UInt8) ∉ (UInt8.ofNat l.length :: l) ++ encLabels n := by
                have := encLabels_ne hn
                rwa [encLabels, List.flatMap_cons] at this
              exact fgrep_end (t := t) hpre

end Big
end Mara
