import Verif.Mara.LookupExact
import Verif.Mara.LookupFront
import Verif.Mara.BigHashLoad
/-!
# Lemmas: what the authoritative server looks for when the question is no name

`dlabel_length` ends a name not only at the root, but also at a pointer and at a star (Queries.c:48-65), so
the server looks for bytes that are no name at all.
-/

namespace Mara
namespace Lookup

open Dw (Res)
open Spec

/-- Bytes that are taken for a name and are none. -/
inductive Odd : List UInt8 → Prop
  | star : Odd [95]
  | pointer {c d : UInt8} : 192 ≤ c → Odd [c, d]
  | label {l r : List UInt8} : 0 < l.length → l.length < 64 → Odd r → Odd (UInt8.ofNat l.length :: (l ++ r))

theorem labelsOk_cons {l : List UInt8} {ls : Name} (h0 : 0 < l.length) (h1 : l.length < 64) (h : LabelsOk ls) : LabelsOk (l :: ls) := by
  intro x hx
  rcases List.mem_cons.1 hx with rfl | hx
  · exact ⟨by omega, by omega⟩
  · exact h x hx

theorem byte_len : ∀ c : UInt8, ¬c > 63 → UInt8.ofNat c.toNat = c ∧ c.toNat < 64 := by
  intro c hc
  refine ⟨by simp, ?_⟩
  have : ¬ (63 : UInt8).toNat < c.toNat := hc
  have h63 : (63 : UInt8).toNat = 63 := rfl
  omega

/-- What `dlabel_length` accepts is a name, or odd. -/
theorem dlabel_reads (l : List UInt8) (o : Nat) : ∀ (n k m : Nat), dlabel l o n k = some m → m ≤ 255 → m + o ≤ l.length →
    k < m ∧ ((∃ ls, LabelsOk ls ∧ (l.drop (k + o)).take (m - k) = encName ls) ∨ Odd ((l.drop (k + o)).take (m - k)))
  | 0, _, _, h, _, _ => by unfold dlabel at h; cases h
  | n + 1, k, m, h, hm, hl => by
    unfold dlabel at h
    cases hc : l[k + o]? with
    | none => rw [hc] at h; cases h
    | some c =>
      rw [hc] at h
      simp only at h
      have hlt : k + o < l.length := (List.getElem?_eq_some_iff.1 hc).1
      have hdrop : l.drop (k + o) = c :: l.drop (k + o + 1) := by
        rw [List.drop_eq_getElem_cons hlt, (List.getElem?_eq_some_iff.1 hc).2]
      by_cases h1 : k < 256 ∧ c > 0 ∧ c ≠ 95
      · rw [if_pos h1] at h
        by_cases h2 : c ≥ 192
        · rw [if_pos h2] at h
          split at h
          · rename_i hk2
            injection h with h
            subst h
            have hlt2 : k + o + 1 < l.length := by omega
            refine ⟨by omega, .inr ?_⟩
            rw [hdrop, List.drop_eq_getElem_cons hlt2, show k + 2 - k = 2 by omega]
            exact .pointer h2
          · cases h
        · rw [if_neg h2] at h
          by_cases h3 : c > 63
          · rw [if_pos h3] at h; cases h
          · rw [if_neg h3] at h
            obtain ⟨hlt', ih⟩ := dlabel_reads l o n _ m h hm hl
            obtain ⟨hb, hb64⟩ := byte_len c h3
            have hpos : 0 < c.toNat := by
              have : (0 : UInt8).toNat < c.toNat := h1.2.1
              simpa using this
            have e : (l.drop (k + o)).take (m - k) =
                c :: ((l.drop (k + o + 1)).take c.toNat ++ (l.drop (k + c.toNat + 1 + o)).take (m - (k + c.toNat + 1))) := by
              rw [hdrop, show m - k = (c.toNat + (m - (k + c.toNat + 1))) + 1 by omega, List.take_succ_cons, List.take_add, List.drop_drop]
              congr 4
              omega
            have hlen : ((l.drop (k + o + 1)).take c.toNat).length = c.toNat := by
              rw [List.length_take, List.length_drop]; omega
            refine ⟨by omega, ?_⟩
            rcases ih with ⟨ls, hls, he⟩ | hod
            · refine .inl ⟨(l.drop (k + o + 1)).take c.toNat :: ls, labelsOk_cons (by omega) (by omega) hls, ?_⟩
              rw [encName_cons, hlen, hb, ← he, e]
            · refine .inr ?_
              have := Odd.label (l := (l.drop (k + o + 1)).take c.toNat) (by omega) (by omega) hod
              rw [hlen, hb] at this
              rw [e]
              exact this
      · rw [if_neg h1] at h
        injection h with h
        subst h
        refine ⟨by omega, ?_⟩
        rw [hdrop, show k + 1 - k = 1 by omega, List.take_succ_cons, List.take_zero]
        by_cases h95 : c = 95
        · rw [h95]; exact .inr .star
        · have hc0 : c = 0 := by
            by_contra hne
            exact h1 ⟨by omega, by
              show (0 : UInt8).toNat < c.toNat
              have : c.toNat ≠ 0 := fun e => hne (UInt8.toNat_inj.1 (by simpa using e))
              simp only [UInt8.toNat_zero]
              omega, h95⟩
          rw [hc0]
          exact .inl ⟨[], ⟨fun _ h => (by cases h), rfl⟩⟩

/-- All that is stored is stored under a name or a star. -/
def Only (h : Hash ρ) : Prop := ∀ l v, h l = some v → ∃ n t, LabelsOk n ∧ (l = encName n ++ u16 t ∨ l = 95 :: (encName n ++ u16 t))

theorem small_head (c : UInt8) (h : 192 ≤ c) : ¬ c < 64 ∧ c ≠ 95 ∧ c > 63 ∧ Js.lower c = c := by
  have h : 192 ≤ c.toNat := h
  have h2 : ¬ c < 64 := fun h' => by
    have h' : c.toNat < 64 := h'
    omega
  refine ⟨h2, ?_, ?_, ?_⟩
  · intro e
    rw [e] at h
    exact absurd h (by decide)
  · show 63 < c.toNat
    omega
  · unfold Js.lower
    rw [if_neg]
    rintro ⟨_, h'⟩
    have h' : c.toNat ≤ 90 := h'
    omega

theorem small_len : ∀ n : Fin 64, UInt8.ofNat n < 64 ∧ UInt8.ofNat n ≠ 95 ∧ (UInt8.ofNat n).toNat = n ∧ ¬ UInt8.ofNat n > 63 := by decide +kernel

theorem Odd.ne {b : List UInt8} (h : Odd b) : ∀ {n : Name}, LabelsOk n → b ≠ encName n := by
  induction h with
  | star =>
    intro n hn e
    obtain ⟨c, l, e', _, hc⟩ := Big.encName_head hn
    rw [e'] at e
    injection e with e
    exact hc e.symm
  | @pointer c d hc =>
    intro n hn e
    obtain ⟨c', l, e', hc', _⟩ := Big.encName_head hn
    rw [e'] at e
    injection e with e
    subst e
    exact (small_head c hc).1 hc'
  | @label l r h0 h1 _ ih =>
    intro n hn e
    cases n with
    | nil =>
      rw [encName_nil] at e
      have := congrArg List.length e
      simp only [List.length_cons, List.length_append, List.length_nil] at this
      omega
    | cons x n =>
      rw [encName_cons] at e
      injection e with e1 e2
      have hx := hn.head
      have hl : l.length = x.length := by
        have a := (small_len ⟨l.length, h1⟩).2.2.1
        have b := (small_len ⟨x.length, by omega⟩).2.2.1
        simp only at a b
        rw [← a, ← b, e1]
      exact ih hn.tail (List.append_inj e2 hl).2

theorem Odd.ne_star {b : List UInt8} (h : Odd b) {n : Name} (_ : LabelsOk n) : b ≠ 95 :: encName n := by
  intro e
  have hp := encName_pos n
  cases h with
  | star => injection e with _ e; rw [← e] at hp; simp at hp
  | @pointer c d hc => injection e with e; exact (small_head c hc).2.1 e
  | @label l r h0 h1 _ => injection e with e; exact (small_len ⟨l.length, h1⟩).2.1 e

theorem Odd.lower {b : List UInt8} (h : Odd b) : Odd (b.map Js.lower) := by
  induction h with
  | star => exact .star
  | @pointer c d hc =>
    rw [List.map_cons, List.map_cons, List.map_nil, (small_head c hc).2.2.2]
    exact .pointer hc
  | @label l r h0 h1 _ ih =>
    rw [List.map_cons, List.map_append, lower_len ⟨l.length, h1⟩]
    have := Odd.label (l := l.map Js.lower) (by simpa using h0) (by simpa using h1) ih
    rwa [List.length_map] at this

theorem Odd.pos {b : List UInt8} (h : Odd b) : 1 ≤ b.length := by cases h <;> simp

section
variable {h : Hash ρ}

theorem Only.miss (ho : Only h) {l : List UInt8} (hl : ∀ n t, LabelsOk n → l ≠ encName n ++ u16 t ∧ l ≠ 95 :: (encName n ++ u16 t)) : h l = none := by
  cases hv : h l with
  | none => rfl
  | some v =>
    obtain ⟨n, t, hn, e | e⟩ := ho l v hv
    · exact absurd e (hl n t hn).1
    · exact absurd e (hl n t hn).2

theorem Only.short (ho : Only h) {l : List UInt8} (hl : l.length < 3) : h l = none := by
  refine ho.miss fun n _ _ => ?_
  have := encName_pos n
  constructor <;> intro e <;> rw [e] at hl <;> simp [u16] at hl <;> omega

theorem tail_eq {b : List UInt8} {x y : UInt8} {e : List UInt8} {t : Nat} (h : b ++ [x, y] = e ++ u16 t) : b = e :=
  (List.append_inj' h rfl).1

theorem Only.odd (ho : Only h) {b : List UInt8} (hb : Odd b) (x y : UInt8) : h (b ++ [x, y]) = none :=
  ho.miss fun n t hn => ⟨fun e => hb.ne hn (tail_eq e), fun e => hb.ne_star hn (tail_eq (e := 95 :: encName n) e)⟩

/-- What is looked for among the stars when the question is odd or for the root. -/
inductive Lost : List UInt8 → Prop
  | odd {b : List UInt8} (x y : UInt8) : Odd b → Lost (95 :: (b ++ [x, y]))
  | short (x y : UInt8) : Lost [95, x, y]
  | one : Lost [95]

theorem Only.lost (ho : Only h) {l : List UInt8} (hl : Lost l) : h l = none := by
  cases hl with
  | odd x y hb =>
    refine ho.miss fun n t hn => ⟨fun e => ?_, fun e => ?_⟩
    · obtain ⟨c, l, e', _, hc⟩ := Big.encName_head hn
      rw [e'] at e
      injection e with e
      exact hc e.symm
    · injection e with _ e
      exact hb.ne hn (tail_eq e)
  | short x y =>
    refine ho.miss fun n t hn => ⟨fun e => ?_, fun e => ?_⟩
    · obtain ⟨c, l, e', _, hc⟩ := Big.encName_head hn
      rw [e'] at e
      injection e with e
      exact hc e.symm
    · have := congrArg List.length e
      have hp := encName_pos n
      simp only [u16, List.length_cons, List.length_append, List.length_nil] at this
      omega
  | one => exact ho.short (by simp)

theorem Lost.change {l l' : List UInt8} (hl : Lost l) {t : Nat} (h : changeRtype l t = some l') : Lost l' := by
  unfold changeRtype at h
  split at h
  · cases h
  split at h
  · cases h
  injection h with h
  subst h
  cases hl with
  | @odd b x y hb =>
    have e : (95 :: (b ++ [x, y])).length - 2 = (95 :: b).length := by simp
    rw [e, show 95 :: (b ++ [x, y]) = (95 :: b) ++ [x, y] from rfl, List.take_left]
    exact .odd _ _ hb
  | short x y => exact .short _ _
  | one => simp at *

theorem Lost.up {l l' : List UInt8} {n : Nat} (hl : Lost l) (h : bobbitStar l = .done n l') : Lost l' := by
  unfold bobbitStar at h
  split at h
  · cases h
  cases hl with
  | @odd b x y hb =>
    cases hb with
    | star => simp at h
    | @pointer c d hc =>
      have : c > 63 := (small_head c hc).2.2.1
      simp [this] at h
    | @label m r h0 h1 hr =>
      obtain ⟨_, _, hn, hgt⟩ := small_len ⟨m.length, h1⟩
      simp only at hn hgt
      simp only [List.cons_append, ne_eq, not_true_eq_false, if_false] at h
      split at h
      · cases h
      split at h
      · cases h
      injection h with _ h
      subst h
      rw [hn, List.drop_succ_cons, List.drop_succ_cons, List.append_assoc, List.drop_left]
      exact .odd x y hr
  | short x y =>
    simp only [ne_eq, not_true_eq_false, if_false] at h
    split at h
    · cases h
    split at h
    · cases h
    rename_i h2 h3
    injection h with _ h
    subst h
    have : x.toNat = 1 := by
      have hx : x.toNat ≠ 0 := fun e => h3 (UInt8.toNat_inj.1 (by simpa using e))
      simp only [List.length_cons, List.length_nil, not_or] at h2
      omega
    rw [this]
    exact .one
  | one => cases h

theorem starAbove_lost (ho : Only h) {cfg : Cfg} (hb : cfg.bindStar = 1) (soa : Option ρ) (orig : List UInt8) : ∀ (n : Nat) (look : List UInt8) (ant : Nat),
    Lost look → starAbove cfg h soa orig n look ant = .go ant ∨ starAbove cfg h soa orig n look ant = .out (.error 2 true)
  | 0, _, _, _ => .inl rfl
  | n + 1, look, ant, hl => by
    unfold starAbove
    cases hs : bobbitStar look with
    | err => exact .inl rfl
    | zero l => exact .inl rfl
    | done m l =>
      have hl' := hl.up hs
      simp only [ho.lost hl', rrOf]
      rw [if_pos (by omega)]
      cases hc : changeRtype l 255 with
      | none => exact .inr rfl
      | some l2 =>
        simp only [ho.lost (hl'.change hc), isList, Bool.false_eq_true, if_false]
        rw [if_neg (by omega)]
        exact starAbove_lost ho hb soa orig n l ant hl'

theorem cnameAbove_lost (ho : Only h) {cfg : Cfg} (hb : cfg.bindStar = 1) (orig : List UInt8) : ∀ (n : Nat) (look : List UInt8) (ant : Nat),
    Lost look → cnameAbove cfg h orig n look ant = .go ant ∨ cnameAbove cfg h orig n look ant = .out (.error 2 true)
  | 0, _, _, _ => .inl rfl
  | n + 1, look, ant, hl => by
    unfold cnameAbove
    cases hs : bobbitStar look with
    | err => exact .inl rfl
    | zero l => exact .inl rfl
    | done m l =>
      have hl' := hl.up hs
      simp only
      rw [if_pos (by omega)]
      cases hc : changeRtype l 255 with
      | none => exact .inr rfl
      | some l2 =>
        simp only [ho.lost (hl'.change hc), isList, Bool.false_eq_true, if_false, rrOf, Option.getD_none]
        exact cnameAbove_lost ho hb orig n l ant hl'

/-- No star is found. -/
theorem stars_lost (ho : Only h) {cfg : Cfg} (hb : cfg.bindStar = 1) (soa : Option ρ) {orig : List UInt8} (ant : Nat)
    (hm : ∀ l, (makeStar (foldCase orig) = .zero l ∨ ∃ n, makeStar (foldCase orig) = .done n l) → Lost l) :
    (∃ a, stars cfg h soa orig ant = .go a) ∨ stars cfg h soa orig ant = .out (.error 2 true) := by
  have hrest : ∀ (look : List UInt8), Lost look → ∀ (X : Step ρ), X = (match rrOf (h look) with
          | some (_, r) => .out (.star r orig 0)
          | .none =>
            let ant : Option Nat :=
              if cfg.bindStar ≥ 1 then
                (changeRtype look 255).map fun l => if isList (h l) then 4 else ant
              else some ant
            match ant with
            | .none => .out (.error 2 true)
            | some ant =>
              let above : Step ρ :=
                match starAbove cfg h soa orig 256 look ant with
                | .out o => .out o
                | .go ant =>
                  if cfg.dos > 7 then .go ant
                  else
                    match changeRtype look 5 with
                    | .none => .out (.error 2 true)
                    | some look =>
                      match rrOf (h look) with
                      | some (_, r) =>
                        match changeRtype orig 5 with
                        | .none => .out (.error 2 true)
                        | some s => .out (.star r s 0)
                      | .none => cnameAbove cfg h orig 256 look ant
              if cfg.bindStar = 2 then
                match collision h look with
                | .none => .out (.error 2 true)
                | some true => .out (notFound h soa orig ant)
                | some false => above
              else above) → (∃ a, X = .go a) ∨ X = .out (.error 2 true) := by
    rintro look hl X rfl
    simp only [ho.lost hl, rrOf]
    rw [if_pos (by omega)]
    cases hc : changeRtype look 255 with
    | none => exact .inr rfl
    | some l2 =>
      simp only [Option.map_some]
      rw [if_neg (by omega)]
      rcases starAbove_lost ho hb soa orig 256 look (if isList (h l2) = true then 4 else ant) hl with e | e
      · rw [e]
        simp only
        split
        · exact .inl ⟨_, rfl⟩
        · cases hc5 : changeRtype look 5 with
          | none => exact .inr rfl
          | some l5 =>
            simp only [ho.lost (hl.change hc5)]
            rcases cnameAbove_lost ho hb orig 256 l5 (if isList (h l2) = true then 4 else ant) (hl.change hc5) with e | e
            · rw [e]; exact .inl ⟨_, rfl⟩
            · rw [e]; exact .inr rfl
      · rw [e]; exact .inr rfl
  unfold stars
  split
  · exact .inl ⟨_, rfl⟩
  rw [if_pos (by omega)]
  cases hc : changeRtype (foldCase orig) 255 with
  | none => exact .inr rfl
  | some l =>
    simp only [Option.map_some]
    split
    · exact .inl ⟨_, rfl⟩
    cases hk : makeStar (foldCase orig) with
    | err => exact .inr rfl
    | zero look => exact hrest look (hm look (.inl hk)) _ rfl
    | done n look => exact hrest look (hm look (.inr ⟨n, hk⟩)) _ rfl

theorem changeRtype_two {b : List UInt8} (hb : 1 ≤ b.length) (x y : UInt8) {t : Nat} (ht : t < 65536) :
    changeRtype (b ++ [x, y]) t = some (b ++ [UInt8.ofNat (t / 256), UInt8.ofNat t]) := by
  unfold changeRtype
  have h1 : (b ++ [x, y]).length = b.length + 2 := by simp
  rw [if_neg (by omega), if_neg (by omega), h1, Nat.add_sub_cancel, List.take_left]

theorem foldCase_two (b : List UInt8) (x y : UInt8) : foldCase (b ++ [x, y]) = b.map Js.lower ++ [x, y] := by
  unfold foldCase
  have h1 : (b ++ [x, y]).length - 2 = b.length := by simp
  rw [h1, List.take_left, List.drop_left]

/-- Nothing is found above what is odd. -/
theorem nsWalk_odd (ho : Only h) (x y : UInt8) (hx : x = 0) : ∀ (n : Nat) {b : List UInt8}, Odd b → nsWalk h n (b ++ [x, y]) = .nothing
  | 0, _, _ => rfl
  | n + 1, b, hb => by
    unfold nsWalk
    simp only [ho.odd hb x y, rrOf]
    unfold bobbitLabel
    by_cases h256 : (b ++ [x, y]).length ≥ 256
    · rw [if_pos h256]
    rw [if_neg h256]
    cases hb with
    | star =>
      subst hx
      simp only [List.cons_append, List.nil_append, if_true, List.drop_succ_cons, List.drop_zero]
      cases n with
      | zero => rfl
      | succ n =>
        unfold nsWalk
        simp only [ho.short (l := [0, y]) (by simp), rrOf]
        unfold bobbitLabel
        simp
    | @pointer c d hc =>
      have h2 := small_head c hc
      simp only [List.cons_append]
      rw [if_neg h2.2.1, if_pos (.inr h2.2.2.1)]
    | @label m r h0 h1 hr =>
      obtain ⟨_, h95, hn, hgt⟩ := small_len ⟨m.length, h1⟩
      simp only at hn hgt h95
      simp only [List.cons_append]
      rw [if_neg h95]
      split
      · rename_i heq
        split at heq
        · cases heq
        split at heq
        · cases heq
        injection heq with _ heq
        rw [← heq, hn, List.drop_succ_cons, List.append_assoc, List.drop_left]
        exact nsWalk_odd ho x y hx n hr
      · rfl

theorem makeStar_odd {b : List UInt8} (hb : Odd b) (x y : UInt8) (l : List UInt8)
    (h : makeStar (b ++ [x, y]) = .zero l ∨ ∃ n, makeStar (b ++ [x, y]) = .done n l) : Lost l := by
  unfold makeStar at h
  by_cases h256 : (b ++ [x, y]).length ≥ 256
  · rw [if_pos h256] at h
    rcases h with h | ⟨_, h⟩ <;> cases h
  rw [if_neg h256] at h
  cases hb with
  | star =>
    simp only [List.cons_append, List.nil_append, if_true] at h
    rcases h with h | ⟨_, h⟩
    · injection h with h
      subst h
      exact .short x y
    · cases h
  | @pointer c d hc =>
    have h2 := small_head c hc
    simp only [List.cons_append] at h
    rw [if_neg h2.2.1, if_pos (.inr h2.2.2.1)] at h
    rcases h with h | ⟨_, h⟩ <;> cases h
  | @label m r h0 h1 hr =>
    obtain ⟨_, h95, hn, hgt⟩ := small_len ⟨m.length, h1⟩
    simp only at hn hgt h95
    obtain ⟨d, m', rfl⟩ : ∃ d m', m = d :: m' := by
      cases m with
      | nil => simp at h0
      | cons d m' => exact ⟨d, m', rfl⟩
    have hz : ¬ UInt8.ofNat (d :: m').length = 0 := fun e => by
      rw [e] at hn
      simp at hn
    simp only [List.cons_append] at h hn hgt h95 hz
    rw [if_neg h95, if_neg hz] at h
    rcases h with h | ⟨_, h⟩
    · split at h <;> cases h
    · split at h
      · cases h
      injection h with _ h
      rw [← h, hn, List.drop_succ_cons, ← List.cons_append, ← List.cons_append, List.append_assoc, List.drop_left]
      exact .odd x y hr

theorem makeStar_root (x y : UInt8) (l : List UInt8) (h : makeStar [0, x, y] = .zero l ∨ ∃ n, makeStar [0, x, y] = .done n l) : Lost l := by
  have e : makeStar [0, x, y] = .zero [95, x, y] := by simp [makeStar]
  rw [e] at h
  rcases h with h | ⟨_, h⟩
  · injection h with h
    rw [← h]
    exact .short x y
  · cases h

/-- Replies for which no record is needed. -/
def Idle : Out ρ → Prop
  | .none => True
  | .error _ _ => True
  | .ddip _ => True
  | _ => False

theorem ddipCheck_idle {id : Nat} {l : List UInt8} {o : Out ρ} (h : ddipCheck id l = some o) : Idle o := by
  unfold ddipCheck at h
  split at h
  · cases h
  split at h
  · cases h
  split at h
  · injection h with h; rw [← h]; trivial
  · cases h
  · split at h
    · cases h
    split at h
    · injection h with h; rw [← h]; trivial
    · injection h with h; rw [← h]; trivial

theorem fromNs_odd (ho : Only h) {cfg : Cfg} (hu : Usual cfg) (id : Nat) (rd : Bool) {b : List UInt8} (hb : Odd b) (x y : UInt8) :
    Idle (fromNs cfg h id rd (b ++ [x, y])) := by
  have hd := hu.dos
  have hbl := hb.lower
  unfold fromNs
  simp only
  rw [if_neg (by omega), foldCase_two, changeRtype_two hbl.pos x y (by omega)]
  simp only [ho.odd hbl, rrOf]
  split
  · rename_i o heq
    split at heq
    · cases heq
    · exact ddipCheck_idle heq
  · rw [hu.recurse]
    simp only [Bool.not_false, Bool.or_true, if_true]
    rw [nsWalk_odd ho _ _ (by decide) 256 hbl]
    simp only
    rcases stars_lost ho hu.bindStar .none (orig := b ++ [x, y]) 0 (by rw [foldCase_two]; exact makeStar_odd hbl x y) with ⟨a, e⟩ | e
    · rw [e]
      simp only [finish, hu.defaultZone, Bool.false_eq_true, if_false]
      trivial
    · rw [e]
      trivial

/-- For what is odd no record is found. -/
theorem search_odd (ho : Only h) {cfg : Cfg} (hu : Usual cfg) (hegg : ∀ l, cfg.egg l = none) (hany : ∀ l, cfg.any l = some true) (id : Nat) (rd : Bool)
    {b : List UInt8} (hb : Odd b) (x y : UInt8) : search cfg h id rd (b ++ [x, y]) = .any ∨ Idle (search cfg h id rd (b ++ [x, y])) := by
  have hd := hu.dos
  have hbl := hb.lower
  unfold search
  rw [if_neg (by omega)]
  simp only
  rw [if_neg (by omega), hany]
  by_cases h255 : cfg.dos ≤ 13 ∧ getRtype (b ++ [x, y]) = some 255
  · rw [if_pos h255]
    exact .inl rfl
  · rw [if_neg h255, foldCase_two]
    simp only [ho.odd hbl, rrOf]
    rw [if_neg (by omega), changeRtype_two hbl.pos x y (by omega)]
    simp only [ho.odd hbl, hegg, ite_self]
    exact .inr (fromNs_odd ho hu id rd hb x y)

/-- What is found for the root. -/
def AtRoot (z : Zone ρ) (o : Out ρ) : Prop :=
  Idle o ∨ (∃ u a r f, z.rr [] u = some (a, r) ∧ o = .success r f) ∨ ∃ a r c, z.rr [] 6 = some (a, r) ∧ c ≤ 3 ∧ o = .negative r c

theorem root_labels : LabelsOk [] := fun _ h => by cases h

theorem notFound_root {z : Zone ρ} (q : List UInt8) (a : Nat) : AtRoot z (notFound h ((z.rr [] 6).map (·.2)) q a) := by
  cases h6 : z.rr [] 6 with
  | none => exact .inl trivial
  | some v =>
    obtain ⟨a', r⟩ := v
    simp only [Option.map_some]
    unfold notFound
    simp only
    split
    · exact .inr (.inr ⟨a', r, 0, h6, by omega, rfl⟩)
    · split
      · exact .inl trivial
      · exact .inr (.inr ⟨a', r, _, h6, by split <;> omega, rfl⟩)

theorem nsWalk_root {z : Zone ρ} (s : Stores h z) (n : Nat) : nsWalk h (n + 1) (key [] 2) = match z.rr [] 2 with
    | none => .nothing
    | some (false, r) => .referral r
    | some (true, _) => .authority ((z.rr [] 6).map (·.2)) := by
  unfold nsWalk
  rw [s.rrNone root_labels (by omega)]
  cases z.rr [] 2 with
  | none => simp [bobbitLabel_nil]
  | some v =>
    obtain ⟨a, r⟩ := v
    cases a
    · rfl
    · simp only [changeRtype_key _ _ 6 (show 6 < 65536 by omega), s.rrNone root_labels (show 6 < 65536 by omega)]

theorem fromNs_root (ho : Only h) {z : Zone ρ} (s : Stores h z) {cfg : Cfg} (hu : Usual cfg) (id : Nat) (rd : Bool) (t : Nat) :
    AtRoot z (fromNs cfg h id rd (key [] t)) := by
  have hd := hu.dos
  have hst : ∀ soa, (∃ a, stars cfg h soa (key [] t) 0 = .go a) ∨ stars cfg h soa (key [] t) 0 = .out (.error 2 true) := by
    intro soa
    refine stars_lost ho hu.bindStar soa 0 ?_
    rw [foldCase_key root_labels]
    exact makeStar_root _ _
  unfold fromNs
  simp only
  rw [if_neg (by omega), foldCase_key root_labels, changeRtype_key _ _ 2 (by omega)]
  have e2 : rrOf (h (key (lowName []) 2)) = z.rr [] 2 := s.rrNone root_labels (by omega)
  simp only [e2]
  have hw : nsWalk h 256 (key (lowName []) 2) = _ := nsWalk_root s 255
  rw [hw]
  rcases hz2 : z.rr [] 2 with _ | ⟨_ | _, r⟩
  · simp only
    split
    · rename_i o heq
      split at heq
      · cases heq
      · exact .inl (ddipCheck_idle heq)
    · rw [hu.recurse]
      simp only [Bool.not_false, Bool.or_true, if_true]
      rcases hst none with ⟨a, e⟩ | e
      · rw [e]
        simp only [finish, hu.defaultZone, Bool.false_eq_true, if_false]
        exact .inl trivial
      · rw [e]
        exact .inl trivial
  · exact .inr (.inl ⟨2, false, r, false, hz2, rfl⟩)
  · simp only
    split
    · rename_i o heq
      split at heq
      · cases heq
      · exact .inl (ddipCheck_idle heq)
    · rw [hu.recurse]
      simp only [Bool.not_false, Bool.or_true, if_true]
      rcases hst ((z.rr [] 6).map (·.2)) with ⟨a, e⟩ | e
      · rw [e]
        simp only [finish, hu.defaultZone, Bool.false_eq_true, if_false]
        exact notFound_root _ _
      · rw [e]
        exact .inl trivial

/-- A question for the root. -/
theorem search_root (ho : Only h) {z : Zone ρ} (s : Stores h z) {cfg : Cfg} (hu : Usual cfg) (hegg : ∀ l, cfg.egg l = none) (id : Nat) (rd : Bool) {t : Nat}
    (ht : t < 65536) (h255 : t ≠ 255) : AtRoot z (search cfg h id rd (key [] t)) := by
  have hd := hu.dos
  have et : rrOf (h (key (lowName []) t)) = z.rr [] t := s.rrNone root_labels ht
  have e5 : rrOf (h (key (lowName []) 5)) = z.rr [] 5 := s.rrNone root_labels (by omega)
  unfold search
  rw [if_neg (by omega)]
  simp only
  rw [if_neg (by omega), if_neg (by rw [getRtype_key [] t ht]; simp [h255]), foldCase_key root_labels, et]
  cases h1 : z.rr [] t with
  | some v => exact .inr (.inl ⟨t, v.1, v.2, true, h1, rfl⟩)
  | none =>
    simp only
    rw [if_neg (by omega), changeRtype_key _ _ 5 (by omega)]
    simp only [e5]
    cases h2 : z.rr [] 5 with
    | some v => exact .inr (.inl ⟨5, v.1, v.2, true, h2, rfl⟩)
    | none =>
      simp only [hegg, ite_self]
      exact fromNs_root ho s hu id rd t

/-- A question for the address of a name that is written like an address. -/
theorem search_quad {z : Zone ρ} (s : Stores h z) {cfg : Cfg} (hu : Usual cfg) (hegg : ∀ l, cfg.egg l = none) (id : Nat) (rd : Bool) {q : Name} (hq : LabelsOk q)
    (hfp : cfg.noFingerprint = false) (hd4 : dottedQuad q ≠ none) :
    Idle (search cfg h id rd (key q 1)) ∨ ∃ u a r f, z.rr (lowName q) u = some (a, r) ∧ search cfg h id rd (key q 1) = .success r f := by
  have hd := hu.dos
  have hql := lowName_ok hq
  unfold search
  rw [if_neg (by omega)]
  simp only
  rw [if_neg (by omega), if_neg (by rw [getRtype_key q 1 (by omega)]; simp), foldCase_key hq, s.rrNone hql (by omega)]
  cases h1 : z.rr (lowName q) 1 with
  | some v => exact .inr ⟨1, v.1, v.2, true, h1, rfl⟩
  | none =>
    simp only
    rw [if_neg (by omega), changeRtype_key _ _ 5 (by omega)]
    simp only [s.rrNone hql (show 5 < 65536 by omega)]
    cases h2 : z.rr (lowName q) 5 with
    | some v => exact .inr ⟨5, v.1, v.2, true, h2, rfl⟩
    | none =>
      simp only [hegg, ite_self]
      unfold fromNs
      simp only
      rw [if_neg (by omega), foldCase_key hq, changeRtype_key _ _ 2 (by omega)]
      simp only [s.rrNone hql (show 2 < 65536 by omega)]
      split
      · rename_i r h3
        exact .inr ⟨2, false, r, false, h3, rfl⟩
      · left
        rw [hfp, ddipCheck_spec hq]
        cases h4 : dottedQuad q with
        | none => exact absurd h4 hd4
        | some vs =>
          simp only [Bool.false_eq_true, if_false]
          split <;> trivial

end

end Lookup
end Mara
