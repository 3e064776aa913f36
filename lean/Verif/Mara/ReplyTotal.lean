import Verif.Mara.ReplyAll
import Mathlib.Tactic.SplitIfs
/-!
# Lemmas: the loop of `udpsuccess` from its start to its end
-/

namespace Mara
namespace Reply

open Spec
open Dw (Res)

/-- The answers of a chain come before its name servers; asked for name servers, there are only answers. -/
def Parts (h : Heap) (t : Nat) (as nss : List Nat) : Prop :=
  (t = 2 ∧ nss = []) ∨
    (t ≠ 2 ∧ (∀ i ∈ as, ∀ p : Node, h[i]? = some p → p.type ≠ 2) ∧ ∀ i ∈ nss, ∀ p : Node, h[i]? = some p → p.type = 2)

theorem after_keep {cfg : Cfg} {t : Nat} {h : Heap} {as nss : List Nat} {head : Nat}
    (hn : ¬(cfg.maxAr = 1 ∧ t ≠ 2 ∧ 2 ≤ as.length)) : after cfg t h as nss head = (h, head) := by
  unfold after
  split
  · rw [if_neg]
    rintro ⟨h1, h2⟩
    exact hn ⟨h1, h2, by simp⟩
  · rfl

/-- The first goes to the end. -/
def toEnd : List Nat → List Nat
  | [] => []
  | x :: l => l ++ [x]

theorem after_good {cfg : Cfg} {rec : Nat → Rec} {t : Nat} {h : Heap} {as nss : List Nat} {first : Nat} (hg : Good h rec)
    (hc : Chain h (some first) (as ++ nss)) (hp : Parts h t as nss) :
    Good (after cfg t h as nss first).1 rec ∧
    Chain (after cfg t h as nss first).1 (some (after cfg t h as nss first).2)
      ((if cfg.maxAr = 1 ∧ t ≠ 2 then toEnd as else as) ++ nss) := by
  by_cases hn : cfg.maxAr = 1 ∧ t ≠ 2 ∧ 2 ≤ as.length
  · obtain ⟨h1, h2, h3⟩ := hn
    rw [if_pos ⟨h1, h2⟩]
    match as, h3 with
    | f :: b :: rest, _ =>
      have hf : first = f := by have := chain_head hc; simpa using this
      subst hf
      rcases hp with ⟨ht, -⟩ | ⟨-, hA, hN⟩
      · exact absurd ht h2
      have hsplit : b :: rest = (b :: rest).dropLast ++ [(b :: rest).getLast (by simp)] := (List.dropLast_append_getLast (by simp)).symm
      have e : after cfg t h (first :: b :: rest) nss first = (turned h first ((b :: rest).getLast (by simp)) nss.head?, b) := by
        unfold after; exact if_pos ⟨h1, h2⟩
      rw [e]
      have hc' : Chain h (some first) (first :: (b :: rest).dropLast ++ (b :: rest).getLast (by simp) :: nss) := by
        have : first :: (b :: rest).dropLast ++ (b :: rest).getLast (by simp) :: nss = first :: (b :: rest) ++ nss := by
          conv => rhs; rw [hsplit]
          simp
        rw [this]; exact hc
      obtain ⟨g1, g2⟩ := turned_good hg hc' (by
        intro k hk r hr
        refine hA k ?_ r hr
        have : first :: (b :: rest).dropLast ++ [(b :: rest).getLast (by simp)] = first :: (b :: rest) := by
          conv => rhs; rw [hsplit]
          simp
        rw [this] at hk; exact hk) hN
      refine ⟨g1, ?_⟩
      rw [← hsplit] at g2
      have : toEnd (first :: b :: rest) ++ nss = (b :: rest).dropLast ++ (b :: rest).getLast (by simp) :: first :: nss := by
        unfold toEnd
        conv => lhs; rw [hsplit]
        simp
      rw [this]
      exact g2
  · rw [after_keep hn]
    refine ⟨hg, ?_⟩
    split_ifs with h1
    · have : as = [] ∨ ∃ x, as = [x] := by
        match as with
        | [] => exact .inl rfl
        | [x] => exact .inr ⟨x, rfl⟩
        | _ :: _ :: _ => exact absurd ⟨h1.1, h1.2, by simp⟩ hn
      rcases this with rfl | ⟨x, rfl⟩
      · exact hc
      · exact hc
    · exact hc

/-- The whole loop. -/
theorem walk_total {cfg : Cfg} {rec : Nat → Rec} {base : List UInt8} {t : Nat} {isAuth deleg on : Bool} {first n : Nat}
    {second : Option Nat} {s : St} {as nss : List Nat} (hon : on = true ↔ (isAuth = true ∨ deleg = true))
    (hg : Good s.heap rec) (hc : Chain s.heap (some first) (as ++ nss)) (hp : Parts s.heap t as nss) (hn : (as ++ nss).length < n)
    (hsec : t ≠ 2 → second = as[1]?) (hhead : s.head = first) (hs : Sim rec base s {}) (hr : Room rec base {}) :
    ∃ s', walk cfg t isAuth deleg first n (some first) false 0 second none s = .ok s' ∧
      ((Sim rec base s' (sectA cfg rec (after cfg t s.heap as nss first).1 t true on nss 0 (sectA cfg rec s.heap t false true as 0 {})) ∧
          Room rec base (sectA cfg rec (after cfg t s.heap as nss first).1 t true on nss 0 (sectA cfg rec s.heap t false true as 0 {})) ∧
          (s'.heap, s'.head) = after cfg t s.heap as nss first) ∨
        (s'.bad = true ∧
          ¬Room rec base (sectA cfg rec (after cfg t s.heap as nss first).1 t true on nss 0 (sectA cfg rec s.heap t false true as 0 {})) ∧
          ((s'.heap, s'.head) = (s.heap, first) ∨ (s'.heap, s'.head) = after cfg t s.heap as nss first))) := by
  obtain ⟨hg', hc'⟩ := after_good (cfg := cfg) hg hc hp
  rcases List.eq_nil_or_concat as with rfl | ⟨l, e, rfl⟩
  · -- only name servers
    have e0 : after cfg t s.heap [] nss first = (s.heap, first) := rfl
    rw [e0]
    rw [List.nil_append] at hc hn
    cases hc with
    | @cons _ p ns hq hc2 =>
      rcases hp with ⟨-, h⟩ | ⟨ht, -, hN⟩
      · cases h
      have hsec := hsec ht
      simp only [List.getElem?_nil] at hsec
      subst hsec
      match n, hn with
      | n + 1, hn =>
        obtain ⟨s', k1, k2, k3, k4⟩ := turn_total (cfg := cfg) (base := base) (t := t) (isAuth := isAuth) (deleg := deleg) (first := first)
          (n := n) (i := first) (cnt := 0) (second := none) (last := none) (s := s) (a := {}) (p := p) (ns := ns) (h' := s.heap) (k := first) hon ht
          (.inl (by
            rw [← hhead]
            unfold turnS
            generalize decide (cfg.maxAr = 1) = d
            cases d <;> rfl)) hg (.cons hq hc2) hq hq hN hn hs hr
        refine ⟨s', k1, ?_⟩
        rcases k4 with ⟨k5, k6⟩ | ⟨k5, k6⟩
        · exact .inl ⟨k5, k6, by rw [k2, k3]⟩
        · exact .inr ⟨k5, k6, .inl (by rw [k2, k3])⟩
  · rw [List.concat_eq_append] at *
    have hty : ∀ i ∈ l ++ [e], ∀ p : Node, s.heap[i]? = some p → ¬(t ≠ 2 ∧ p.type = 2) := by
      rcases hp with ⟨ht, -⟩ | ⟨-, hA, -⟩
      · intro i _ p _ h; exact h.1 ht
      · intro i hi p hq h; exact hA i hi p hq h.2
    have hcc : Chain s.heap (some first) (l ++ e :: nss) := by
      have : l ++ [e] ++ nss = l ++ e :: nss := by simp
      rw [← this]; exact hc
    rcases walk_an (cfg := cfg) (base := base) (t := t) (isAuth := isAuth) (deleg := deleg) (first := first) (second := second) (nss := nss)
      l e n (some first) 0 none s {} hg hcc (by simpa using hn) hty rfl hs hr with
      ⟨s', k1, k2, k3, k4, k5⟩ | ⟨s', cnt', k1, k2, k3, k4, k5⟩
    · refine ⟨s', k1, .inr ⟨k2, ?_, .inl (by rw [k3, k4, hhead])⟩⟩
      intro hroom
      exact k5 ((sectA_le ..).room hroom)
    · rw [k5]
      -- when the records are turned
      have hrot : t ≠ 2 → cfg.maxAr = 1 → ∀ b, second = some b →
          after cfg t s.heap (l ++ [e]) nss first = (turned s.heap first e nss.head?, b) := by
        intro ht hm b hb
        rw [hsec ht] at hb
        match l, hb, hcc with
        | [x], hb, hcc =>
          have hx : first = x := by have := chain_head hcc; simpa using this
          subst hx
          have hb : e = b := by simpa using hb
          subst hb
          show (if _ then _ else _) = _
          rw [if_pos ⟨hm, ht⟩]
          rfl
        | x :: y :: rest, hb, hcc =>
          have hx : first = x := by have := chain_head hcc; simpa using this
          subst hx
          have hb : y = b := by simpa using hb
          subst hb
          show (if _ then _ else _) = _
          rw [if_pos ⟨hm, ht⟩]
          congr 1
          congr 1
          have : (y :: (rest.append [e])) = (y :: rest) ++ [e] := rfl
          simp only [this]
          simp
      have hkeep : ¬(second.isSome ∧ cfg.maxAr = 1 ∧ t ≠ 2) → after cfg t s.heap (l ++ [e]) nss first = (s.heap, first) := by
        intro h
        apply after_keep
        rintro ⟨h1, h2, h3⟩
        apply h
        refine ⟨?_, h1, h2⟩
        rw [hsec h2, List.getElem?_eq_getElem (by omega)]
        rfl
      cases nss with
      | nil =>
        by_cases hcond : second.isSome ∧ cfg.maxAr = 1 ∧ t ≠ 2
        · rw [if_pos ⟨rfl, hcond⟩]
          obtain ⟨b, hb⟩ := Option.isSome_iff_exists.1 hcond.1
          have ha := hrot hcond.2.2 hcond.2.1 b hb
          refine ⟨_, rfl, .inl ⟨?_, ?_, ?_⟩⟩
          · exact k1.heap _ _
          · exact k2
          · rw [ha, hb]; rfl
        · rw [if_neg (fun h => hcond h.2), hkeep hcond]
          refine ⟨s', ?_, .inl ⟨k1, k2, by rw [k3, k4, hhead]⟩⟩
          unfold walk
          cases (n - (l.length + 1)) <;> rfl
      | cons i ns =>
        rw [if_neg (fun h => by cases h.1)]
        rcases hp with ⟨-, h⟩ | ⟨ht, hA, hN⟩
        · cases h
        have hlen : ns.length + 1 < n - (l.length + 1) := by simp at hn; omega
        obtain ⟨p, hq⟩ : ∃ p : Node, s.heap[i]? = some p := ⟨_, List.getElem?_eq_getElem (hcc.lt i (by simp))⟩
        have hN' : ∀ j ∈ i :: ns, ∀ q : Node, (after cfg t s.heap (l ++ [e]) (i :: ns) first).1[j]? = some q → q.type = 2 := by
          intro j hj q hq
          obtain ⟨q', hq'⟩ : ∃ p : Node, s.heap[j]? = some p := ⟨_, List.getElem?_eq_getElem (hcc.lt j (by
            simp only [List.mem_append, List.mem_cons] at hj ⊢; right; right; exact hj))⟩
          have h1 := hg.holds j q' hq'
          have h2 := hg'.holds j q hq
          rw [h2.type, ← h1.type]
          exact hN j hj q' hq'
        have hch : Chain (after cfg t s.heap (l ++ [e]) (i :: ns) first).1 (some i) (i :: ns) := hc'.suffix
        match hm : n - (l.length + 1), hlen with
        | m + 1, hlen =>
          have hget : (after cfg t s.heap (l ++ [e]) (i :: ns) first).1[i]? = some p := by
            by_cases hcond : second.isSome ∧ cfg.maxAr = 1 ∧ t ≠ 2
            · obtain ⟨b, hb⟩ := Option.isSome_iff_exists.1 hcond.1
              rw [hrot hcond.2.2 hcond.2.1 b hb]
              have hnd := hcc.nodup hg
              have hl : l ≠ [] := by
                rintro rfl
                rw [hsec ht] at hb
                simp at hb
              obtain ⟨x, l', rfl⟩ := List.exists_cons_of_ne_nil hl
              have hx : first = x := by have := chain_head hcc; simpa using this
              subst hx
              simp only [List.cons_append, List.nodup_cons, List.mem_append, List.mem_cons, List.nodup_append] at hnd
              show (turned s.heap first e (some i))[i]? = _
              have h1 : i ≠ e := by
                intro h
                exact hnd.2.2.1.1 (.inl h.symm)
              have h2 : i ≠ first := by
                intro h
                exact hnd.1 (.inr (.inr (.inl h.symm)))
              have h3 : first ≠ e := fun h => hnd.1 (.inr (.inl h))
              rw [turned_get h3, if_neg h1, if_neg h2]
              exact hq
            · rw [hkeep hcond]; exact hq
          obtain ⟨s'', q1, q2, q3, q4⟩ := turn_total (cfg := cfg) (base := base) (t := t) (isAuth := isAuth) (deleg := deleg) (first := first)
            (n := m) (i := i) (cnt := cnt') (second := second) (last := some e) (s := s') (a := sectA cfg rec s.heap t false true (l ++ [e]) 0 {})
            (p := p) (ns := ns) (h' := (after cfg t s.heap (l ++ [e]) (i :: ns) first).1) (k := (after cfg t s.heap (l ++ [e]) (i :: ns) first).2) hon ht
            (by
              by_cases hm : cfg.maxAr = 1
              · left
                cases hb : second with
                | none =>
                  rw [hkeep (by rw [hb]; simp)]
                  rw [← k3, ← hhead, ← k4]
                  unfold turnS
                  generalize decide (cfg.maxAr = 1) = d
                  cases d <;> rfl
                | some b =>
                  rw [hrot ht hm b hb]
                  unfold turnS
                  rw [decide_eq_true hm]
                  simp only
                  rw [k3]
                  rfl
              · right
                refine ⟨?_, hm⟩
                rw [hkeep (by rintro ⟨-, h, -⟩; exact hm h)]
                unfold turnS
                rw [decide_eq_false hm]
                simp only
                rw [← k3, ← hhead, ← k4])
            hg' hch (by rw [k3]; exact hq) hget hN' (by simpa using hlen) k1 k2
          refine ⟨s'', ?_, ?_⟩
          · exact q1
          · rcases q4 with ⟨q5, q6⟩ | ⟨q5, q6⟩
            · exact .inl ⟨q5, q6, by rw [q2, q3]⟩
            · exact .inr ⟨q5, q6, .inr (by rw [q2, q3])⟩

end Reply
end Mara
