import Verif.Mara.ReplyWalk
/-!
# Lemmas: the loop over the chain of an answer, and the round robin
-/

namespace Mara
namespace Reply

open Spec
open Dw (Res)

/-- The chain behind a pointer, by following it. -/
def chainF (h : Heap) : Nat → Option Nat → List Nat
  | 0, _ => []
  | _, none => []
  | n + 1, some i =>
    match h[i]? with
    | none => []
    | some p => i :: chainF h n p.next

def chainOf (h : Heap) (o : Option Nat) : List Nat := chainF h (h.length + 1) o

theorem chainF_eq {h : Heap} {o : Option Nat} {l : List Nat} (c : Chain h o l) : ∀ n, l.length < n → chainF h n o = l := by
  induction c with
  | nil =>
    intro n hn
    match n with
    | n + 1 => rfl
  | cons hp _ ih =>
    intro n hn
    match n with
    | n + 1 =>
      simp only [List.length_cons] at hn
      unfold chainF
      rw [hp]
      simp only
      rw [ih n (by omega)]

theorem chainOf_eq {h : Heap} {rec : Nat → Rec} (g : Good h rec) {o : Option Nat} {l : List Nat} (c : Chain h o l) : chainOf h o = l :=
  chainF_eq c _ (by have := c.length_le g; omega)

theorem Good.chainOf {h : Heap} {rec : Nat → Rec} (g : Good h rec) {o : Option Nat} (ho : ∀ j, o = some j → j < h.length) :
    Chain h o (chainOf h o) := by
  obtain ⟨l, hl⟩ := g.chainOpt ho
  rw [chainOf_eq g hl]
  exact hl

theorem onList_lt {h : Heap} {rec : Nat → Rec} (g : Good h rec) {i : Nat} {p : Node} (hp : h[i]? = some p) (t : Nat) :
    ∀ j, onList t p.list = some j → j < h.length := by
  intro j hj
  unfold onList at hj
  split at hj
  · cases hj
  · rename_i e he
    have hm := List.mem_of_find?_eq_some he
    obtain ⟨t', o⟩ := e
    simp only at hj
    subst hj
    exact g.list i p t' j hp (List.mem_of_mem_take hm)

/-- `entryA` with the chains found in the heap. -/
def entryH (cfg : Cfg) (rec : Nat → Rec) (h : Heap) (t : Nat) (inNs : Bool) (i : Nat) (a : Acc) : Acc :=
  match h[i]? with
  | none => a
  | some p => entryA cfg rec t inNs i (chainOf h (onList t p.list)) (chainOf h p.ip) (chainOf h p.ip6) a

/-- The records of a section. -/
def sectA (cfg : Cfg) (rec : Nat → Rec) (h : Heap) (t : Nat) (inNs on : Bool) : List Nat → Nat → Acc → Acc
  | [], _, a => a
  | i :: l, cnt, a =>
    if cnt < cfg.maxChain ∧ a.total < cfg.maxTotal ∧ on = true then
      sectA cfg rec h t inNs on l (cnt + 1) (entryH cfg rec h t inNs i a)
    else sectA cfg rec h t inNs on l cnt a

theorem entryH_le (cfg : Cfg) (rec : Nat → Rec) (h : Heap) (t : Nat) (inNs : Bool) (i : Nat) (a : Acc) :
    Le a (entryH cfg rec h t inNs i a) := by
  unfold entryH
  split
  · exact Le.refl a
  · exact entryA_le ..

theorem sectA_le (cfg : Cfg) (rec : Nat → Rec) (h : Heap) (t : Nat) (inNs on : Bool) : ∀ (l : List Nat) (cnt : Nat) (a : Acc),
    Le a (sectA cfg rec h t inNs on l cnt a)
  | [], _, a => Le.refl a
  | i :: l, cnt, a => by
    unfold sectA
    split
    · exact (entryH_le ..).trans (sectA_le cfg rec h t inNs on l _ _)
    · exact sectA_le cfg rec h t inNs on l _ _

/-- One round of the loop that is not the turn to the name servers. -/
theorem walk_round {cfg : Cfg} {t : Nat} {isAuth deleg inNs : Bool} {first n i cnt : Nat} {second last : Option Nat} {s : St} {p : Node} {go : Bool}
    (hp : s.heap[i]? = some p) (hturn : ¬(t ≠ 2 ∧ p.type = 2 ∧ inNs = false))
    (hgo : decide (cnt < cfg.maxChain ∧ s.total < cfg.maxTotal ∧ (inNs = false ∨ isAuth = true ∨ deleg = true)) = go) :
    walk cfg t isAuth deleg first (n + 1) (some i) inNs cnt second last s =
      ((if go then entry cfg t inNs p s else .ok s).bind
        fun s => if s.bad = true then .ok s else
          (deref s.heap i).bind fun p =>
            if p.next = none ∧ second.isSome ∧ cfg.maxAr = 1 ∧ t ≠ 2 then
              walk cfg t isAuth deleg first n p.next inNs (if go then cnt + 1 else cnt) none (some i)
                { s with heap := setNext (setNext s.heap first none) i (some first), head := second.getD 0 }
            else
              walk cfg t isAuth deleg first n p.next inNs (if go then cnt + 1 else cnt) second (some i) s) := by
  conv => lhs; unfold walk
  unfold deref
  rw [hp]
  simp only [Res.ok_bind, decide_eq_false hturn, Bool.false_and, Bool.or_false, Bool.false_eq_true, if_false]
  rw [hgo]
  cases go with
  | false =>
    simp only [Bool.false_eq_true, if_false]
    show _ = Res.bind (.ok s) _
    simp only [Res.bind]
    split
    · rfl
    · show Res.bind _ _ = Res.bind _ _
      congr 1
      funext p1
      by_cases hc : p1.next = none ∧ second.isSome ∧ cfg.maxAr = 1 ∧ t ≠ 2
      · rw [if_pos hc]
        obtain ⟨h1, h2, h3, h4⟩ := hc
        obtain ⟨b, rfl⟩ := Option.isSome_iff_exists.1 h2
        rw [h1, decide_eq_true (⟨h3, h4⟩ : cfg.maxAr = 1 ∧ t ≠ 2)]
        rfl
      · rw [if_neg hc]
        match h1 : p1.next, h2 : second with
        | some j, _ => rfl
        | none, none => rfl
        | none, some b =>
          rw [decide_eq_false (by intro h; exact hc ⟨h1, rfl, h.1, h.2⟩)]
  | true =>
    simp only [if_true]
    show Res.bind _ _ = Res.bind _ _
    congr 1
    funext s1
    split
    · rfl
    · show Res.bind _ _ = Res.bind _ _
      congr 1
      funext p1
      by_cases hc : p1.next = none ∧ second.isSome ∧ cfg.maxAr = 1 ∧ t ≠ 2
      · rw [if_pos hc]
        obtain ⟨h1, h2, h3, h4⟩ := hc
        obtain ⟨b, rfl⟩ := Option.isSome_iff_exists.1 h2
        rw [h1, decide_eq_true (⟨h3, h4⟩ : cfg.maxAr = 1 ∧ t ≠ 2)]
        rfl
      · rw [if_neg hc]
        match h1 : p1.next, h2 : second with
        | some j, _ => rfl
        | none, none => rfl
        | none, some b =>
          rw [decide_eq_false (by intro h; exact hc ⟨h1, rfl, h.1, h.2⟩)]

/-- A round of the loop, in terms of lists. -/
theorem round_step {cfg : Cfg} {rec : Nat → Rec} {base : List UInt8} {t : Nat} {isAuth deleg inNs on : Bool} {first n i cnt : Nat}
    {second last : Option Nat} {s : St} {p : Node} {a a' : Acc} {go : Bool}
    (hg : Good s.heap rec) (hp : s.heap[i]? = some p) (hturn : ¬(t ≠ 2 ∧ p.type = 2 ∧ inNs = false))
    (hon : on = true ↔ (inNs = false ∨ isAuth = true ∨ deleg = true))
    (hns : inNs = false → a.ns = []) (h5 : inNs = true → p.type ≠ 5) (hs : Sim rec base s a) (hr : Room rec base a)
    (hgo : decide (cnt < cfg.maxChain ∧ a.total < cfg.maxTotal ∧ on = true) = go)
    (ha : (if go then entryH cfg rec s.heap t inNs i a else a) = a') :
    (∃ s', walk cfg t isAuth deleg first (n + 1) (some i) inNs cnt second last s = .ok s' ∧ s'.bad = true ∧ s'.heap = s.heap ∧
      s'.head = s.head ∧ ¬Room rec base a') ∨
    ∃ s', Sim rec base s' a' ∧ Room rec base a' ∧ s'.heap = s.heap ∧ s'.head = s.head ∧
      walk cfg t isAuth deleg first (n + 1) (some i) inNs cnt second last s =
        if p.next = none ∧ second.isSome ∧ cfg.maxAr = 1 ∧ t ≠ 2 then
          walk cfg t isAuth deleg first n p.next inNs (if go then cnt + 1 else cnt) none (some i)
            { s' with heap := setNext (setNext s.heap first none) i (some first), head := second.getD 0 }
        else walk cfg t isAuth deleg first n p.next inNs (if go then cnt + 1 else cnt) second (some i) s' := by
  have hgo' : decide (cnt < cfg.maxChain ∧ s.total < cfg.maxTotal ∧ (inNs = false ∨ isAuth = true ∨ deleg = true)) = go := by
    rw [← hgo, hs.total]
    congr 1
    rw [hon]
  rw [walk_round hp hturn hgo']
  have hstep : Step rec base s a' (if go then entry cfg t inNs p s else .ok s) := by
    cases go with
    | false =>
      simp only [Bool.false_eq_true, if_false] at ha ⊢
      rw [← ha]
      exact ⟨s, rfl, rfl, rfl, .inl ⟨hs, hr⟩⟩
    | true =>
      simp only [if_true] at ha ⊢
      rw [← ha]
      unfold entryH
      rw [hp]
      exact entry_step hg hp (hg.chainOf (onList_lt hg hp t)) (hg.chainOf (fun j hj => hg.ip i p j hp hj))
        (hg.chainOf (fun j hj => hg.ip6 i p j hp hj)) hns h5 hs hr
  obtain ⟨s', e1, e2, e3, e4⟩ := hstep
  rw [e1]
  simp only [Res.bind]
  rcases e4 with ⟨h1, h2⟩ | ⟨h1, h2⟩
  · right
    refine ⟨s', h1, h2, e2, e3, ?_⟩
    rw [if_neg (by rw [h1.ok]; simp)]
    unfold deref
    rw [e2, hp]
  · left
    refine ⟨s', ?_, h1, e2, e3, h2⟩
    rw [if_pos h1]

/-- Only name servers follow name servers. -/
theorem ns_tail {h : Heap} {rec : Nat → Rec} (g : Good h rec) {o : Option Nat} {l : List Nat} (c : Chain h o l) :
    (∀ i p, o = some i → h[i]? = some p → p.type = 2) → ∀ i ∈ l, ∀ p : Node, h[i]? = some p → p.type = 2 := by
  induction c with
  | nil => intro _ i hi; cases hi
  | @cons i p l hp hc ih =>
    intro h0 j hj q hq
    rcases List.mem_cons.1 hj with rfl | hj
    · exact h0 j q rfl hq
    · refine ih ?_ j hj q hq
      intro k r hk hr
      obtain ⟨q', hq', h2, -⟩ := g.next i p k hp hk
      rw [hr] at hq'
      cases hq'
      exact h2 (h0 i p rfl hp)

/-- The rounds over the name servers. -/
theorem walk_ns {cfg : Cfg} {rec : Nat → Rec} {base : List UInt8} {t : Nat} {isAuth deleg on : Bool} {first : Nat}
    (hon : on = true ↔ (isAuth = true ∨ deleg = true)) :
    ∀ (l : List Nat) (n : Nat) (o : Option Nat) (cnt : Nat) (second last : Option Nat) (s : St) (a : Acc),
    Good s.heap rec → Chain s.heap o l → l.length < n → (∀ i ∈ l, ∀ p : Node, s.heap[i]? = some p → p.type = 2) →
    (second = none ∨ cfg.maxAr ≠ 1) → Sim rec base s a → Room rec base a →
    Step rec base s (sectA cfg rec s.heap t true on l cnt a) (walk cfg t isAuth deleg first n o true cnt second last s)
  | [], n, o, cnt, second, last, s, a, _, hc, hn, _, _, hs, hr => by
    cases hc
    match n with
    | n + 1 => exact ⟨s, rfl, rfl, rfl, .inl ⟨hs, hr⟩⟩
  | i :: l, n + 1, o, cnt, second, last, s, a, hg, hc, hn, h2, hsec, hs, hr => by
    cases hc with
    | @cons _ p _ hp hc =>
      have ht := h2 i (by simp) p hp
      simp only [List.length_cons] at hn
      have hsect : sectA cfg rec s.heap t true on (i :: l) cnt a =
          sectA cfg rec s.heap t true on l (if decide (cnt < cfg.maxChain ∧ a.total < cfg.maxTotal ∧ on = true) = true then cnt + 1 else cnt)
            (if decide (cnt < cfg.maxChain ∧ a.total < cfg.maxTotal ∧ on = true) = true then entryH cfg rec s.heap t true i a else a) := by
        conv => lhs; unfold sectA
        by_cases h : cnt < cfg.maxChain ∧ a.total < cfg.maxTotal ∧ on = true
        · simp [h]
        · simp [h]
      rcases round_step (cfg := cfg) (t := t) (inNs := true) (isAuth := isAuth) (deleg := deleg) (first := first) (n := n) (cnt := cnt)
        (second := second) (last := last) hg hp (by simp) (by simpa using hon) (by simp) (by intro _; omega) hs hr rfl rfl with
        ⟨s', e1, e2, e3, e4, e5⟩ | ⟨s', e1, e2, e3, e4, e5⟩
      · refine ⟨s', e1, e3, e4, .inr ⟨e2, ?_⟩⟩
        intro hroom
        rw [hsect] at hroom
        exact e5 ((sectA_le ..).room hroom)
      · rw [if_neg (by rintro ⟨-, h1, h3, -⟩; rcases hsec with h | h
                       · rw [h] at h1; cases h1
                       · exact h h3)] at e5
        rw [e5, hsect]
        have := walk_ns (base := base) (t := t) (first := first) hon l n p.next
          (if decide (cnt < cfg.maxChain ∧ a.total < cfg.maxTotal ∧ on = true) = true then cnt + 1 else cnt) second (some i) s' _
          (by rw [e3]; exact hg) (by rw [e3]; exact hc) (by omega) (by intro j hj q hq; rw [e3] at hq; exact h2 j (by simp [hj]) q hq)
          hsec e1 e2
        obtain ⟨s'', k1, k2, k3, k4⟩ := this
        rw [e3] at k2 k4
        exact ⟨s'', k1, k2, k3.trans e4, k4⟩

end Reply
end Mara
