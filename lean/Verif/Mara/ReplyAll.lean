import Verif.Mara.ReplyTurn
/-!
# Lemmas: the whole chain of an answer
-/

namespace Mara
namespace Reply

open Spec
open Dw (Res)

theorem addrsA_ns (cfg : Cfg) (rec : Nat → Rec) : ∀ (l : List Nat) (cnt : Nat) (a : Acc), (addrsA cfg rec l cnt a).ns = a.ns
  | [], _, a => rfl
  | i :: l, cnt, a => by
    unfold addrsA
    split
    · rfl
    · split
      · exact addrsA_ns cfg rec l cnt a
      · split
        · rfl
        · rw [addrsA_ns cfg rec l]

theorem entryH_ns (cfg : Cfg) (rec : Nat → Rec) (h : Heap) (t : Nat) (i : Nat) (a : Acc) : (entryH cfg rec h t false i a).ns = a.ns := by
  unfold entryH
  split
  · rfl
  · unfold entryA
    simp only [Bool.false_eq_true, if_false]
    split
    · rfl
    · split
      · rw [addrsA_ns, addrsA_ns]
      · rw [addrsA_ns]

theorem sectA_ns (cfg : Cfg) (rec : Nat → Rec) (h : Heap) (t : Nat) (on : Bool) : ∀ (l : List Nat) (cnt : Nat) (a : Acc),
    (sectA cfg rec h t false on l cnt a).ns = a.ns
  | [], _, a => rfl
  | i :: l, cnt, a => by
    unfold sectA
    split
    · rw [sectA_ns cfg rec h t on l, entryH_ns]
    · rw [sectA_ns cfg rec h t on l]

theorem sectA_step (cfg : Cfg) (rec : Nat → Rec) (h : Heap) (t : Nat) (inNs on : Bool) (i : Nat) (l : List Nat) (cnt : Nat) (a : Acc) :
    sectA cfg rec h t inNs on (i :: l) cnt a =
      sectA cfg rec h t inNs on l (if decide (cnt < cfg.maxChain ∧ a.total < cfg.maxTotal ∧ on = true) = true then cnt + 1 else cnt)
        (if decide (cnt < cfg.maxChain ∧ a.total < cfg.maxTotal ∧ on = true) = true then entryH cfg rec h t inNs i a else a) := by
  conv => lhs; unfold sectA
  by_cases h : cnt < cfg.maxChain ∧ a.total < cfg.maxTotal ∧ on = true
  · simp [h]
  · simp [h]

/-- The rounds over the answers. -/
theorem walk_an {cfg : Cfg} {rec : Nat → Rec} {base : List UInt8} {t : Nat} {isAuth deleg : Bool} {first : Nat} {second : Option Nat} {nss : List Nat} :
    ∀ (l : List Nat) (e n : Nat) (o : Option Nat) (cnt : Nat) (last : Option Nat) (s : St) (a : Acc),
    Good s.heap rec → Chain s.heap o (l ++ e :: nss) → (l ++ e :: nss).length < n →
    (∀ i ∈ l ++ [e], ∀ p : Node, s.heap[i]? = some p → ¬(t ≠ 2 ∧ p.type = 2)) → a.ns = [] → Sim rec base s a → Room rec base a →
    (∃ s', walk cfg t isAuth deleg first n o false cnt second last s = .ok s' ∧ s'.bad = true ∧ s'.heap = s.heap ∧ s'.head = s.head ∧
      ¬Room rec base (sectA cfg rec s.heap t false true (l ++ [e]) cnt a)) ∨
    ∃ s' cnt', Sim rec base s' (sectA cfg rec s.heap t false true (l ++ [e]) cnt a) ∧
      Room rec base (sectA cfg rec s.heap t false true (l ++ [e]) cnt a) ∧ s'.heap = s.heap ∧ s'.head = s.head ∧
      walk cfg t isAuth deleg first n o false cnt second last s =
        if nss = [] ∧ second.isSome ∧ cfg.maxAr = 1 ∧ t ≠ 2 then
          .ok { s' with heap := turned s.heap first e none, head := second.getD 0 }
        else walk cfg t isAuth deleg first (n - (l.length + 1)) nss.head? false cnt' second (some e) s'
  | l, e, 0, o, cnt, last, s, a, _, _, hn, _, _, _, _ => by omega
  | [], e, n + 1, o, cnt, last, s, a, hg, hc, hn, hty, hns, hs, hr => by
    cases hc with
    | @cons _ p _ hp hc =>
      have hnx := chain_head hc
      rcases round_step (cfg := cfg) (t := t) (inNs := false) (on := true) (isAuth := isAuth) (deleg := deleg) (first := first) (n := n) (cnt := cnt)
        (second := second) (last := last) hg hp (fun h => hty e (by simp) p hp ⟨h.1, h.2.1⟩) (by simp) (fun _ => hns) (by simp) hs hr rfl rfl with
        ⟨s', e1, e2, e3, e4, e5⟩ | ⟨s', e1, e2, e3, e4, e5⟩
      · left
        refine ⟨s', e1, e2, e3, e4, ?_⟩
        rw [List.nil_append, sectA_step]
        exact e5
      · right
        rw [List.nil_append, sectA_step]
        refine ⟨s', (if decide (cnt < cfg.maxChain ∧ a.total < cfg.maxTotal ∧ true = true) = true then cnt + 1 else cnt), e1, e2, e3, e4, ?_⟩
        rw [e5, hnx]
        by_cases hc : nss = [] ∧ second.isSome ∧ cfg.maxAr = 1 ∧ t ≠ 2
        · rw [if_pos hc, if_pos ⟨by rw [hc.1]; rfl, hc.2⟩, hc.1]
          unfold walk
          cases n <;> rfl
        · rw [if_neg hc, if_neg (by
            rintro ⟨h1, h2⟩
            apply hc
            refine ⟨?_, h2⟩
            cases nss with
            | nil => rfl
            | cons x y => cases h1)]
          rfl
  | i :: l, e, n + 1, o, cnt, last, s, a, hg, hc, hn, hty, hns, hs, hr => by
    cases hc with
    | @cons _ p _ hp hc =>
      have hnx := chain_head hc
      rcases round_step (cfg := cfg) (t := t) (inNs := false) (on := true) (isAuth := isAuth) (deleg := deleg) (first := first) (n := n) (cnt := cnt)
        (second := second) (last := last) hg hp (fun h => hty i (by simp) p hp ⟨h.1, h.2.1⟩) (by simp) (fun _ => hns) (by simp) hs hr rfl rfl with
        ⟨s', e1, e2, e3, e4, e5⟩ | ⟨s', e1, e2, e3, e4, e5⟩
      · left
        refine ⟨s', e1, e2, e3, e4, ?_⟩
        rw [List.cons_append, sectA_step]
        intro hroom
        exact e5 ((sectA_le ..).room hroom)
      · have hne : p.next ≠ none := by rw [hnx]; cases l <;> simp
        rw [if_neg (fun h => hne h.1)] at e5
        simp only [List.cons_append, List.length_cons] at hn
        have ih := walk_an (cfg := cfg) (base := base) (t := t) (isAuth := isAuth) (deleg := deleg) (first := first) (second := second) l e n p.next
          (if decide (cnt < cfg.maxChain ∧ a.total < cfg.maxTotal ∧ true = true) = true then cnt + 1 else cnt) (some i) s' _
          (by rw [e3]; exact hg) (by rw [e3]; exact hc) (by omega)
          (by intro j hj q hq; rw [e3] at hq; exact hty j (List.mem_cons_of_mem i hj) q hq)
          (by split
              · rw [entryH_ns]; exact hns
              · exact hns) e1 e2
        rw [e5, List.cons_append, sectA_step]
        rw [e3, e4] at ih
        rcases ih with ih | ⟨s'', cnt', k1, k2, k3, k4, k5⟩
        · exact .inl ih
        · refine .inr ⟨s'', cnt', k1, k2, k3, k4, ?_⟩
          rw [k5]
          simp only [List.length_cons]
          rw [show n + 1 - (l.length + 1 + 1) = n - (l.length + 1) by omega]

/-- What the round robin does when the name servers are reached. -/
def turnS (one : Bool) (first i : Nat) (second last : Option Nat) (s : St) : St × Option Nat :=
  match one, second, last with
  | true, some b, some l => ({ s with heap := turned s.heap first l (some i), head := b }, none)
  | _, _, _ => (s, second)

/-- The turn to the name servers. -/
theorem walk_turn {cfg : Cfg} {t : Nat} {isAuth deleg : Bool} {first n i cnt : Nat} {second last : Option Nat} {s : St} {p : Node}
    (hp : s.heap[i]? = some p) (h2 : p.type = 2) (ht : t ≠ 2)
    (hp' : (turnS (decide (cfg.maxAr = 1)) first i second last s).1.heap[i]? = some p) :
    walk cfg t isAuth deleg first (n + 1) (some i) false cnt second last s =
      walk cfg t isAuth deleg first (n + 1) (some i) true 0
        (turnS (decide (cfg.maxAr = 1)) first i second last s).2 last (turnS (decide (cfg.maxAr = 1)) first i second last s).1 := by
  unfold walk deref
  rw [hp, hp']
  clear hp' hp
  have hT : decide (t ≠ 2 ∧ p.type = 2 ∧ false = false) = true := decide_eq_true ⟨ht, h2, rfl⟩
  have hF : decide (t ≠ 2 ∧ p.type = 2 ∧ true = false) = false := decide_eq_false (by simp)
  have hT' : decide (t ≠ 2 ∧ p.type = 2 ∧ True) = true := decide_eq_true ⟨ht, h2, trivial⟩
  simp only [Res.ok_bind]
  first | rw [hT] | rw [hT']
  rw [hF]
  simp only [Bool.true_and, Bool.false_and]
  generalize decide (cfg.maxAr = 1) = d
  cases d <;> cases second <;> cases last <;> rfl

/-- What becomes of the records after a reply: the first record goes behind the others of its kind. -/
def after (cfg : Cfg) (t : Nat) (h : Heap) (as nss : List Nat) (head : Nat) : Heap × Nat :=
  match as with
  | first :: b :: rest =>
    if cfg.maxAr = 1 ∧ t ≠ 2 then (turned h first ((b :: rest).getLast (by simp)) nss.head?, b) else (h, head)
  | _ => (h, head)

theorem Sim.heap {rec : Nat → Rec} {base : List UInt8} {s : St} {a : Acc} (hs : Sim rec base s a) (h : Heap) (k : Nat) :
    Sim rec base { s with heap := h, head := k } a :=
  ⟨hs.most, hs.ar, hs.an, hs.ns, hs.arc, hs.seen, hs.total, hs.ok⟩

/-- After the turn, the name servers come. -/
theorem turn_total {cfg : Cfg} {rec : Nat → Rec} {base : List UInt8} {t : Nat} {isAuth deleg on : Bool} {first n i cnt : Nat}
    {second last : Option Nat} {s : St} {a : Acc} {p : Node} {ns : List Nat} {h' : Heap} {k : Nat}
    (hon : on = true ↔ (isAuth = true ∨ deleg = true)) (ht : t ≠ 2)
    (hr : turnS (decide (cfg.maxAr = 1)) first i second last s = ({ s with heap := h', head := k }, none) ∨
      (turnS (decide (cfg.maxAr = 1)) first i second last s = ({ s with heap := h', head := k }, second) ∧ cfg.maxAr ≠ 1))
    (hg' : Good h' rec) (hc' : Chain h' (some i) (i :: ns)) (hp : s.heap[i]? = some p) (hp' : h'[i]? = some p)
    (h2 : ∀ j ∈ i :: ns, ∀ q : Node, h'[j]? = some q → q.type = 2) (hn : (i :: ns).length < n + 1)
    (hs : Sim rec base s a) (hroom : Room rec base a) :
    ∃ s', walk cfg t isAuth deleg first (n + 1) (some i) false cnt second last s = .ok s' ∧ s'.heap = h' ∧ s'.head = k ∧
      ((Sim rec base s' (sectA cfg rec h' t true on (i :: ns) 0 a) ∧ Room rec base (sectA cfg rec h' t true on (i :: ns) 0 a)) ∨
        (s'.bad = true ∧ ¬Room rec base (sectA cfg rec h' t true on (i :: ns) 0 a))) := by
  have hw := walk_turn (cfg := cfg) (t := t) (isAuth := isAuth) (deleg := deleg) (first := first) (n := n) (i := i) (cnt := cnt)
    (second := second) (last := last) (s := s) (p := p) hp (h2 i (by simp) p hp') ht (by
      rcases hr with hr | ⟨hr, -⟩ <;> (rw [hr]; exact hp'))
  rw [hw]
  have key : ∀ sec : Option Nat, (sec = none ∨ cfg.maxAr ≠ 1) →
      ∃ s', walk cfg t isAuth deleg first (n + 1) (some i) true 0 sec last { s with heap := h', head := k } = .ok s' ∧ s'.heap = h' ∧ s'.head = k ∧
      ((Sim rec base s' (sectA cfg rec h' t true on (i :: ns) 0 a) ∧ Room rec base (sectA cfg rec h' t true on (i :: ns) 0 a)) ∨
        (s'.bad = true ∧ ¬Room rec base (sectA cfg rec h' t true on (i :: ns) 0 a))) := by
    intro sec hsec
    exact walk_ns (cfg := cfg) (base := base) (t := t) (first := first) hon (i :: ns) (n + 1) (some i) 0 sec last
      { s with heap := h', head := k } a hg' hc' hn h2 hsec (hs.heap h' k) hroom
  rcases hr with hr | ⟨hr, hm⟩
  · rw [hr]; exact key none (.inl rfl)
  · rw [hr]; exact key second (.inr hm)

end Reply
end Mara
