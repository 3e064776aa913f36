import Verif.Mara.ReplyLoop
/-!
# Lemmas: the round robin
-/

namespace Mara
namespace Reply

open Spec
open Dw (Res)

theorem setNext_get (h : Heap) (i j : Nat) (v : Option Nat) :
    (setNext h i v)[j]? = if j = i then (h[j]?).map (fun p => { p with next := v }) else h[j]? := by
  unfold setNext
  split
  · rename_i hn
    split
    · rename_i e; rw [e, hn]; rfl
    · rfl
  · rename_i p hp
    obtain ⟨hi, -⟩ := List.getElem?_eq_some_iff.1 hp
    rw [List.getElem?_set]
    by_cases e : i = j
    · subst e
      rw [if_pos rfl, if_pos hi, if_pos rfl, hp]; rfl
    · rw [if_neg e, if_neg (by omega)]

theorem setNext_length (h : Heap) (i : Nat) (v : Option Nat) : (setNext h i v).length = h.length := by
  unfold setNext
  split
  · rfl
  · simp

/-- The first record goes to the end, in front of `x`. -/
def turned (h : Heap) (first last : Nat) (x : Option Nat) : Heap := setNext (setNext h first x) last (some first)

theorem turned_get {h : Heap} {first last : Nat} {x : Option Nat} (hne : first ≠ last) (j : Nat) :
    (turned h first last x)[j]? = if j = last then (h[j]?).map (fun p => { p with next := some first })
      else if j = first then (h[j]?).map (fun p => { p with next := x }) else h[j]? := by
  unfold turned
  rw [setNext_get, setNext_get]
  by_cases e : j = last
  · subst e
    rw [if_pos rfl, if_pos rfl, if_neg (by omega)]
  · rw [if_neg e, if_neg e]

theorem turned_length (h : Heap) (first last : Nat) (x : Option Nat) : (turned h first last x).length = h.length := by
  unfold turned; rw [setNext_length, setNext_length]

/-- Everything but the order stays. -/
theorem turned_node {h : Heap} {first last : Nat} {x : Option Nat} (hne : first ≠ last) {j : Nat} {p : Node}
    (hp : (turned h first last x)[j]? = some p) :
    ∃ q, h[j]? = some q ∧ p = { q with next := p.next } ∧
      p.next = if j = last then some first else if j = first then x else q.next := by
  rw [turned_get hne] at hp
  by_cases e : j = last
  · rw [if_pos e] at hp
    obtain ⟨q, hq, rfl⟩ := Option.map_eq_some_iff.1 hp
    exact ⟨q, hq, rfl, by rw [if_pos e]⟩
  rw [if_neg e] at hp
  by_cases e' : j = first
  · rw [if_pos e'] at hp
    obtain ⟨q, hq, rfl⟩ := Option.map_eq_some_iff.1 hp
    exact ⟨q, hq, rfl, by rw [if_neg e, if_pos e']⟩
  · rw [if_neg e'] at hp
    exact ⟨p, hp, rfl, by rw [if_neg e, if_neg e']⟩

theorem turned_has {h : Heap} {first last : Nat} {x : Option Nat} (hne : first ≠ last) {j : Nat} {q : Node} (hq : h[j]? = some q) :
    ∃ p, (turned h first last x)[j]? = some p ∧ p = { q with next := p.next } ∧
      p.next = if j = last then some first else if j = first then x else q.next := by
  have hj : j < (turned h first last x).length := by
    rw [turned_length]; obtain ⟨hj, -⟩ := List.getElem?_eq_some_iff.1 hq; exact hj
  obtain ⟨q', hq', h1, h2⟩ := turned_node hne (List.getElem?_eq_getElem hj)
  rw [hq] at hq'
  cases hq'
  exact ⟨_, List.getElem?_eq_getElem hj, h1, h2⟩

theorem chain_head {h : Heap} {o : Option Nat} {l : List Nat} (c : Chain h o l) : o = l.head? := by
  cases c <;> rfl

/-- Along a chain everything has the name and type of its first record, up to the name servers. -/
theorem chain_query {h : Heap} {rec : Nat → Rec} (g : Good h rec) : ∀ {pre : List Nat} {o : Option Nat} {i j : Nat} {l : List Nat} {p q : Node},
    Chain h o (i :: pre ++ j :: l) → h[i]? = some p → h[j]? = some q → (∀ k ∈ pre, ∀ r : Node, h[k]? = some r → r.type ≠ 2) → q.type ≠ 2 →
    q.query = p.query
  | [], o, i, j, l, p, q, c, hp, hq, _, h2 => by
    cases c with
    | cons hp' hc =>
      rw [hp] at hp'; cases hp'
      have hn : p.next = some j := chain_head hc
      obtain ⟨q', hq', -, h⟩ := g.next i p j hp hn
      rw [hq] at hq'; cases hq'
      exact h h2
  | k :: pre, o, i, j, l, p, q, c, hp, hq, hpre, h2 => by
    cases c with
    | cons hp' hc =>
      rw [hp] at hp'; cases hp'
      have hn : p.next = some k := chain_head hc
      obtain ⟨r, hr, -, h⟩ := g.next i p k hp hn
      rw [← h (hpre k (by simp) r hr)]
      exact chain_query g (pre := pre) hc hr hq (fun k' hk' => hpre k' (by simp [hk'])) h2

/-- The chain in its new order, and the heap is as good as before. -/
theorem turned_good {h : Heap} {rec : Nat → Rec} (g : Good h rec) {first last : Nat} {mid nss : List Nat}
    (c : Chain h (some first) (first :: mid ++ last :: nss))
    (hty : ∀ k ∈ first :: mid ++ [last], ∀ r : Node, h[k]? = some r → r.type ≠ 2)
    (hns : ∀ k ∈ nss, ∀ r : Node, h[k]? = some r → r.type = 2) :
    Good (turned h first last nss.head?) rec ∧
      Chain (turned h first last nss.head?) (mid ++ [last]).head? (mid ++ last :: first :: nss) := by
  have hnd := c.nodup g
  have hlt := c.lt
  have hne : first ≠ last := by
    intro e
    simp only [List.cons_append, List.nodup_cons, List.mem_append, List.mem_cons] at hnd
    exact hnd.1 (.inr (.inl e))
  -- nodes of the chain
  have node : ∀ k ∈ first :: mid ++ last :: nss, ∃ q : Node, h[k]? = some q := fun k hk => ⟨_, List.getElem?_eq_getElem (hlt k hk)⟩
  obtain ⟨pf, hpf⟩ := node first (by simp)
  obtain ⟨pl, hpl⟩ := node last (by simp)
  have hnext_last : Chain h pl.next nss := by
    have : Chain h (some last) (last :: nss) := Chain.suffix (pre := first :: mid) c
    cases this with
    | cons hp hc => rw [hpl] at hp; cases hp; exact hc
  have hpln := chain_head hnext_last
  have hx : ∀ j, nss.head? = some j → ∃ q : Node, h[j]? = some q ∧ q.type = 2 := by
    intro j hj
    have hm : j ∈ nss := List.mem_of_mem_head? hj
    obtain ⟨q, hq⟩ := node j (by simp [hm])
    exact ⟨q, hq, hns j hm q hq⟩
  refine ⟨⟨?_, ?_, ?_, ?_, ?_, ?_⟩, ?_⟩
  · intro i p hp
    obtain ⟨q, hq, e, -⟩ := turned_node hne hp
    have := g.holds i q hq
    rw [e]
    exact ⟨this.query, this.type, this.cls, this.ttl, this.data, this.sound⟩
  · intro i p j hp hj
    obtain ⟨q, hq, e, hn⟩ := turned_node hne hp
    rw [hn] at hj
    have ht : p.type = q.type := by rw [e]
    have hqu : p.query = q.query := by rw [e]
    by_cases e1 : i = last
    · rw [if_pos e1] at hj
      cases hj
      subst e1
      rw [hpl] at hq; cases hq
      obtain ⟨pf', h1, h2, -⟩ := turned_has (x := nss.head?) hne hpf
      refine ⟨pf', h1, ?_, ?_⟩
      · intro h; rw [ht] at h; exact absurd h (hty i (by simp) pl hpl)
      · intro _
        rw [hqu, h2]
        exact (chain_query g (pre := mid) c hpf hpl (fun k hk => hty k (by simp [hk])) (hty i (by simp) pl hpl)).symm
    rw [if_neg e1] at hj
    by_cases e2 : i = first
    · rw [if_pos e2] at hj
      obtain ⟨qj, hqj, ht2⟩ := hx j hj
      obtain ⟨pj, h1, h2, -⟩ := turned_has (x := nss.head?) hne hqj
      have : pj.type = 2 := by rw [h2]; exact ht2
      exact ⟨pj, h1, fun _ => this, fun h => absurd this h⟩
    · rw [if_neg e2] at hj
      obtain ⟨qj, hqj, k1, k2⟩ := g.next i q j hq hj
      obtain ⟨pj, h1, h2, -⟩ := turned_has (x := nss.head?) hne hqj
      have e3 : pj.type = qj.type := by rw [h2]
      have e4 : pj.query = qj.query := by rw [h2]
      exact ⟨pj, h1, by rw [ht, e3]; exact k1, by rw [e3, e4, hqu]; exact k2⟩
  · intro i p j hp hj
    obtain ⟨q, hq, e, -⟩ := turned_node hne hp
    rw [turned_length]
    rw [e] at hj
    exact g.ip i q j hq hj
  · intro i p j hp hj
    obtain ⟨q, hq, e, -⟩ := turned_node hne hp
    rw [turned_length]
    rw [e] at hj
    exact g.ip6 i q j hq hj
  · intro i p t j hp hj
    obtain ⟨q, hq, e, -⟩ := turned_node hne hp
    rw [turned_length]
    rw [e] at hj
    exact g.list i q t j hq hj
  · obtain ⟨f, hf⟩ := g.ends
    have dec : ∀ {pre : List Nat} {i j : Nat} {l : List Nat} {o : Option Nat}, Chain h o (i :: pre ++ j :: l) → f j < f i := by
      intro pre
      induction pre with
      | nil =>
        intro i j l o c
        cases c with
        | cons hp hc => exact hf _ _ _ hp (chain_head hc)
      | cons k pre ih =>
        intro i j l o c
        cases c with
        | cons hp hc =>
          have h1 := hf _ _ _ hp (chain_head hc)
          have h2 := ih hc
          omega
    have hfl : f last < f first := dec c
    -- the end of the chain
    let bot : Nat := match nss.head? with | some j => 2 * f j + 2 | none => 0
    refine ⟨fun v => if v = first then bot + 1 else 2 * f v + 2, ?_⟩
    intro i p j hp hj
    obtain ⟨q, hq, e, hn⟩ := turned_node hne hp
    rw [hn] at hj
    simp only
    by_cases e1 : i = last
    · rw [if_pos e1] at hj
      cases hj
      rw [if_pos rfl, if_neg (by omega), e1]
      match hh : nss.head? with
      | none => simp only [bot, hh]; omega
      | some k =>
        have := hf last pl k hpl (by rw [hpln, hh])
        simp only [bot, hh]; omega
    rw [if_neg e1] at hj
    by_cases e2 : i = first
    · rw [if_pos e2] at hj
      have hjf : j ≠ first := by
        intro e; subst e
        have hm : j ∈ nss := List.mem_of_mem_head? hj
        simp only [List.cons_append, List.nodup_cons, List.mem_append, List.mem_cons] at hnd
        exact hnd.1 (.inr (.inr hm))
      rw [if_neg hjf, if_pos e2]
      simp only [bot, hj]; omega
    · rw [if_neg e2] at hj
      have h1 := hf i q j hq hj
      rw [if_neg e2]
      by_cases e3 : j = first
      · rw [if_pos e3]
        subst e3
        match hh : nss.head? with
        | none => simp only [bot, hh]; omega
        | some k =>
          have := hf last pl k hpl (by rw [hpln, hh])
          simp only [bot, hh]; omega
      · rw [if_neg e3]; omega
  · -- the new order
    have tail : Chain (turned h first last nss.head?) nss.head? nss := by
      have keep : ∀ {l : List Nat} {o : Option Nat}, Chain h o l → (∀ k ∈ l, k ≠ first ∧ k ≠ last) → Chain (turned h first last nss.head?) o l := by
        intro l o c
        induction c with
        | nil => intro _; exact .nil
        | @cons i p l hp hc ih =>
          intro hk
          have h1 := hk i (by simp)
          refine .cons (p := p) ?_ (ih fun k hk' => hk k (by simp [hk']))
          rw [turned_get hne, if_neg h1.2, if_neg h1.1]
          exact hp
      have := keep hnext_last
      rw [hpln] at this
      apply this
      intro k hk
      constructor
      · intro e
        subst e
        simp only [List.cons_append, List.nodup_cons, List.mem_append, List.mem_cons] at hnd
        exact hnd.1 (.inr (.inr hk))
      · intro e
        subst e
        have := (List.nodup_append.1 (List.nodup_cons.1 hnd).2).2.1
        exact (List.nodup_cons.1 this).1 hk
    have tail2 : Chain (turned h first last nss.head?) (some last) (last :: first :: nss) := by
      obtain ⟨pl', h1, h2, h3⟩ := turned_has (x := nss.head?) hne hpl
      obtain ⟨pf', k1, k2, k3⟩ := turned_has (x := nss.head?) hne hpf
      rw [if_pos rfl] at h3
      rw [if_neg hne, if_pos rfl] at k3
      refine .cons h1 ?_
      rw [h3]
      refine .cons k1 ?_
      rw [k3]
      exact tail
    cases c with
    | cons hp hc =>
      have hsub : ∀ {m : List Nat} {o : Option Nat}, Chain h o (m ++ last :: nss) → (∀ k ∈ m, k ≠ first ∧ k ≠ last) →
          Chain (turned h first last nss.head?) (m ++ [last]).head? (m ++ last :: first :: nss) := by
        intro m
        induction m with
        | nil => intro o _ _; exact tail2
        | cons k m ih =>
          intro o c hk
          cases c with
          | @cons _ p _ hp hc =>
            have h1 := hk k (by simp)
            refine .cons (p := p) ?_ ?_
            · rw [turned_get hne, if_neg h1.2, if_neg h1.1]; exact hp
            · have hh := chain_head hc
              have := ih hc (fun k' hk' => hk k' (by simp [hk']))
              rw [hh]
              show Chain _ (m ++ last :: nss).head? (m ++ last :: first :: nss)
              have e : (m ++ last :: nss).head? = (m ++ [last]).head? := by cases m <;> rfl
              rw [e]; exact this
      apply hsub hc
      intro k hk
      simp only [List.cons_append, List.nodup_cons, List.mem_append, List.mem_cons] at hnd
      constructor
      · intro e; subst e; exact hnd.1 (.inl hk)
      · intro e; subst e
        have := (List.nodup_append.1 hnd.2).2.2 k hk k (by simp)
        exact this rfl

end Reply
end Mara
