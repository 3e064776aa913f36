import Verif.Mara.ReplyProps
/-!
# Lemmas: a reply only depends on the records that can be reached
-/

namespace Mara
namespace Reply

open Spec
open Dw (Res)

/-- Pointers from places of `D` lead to places of `D`. -/
structure Closed (D : Nat → Prop) (h : Heap) : Prop where
  next : ∀ (i : Nat) (p : Node) (j : Nat), D i → h[i]? = some p → p.next = some j → D j
  ip : ∀ (i : Nat) (p : Node) (j : Nat), D i → h[i]? = some p → p.ip = some j → D j
  ip6 : ∀ (i : Nat) (p : Node) (j : Nat), D i → h[i]? = some p → p.ip6 = some j → D j
  list : ∀ (i : Nat) (p : Node) (t j : Nat), D i → h[i]? = some p → (t, some j) ∈ p.list → D j

/-- The same records at places of `D`. -/
structure SameOn (D : Nat → Prop) (h h' : Heap) : Prop where
  len : h.length = h'.length
  at_ : ∀ i, D i → h[i]? = h'[i]?

theorem SameOn.deref {D : Nat → Prop} {h h' : Heap} (s : SameOn D h h') {i : Nat} (hi : D i) : deref h' i = deref h i := by
  unfold Reply.deref
  rw [s.at_ i hi]

theorem SameOn.setNext {D : Nat → Prop} {h h' : Heap} (s : SameOn D h h') (i : Nat) (v : Option Nat) :
    SameOn D (setNext h i v) (setNext h' i v) where
  len := by rw [setNext_length, setNext_length, s.len]
  at_ j hj := by rw [setNext_get, setNext_get, s.at_ j hj]

theorem Closed.setNext {D : Nat → Prop} {h : Heap} (c : Closed D h) (i : Nat) {v : Option Nat} (hv : ∀ j, v = some j → D j) :
    Closed D (setNext h i v) := by
  have key : ∀ (j : Nat) (p : Node), (Reply.setNext h i v)[j]? = some p →
      ∃ q : Node, h[j]? = some q ∧ p.ip = q.ip ∧ p.ip6 = q.ip6 ∧ p.list = q.list ∧ (p.next = q.next ∨ p.next = v) := by
    intro j p hp
    rw [setNext_get] at hp
    split at hp
    · cases hq : h[j]? with
      | none => rw [hq] at hp; cases hp
      | some q =>
        rw [hq] at hp
        simp only [Option.map_some, Option.some.injEq] at hp
        subst hp
        exact ⟨q, rfl, rfl, rfl, rfl, .inr rfl⟩
    · exact ⟨p, hp, rfl, rfl, rfl, .inl rfl⟩
  refine ⟨?_, ?_, ?_, ?_⟩
  · intro j p k hj hp hk
    obtain ⟨q, hq, -, -, -, h1 | h1⟩ := key j p hp
    · exact c.next j q k hj hq (h1 ▸ hk)
    · exact hv k (h1 ▸ hk)
  · intro j p k hj hp hk
    obtain ⟨q, hq, h1, -⟩ := key j p hp
    exact c.ip j q k hj hq (h1 ▸ hk)
  · intro j p k hj hp hk
    obtain ⟨q, hq, -, h1, -⟩ := key j p hp
    exact c.ip6 j q k hj hq (h1 ▸ hk)
  · intro j p t k hj hp hk
    obtain ⟨q, hq, -, -, h1, -⟩ := key j p hp
    exact c.list j q t k hj hq (h1 ▸ hk)

/-- The same with other records. -/
def over (h : Heap) (r : Res St) : Res St := r >>= fun s => .ok { s with heap := h }

theorem addrs_over {D : Nat → Prop} {cfg : Cfg} {h' : Heap} : ∀ (n : Nat) (o : Option Nat) (cnt : Nat) (s : St), Closed D s.heap → SameOn D s.heap h' →
    (∀ j, o = some j → D j) → addrs cfg n o cnt { s with heap := h' } = over h' (addrs cfg n o cnt s)
  | _, none, _, s, _, _, _ => by unfold addrs; rfl
  | 0, some _, _, s, _, _, _ => by unfold addrs; rfl
  | n + 1, some i, cnt, s, hc, hs, ho => by
    unfold addrs
    simp only [hs.deref (ho i rfl)]
    cases hd : deref s.heap i with
    | err => rfl
    | ub => rfl
    | ok p =>
      have hp : s.heap[i]? = some p := by
        unfold deref at hd
        split at hd
        · cases hd
        · rename_i q hq; injection hd with hd; rw [hq, hd]
      have hn : ∀ j, p.next = some j → D j := fun j hj => hc.next i p j (ho i rfl) hp hj
      rw [Res.ok_bind, Res.ok_bind]
      by_cases h1 : p.type = 2
      · rw [if_pos h1, if_pos h1]; rfl
      · rw [if_neg h1, if_neg h1]
        by_cases h2 : i ∈ s.seen
        · rw [if_pos h2, if_pos h2]; exact addrs_over n p.next cnt s hc hs hn
        · rw [if_neg h2, if_neg h2]
          by_cases h3 : cnt ≥ cfg.maxAr ∨ s.total ≥ cfg.maxTotal
          · rw [if_pos h3, if_pos h3]; rfl
          · rw [if_neg h3, if_neg h3]
            cases put 5000 s.ar p with
            | none => rfl
            | some ar =>
              exact addrs_over n p.next (cnt + 1) { s with ar := ar, total := s.total + 1, arc := s.arc + 1, seen := (if s.seen.length < 250 then i :: s.seen else s.seen) } hc hs hn

theorem addrs_heap {cfg : Cfg} : ∀ (n : Nat) (o : Option Nat) (cnt : Nat) (s r : St), addrs cfg n o cnt s = .ok r → r.heap = s.heap ∧ r.head = s.head
  | _, none, _, s, r, h => by unfold addrs at h; injection h with h; rw [h]; exact ⟨rfl, rfl⟩
  | 0, some _, _, s, r, h => by unfold addrs at h; cases h
  | n + 1, some i, cnt, s, r, h => by
    unfold addrs at h
    cases hd : deref s.heap i with
    | err => rw [hd] at h; cases h
    | ub => rw [hd] at h; cases h
    | ok p =>
      rw [hd, Res.ok_bind] at h
      split at h
      · injection h with h; rw [h]; exact ⟨rfl, rfl⟩
      · split at h
        · exact addrs_heap n _ _ _ _ h
        · split at h
          · injection h with h; rw [h]; exact ⟨rfl, rfl⟩
          · split at h
            · injection h with h; rw [← h]; exact ⟨rfl, rfl⟩
            · have := addrs_heap n _ _ _ _ h; exact this

theorem follow_over {D : Nat → Prop} {t : Nat} {h' : Heap} : ∀ (n : Nat) (o : Option Nat) (s : St), Closed D s.heap → SameOn D s.heap h' →
    (∀ j, o = some j → D j) → follow t n o { s with heap := h' } = over h' (follow t n o s)
  | 0, _, s, _, _, _ => by unfold follow; rfl
  | n + 1, none, s, _, _, _ => by unfold follow; rfl
  | n + 1, some i, s, hc, hs, ho => by
    unfold follow
    simp only [hs.deref (ho i rfl)]
    cases hd : deref s.heap i with
    | err => rfl
    | ub => rfl
    | ok p =>
      have hp : s.heap[i]? = some p := by
        unfold deref at hd
        split at hd
        · cases hd
        · rename_i q hq; injection hd with hd; rw [hq, hd]
      have hn : ∀ j, p.next = some j → D j := fun j hj => hc.next i p j (ho i rfl) hp hj
      rw [Res.ok_bind, Res.ok_bind]
      by_cases h1 : p.type ≠ t
      · rw [if_pos h1, if_pos h1]; rfl
      · rw [if_neg h1, if_neg h1]
        cases put 1024 s.most p with
        | none => rfl
        | some most => exact follow_over n p.next { s with most := most, an := s.an + 1 } hc hs hn

theorem follow_heap {t : Nat} : ∀ (n : Nat) (o : Option Nat) (s r : St), follow t n o s = .ok r → r.heap = s.heap ∧ r.head = s.head
  | 0, _, s, r, h => by unfold follow at h; injection h with h; rw [h]; exact ⟨rfl, rfl⟩
  | n + 1, none, s, r, h => by unfold follow at h; injection h with h; rw [h]; exact ⟨rfl, rfl⟩
  | n + 1, some i, s, r, h => by
    unfold follow at h
    cases hd : deref s.heap i with
    | err => rw [hd] at h; cases h
    | ub => rw [hd] at h; cases h
    | ok p =>
      rw [hd, Res.ok_bind] at h
      split at h
      · injection h with h; rw [h]; exact ⟨rfl, rfl⟩
      · split at h
        · injection h with h; rw [← h]; exact ⟨rfl, rfl⟩
        · have := follow_heap n _ _ _ h; exact this

theorem onList_mem {t : Nat} {l : List (Nat × Option Nat)} {j : Nat} (h : onList t l = some j) : ∃ t', (t', some j) ∈ l := by
  unfold onList at h
  split at h
  · cases h
  · rename_i e he
    have := List.mem_of_find?_eq_some he
    refine ⟨e.1, ?_⟩
    rw [← h]
    exact List.mem_of_mem_take this

theorem entry_over {D : Nat → Prop} {cfg : Cfg} {t : Nat} {inNs : Bool} {h' : Heap} {i : Nat} {p : Node} {s : St} (hi : D i) (hp : s.heap[i]? = some p)
    (hc : Closed D s.heap) (hs : SameOn D s.heap h') : entry cfg t inNs p { s with heap := h' } = over h' (entry cfg t inNs p s) := by
  unfold entry
  dsimp only
  cases put 1024 s.most p with
  | none => rfl
  | some most =>
    dsimp only
    by_cases h5 : p.type = 5
    · rw [if_pos h5, if_pos h5]
      refine follow_over 100 _ { s with total := s.total + 1, most := most, an := if inNs = true then s.an else s.an + 1, ns := if inNs = true then s.ns + 1 else s.ns } hc hs ?_
      intro j hj
      obtain ⟨t', ht⟩ := onList_mem hj
      exact hc.list i p t' j hi hp ht
    · rw [if_neg h5, if_neg h5]
      generalize hs1 : ({ s with total := s.total + 1, most := most, an := if inNs = true then s.an else s.an + 1, ns := if inNs = true then s.ns + 1 else s.ns } : St) = s1
      have e : ({ s with heap := h', total := s.total + 1, most := most, an := if inNs = true then s.an else s.an + 1, ns := if inNs = true then s.ns + 1 else s.ns } : St) = { s1 with heap := h' } := by
        rw [← hs1]
      have eh : s1.heap = s.heap := by rw [← hs1]
      rw [e]
      rw [← hs.len, addrs_over _ _ _ s1 (eh ▸ hc) (eh ▸ hs) (fun j hj => hc.ip i p j hi hp hj)]
      cases ha : addrs cfg (s.heap.length + 1) p.ip 0 s1 with
      | err => rfl
      | ub => rfl
      | ok s2 =>
        have eh2 : s2.heap = s.heap := by rw [(addrs_heap _ _ _ _ _ ha).1, eh]
        unfold over
        rw [Res.ok_bind, Res.ok_bind]
        show (if s2.bad = true ∨ cfg.v6 = false then _ else _) = (if s2.bad = true ∨ cfg.v6 = false then _ else _) >>= _
        by_cases hb : s2.bad = true ∨ cfg.v6 = false
        · rw [if_pos hb, if_pos hb]; rfl
        · rw [if_neg hb, if_neg hb]
          have hl : ({ s2 with heap := h' } : St).heap.length = s2.heap.length := by rw [eh2, hs.len]
          rw [hl]
          exact addrs_over _ _ _ s2 (eh2 ▸ hc) (eh2 ▸ hs) (fun j hj => hc.ip6 i p j hi hp hj)

theorem entry_heap {cfg : Cfg} {t : Nat} {inNs : Bool} {p : Node} {s r : St} (h : entry cfg t inNs p s = .ok r) :
    r.heap = s.heap ∧ r.head = s.head := by
  unfold entry at h
  dsimp only at h
  split at h
  · injection h with h; rw [← h]; exact ⟨rfl, rfl⟩
  · split at h
    · have := follow_heap _ _ _ _ h; exact this
    · generalize hs1 : ({ s with total := s.total + 1, most := _, an := if inNs = true then s.an else s.an + 1, ns := if inNs = true then s.ns + 1 else s.ns } : St) = s1 at h
      cases ha : addrs cfg (s.heap.length + 1) p.ip 0 s1 with
      | err => rw [ha] at h; cases h
      | ub => rw [ha] at h; cases h
      | ok s2 =>
        rw [ha, Res.ok_bind] at h
        have e2 := addrs_heap _ _ _ _ _ ha
        have e1 : s1.heap = s.heap ∧ s1.head = s.head := by rw [← hs1]; exact ⟨rfl, rfl⟩
        split at h
        · injection h with h; rw [← h, e2.1, e2.2]; exact e1
        · have := addrs_heap _ _ _ _ _ h
          rw [this.1, this.2, e2.1, e2.2]; exact e1

end Reply
end Mara

namespace Mara
namespace Reply

open Spec
open Dw (Res)

/-- What the loop leaves. -/
structure Kept (D : Nat → Prop) (h' : Heap) (r : St) (h'' : Heap) : Prop where
  same : SameOn D r.heap h''
  closed : Closed D r.heap
  head : D r.head
  out : ∀ i, ¬D i → h''[i]? = h'[i]?

theorem setNext_out {D : Nat → Prop} {h : Heap} {i : Nat} {v : Option Nat} (hi : D i) : ∀ j, ¬D j → (setNext h i v)[j]? = h[j]? := by
  intro j hj
  rw [setNext_get, if_neg]
  intro e
  exact hj (e ▸ hi)

theorem deref_get {h : Heap} {i : Nat} {p : Node} (hd : deref h i = .ok p) : h[i]? = some p := by
  unfold deref at hd
  split at hd
  · cases hd
  · rename_i q hq; injection hd with hd; rw [hq, hd]

/-- The first name server of a chain. -/
theorem walk_turn' {cfg : Cfg} {t : Nat} {isAuth deleg : Bool} {first n i cnt : Nat} {second last : Option Nat} {s : St} {p : Node} {nx : Option Nat}
    (hp : s.heap[i]? = some p) (h2 : p.type = 2) (ht : t ≠ 2)
    (hp' : (turnS (decide (cfg.maxAr = 1)) first i second last s).1.heap[i]? = some { p with next := nx }) :
    walk cfg t isAuth deleg first (n + 1) (some i) false cnt second last s =
      walk cfg t isAuth deleg first (n + 1) (some i) true 0
        (turnS (decide (cfg.maxAr = 1)) first i second last s).2 last (turnS (decide (cfg.maxAr = 1)) first i second last s).1 := by
  unfold walk deref
  rw [hp, hp']
  clear hp' hp
  have hT : decide (t ≠ 2 ∧ p.type = 2 ∧ false = false) = true := decide_eq_true ⟨ht, h2, rfl⟩
  have hF : decide (t ≠ 2 ∧ p.type = 2 ∧ true = false) = false := decide_eq_false (by simp)
  have hT' : decide (t ≠ 2 ∧ p.type = 2 ∧ True) = true := decide_eq_true ⟨ht, h2, trivial⟩
  simp only [Res.ok_bind]
  first | rw [hT] | rw [hT']
  rw [hF]
  simp only [Bool.true_and, Bool.false_and]
  generalize decide (cfg.maxAr = 1) = d
  cases d <;> cases second <;> cases last <;> rfl

/-- One round of the loop that is not at the first name server. -/
theorem round_over {D : Nat → Prop} {cfg : Cfg} {t : Nat} {isAuth deleg : Bool} {first : Nat} (hfirst : D first) {n : Nat}
    (ih : ∀ (o : Option Nat) (inNs : Bool) (cnt : Nat) (second last : Option Nat) (s : St) (h' : Heap) (r : St),
      Closed D s.heap → SameOn D s.heap h' → (∀ j, o = some j → D j) → (∀ j, second = some j → D j) → (∀ j, last = some j → D j) → D s.head →
      walk cfg t isAuth deleg first n o inNs cnt second last s = .ok r →
      ∃ h'', walk cfg t isAuth deleg first n o inNs cnt second last { s with heap := h' } = .ok { r with heap := h'' } ∧ Kept D h' r h'')
    {i : Nat} {p : Node} {inNs : Bool} {cnt : Nat} {second last : Option Nat} {s : St} {h' : Heap} {r : St}
    (hc : Closed D s.heap) (hs : SameOn D s.heap h') (hi : D i) (hsec : ∀ j, second = some j → D j) (hh : D s.head)
    (hp : s.heap[i]? = some p) (hturn : ¬(t ≠ 2 ∧ p.type = 2 ∧ inNs = false))
    (hw : walk cfg t isAuth deleg first (n + 1) (some i) inNs cnt second last s = .ok r) :
    ∃ h'', walk cfg t isAuth deleg first (n + 1) (some i) inNs cnt second last { s with heap := h' } = .ok { r with heap := h'' } ∧ Kept D h' r h'' := by
  rw [walk_round hp hturn rfl] at hw
  rw [walk_round (s := { s with heap := h' }) (p := p) (by rw [← hs.at_ i hi]; exact hp) hturn rfl]
  dsimp only
  generalize decide (cnt < cfg.maxChain ∧ s.total < cfg.maxTotal ∧ (inNs = false ∨ isAuth = true ∨ deleg = true)) = go at hw ⊢
  have he' : (if go then entry cfg t inNs p { s with heap := h' } else .ok { s with heap := h' }) =
      over h' (if go then entry cfg t inNs p s else .ok s) := by
    cases go
    · rfl
    · exact entry_over hi hp hc hs
  rw [he']
  cases hent : (if go then entry cfg t inNs p s else .ok s) with
  | err => rw [hent] at hw; cases hw
  | ub => rw [hent] at hw; cases hw
  | ok s2 =>
  have hs2 : s2.heap = s.heap ∧ s2.head = s.head := by
    cases go
    · injection hent with hent; rw [← hent]; exact ⟨rfl, rfl⟩
    · exact entry_heap hent
  rw [hent] at hw
  simp only [over, Res.bind, bind] at hw ⊢
  by_cases hbad : s2.bad = true
  · rw [if_pos hbad] at hw
    injection hw with hw
    subst hw
    refine ⟨h', by rw [if_pos hbad], ?_, ?_, ?_, fun _ _ => rfl⟩
    · rw [hs2.1]; exact hs
    · rw [hs2.1]; exact hc
    · rw [hs2.2]; exact hh
  · rw [if_neg hbad] at hw
    rw [if_neg hbad]
    have d1 : deref s2.heap i = .ok p := by unfold deref; rw [hs2.1, hp]
    have d2 : deref h' i = .ok p := by rw [hs.deref hi, ← hs2.1, d1]
    rw [d1] at hw
    rw [d2]
    simp only at hw ⊢
    have hqn : ∀ j, p.next = some j → D j := fun j hj => hc.next i p j hi hp hj
    have hlast : ∀ j, some i = some j → D j := fun j hj => by injection hj with hj; exact hj ▸ hi
    split at hw
    · rename_i hcond
      rw [if_pos hcond]
      have hb : D (second.getD 0) := by
        cases hsc : second with
        | none => rw [hsc] at hcond; exact absurd hcond.2.1 (by simp)
        | some b => exact hsec b hsc
      obtain ⟨h'', w1, w2⟩ := ih _ _ _ none (some i) { s2 with heap := setNext (setNext s2.heap first none) i (some first), head := second.getD 0 }
        (setNext (setNext h' first none) i (some first)) r
        (by simp only [hs2.1]; exact (hc.setNext first (by intro j hj; cases hj)).setNext i (by intro j hj; injection hj with hj; exact hj ▸ hfirst))
        (by simp only [hs2.1]; exact (hs.setNext _ _).setNext _ _) hqn (by intro j hj; cases hj) hlast hb hw
      refine ⟨h'', w1, w2.same, w2.closed, w2.head, fun j hj => (w2.out j hj).trans ?_⟩
      rw [setNext_out hi j hj, setNext_out hfirst j hj]
    · rename_i hcond
      rw [if_neg hcond]
      exact ih _ _ _ _ (some i) s2 h' r (hs2.1 ▸ hc) (hs2.1 ▸ hs) hqn hsec hlast (hs2.2 ▸ hh) hw

theorem walk_over {D : Nat → Prop} {cfg : Cfg} {t : Nat} {isAuth deleg : Bool} {first : Nat} (hfirst : D first) :
    ∀ (n : Nat) (o : Option Nat) (inNs : Bool) (cnt : Nat) (second last : Option Nat) (s : St) (h' : Heap) (r : St),
    Closed D s.heap → SameOn D s.heap h' → (∀ j, o = some j → D j) → (∀ j, second = some j → D j) → (∀ j, last = some j → D j) → D s.head →
    walk cfg t isAuth deleg first n o inNs cnt second last s = .ok r →
    ∃ h'', walk cfg t isAuth deleg first n o inNs cnt second last { s with heap := h' } = .ok { r with heap := h'' } ∧ Kept D h' r h''
  | _, none, inNs, cnt, second, last, s, h', r, hc, hs, _, _, _, hh, hw => by
    unfold walk at hw ⊢
    injection hw with hw
    subst hw
    exact ⟨h', rfl, hs, hc, hh, fun _ _ => rfl⟩
  | 0, some _, inNs, cnt, second, last, s, h', r, _, _, _, _, _, _, hw => by unfold walk at hw; cases hw
  | n + 1, some i, inNs, cnt, second, last, s, h', r, hc, hs, ho, hsec, hlast, hh, hw => by
    have hi := ho i rfl
    have ih := walk_over (cfg := cfg) (t := t) (isAuth := isAuth) (deleg := deleg) hfirst n
    cases hp : s.heap[i]? with
    | none =>
      unfold walk deref at hw
      rw [hp] at hw
      cases hw
    | some p =>
    by_cases hturn : t ≠ 2 ∧ p.type = 2 ∧ inNs = false
    · obtain ⟨ht, h2, hin⟩ := hturn
      subst hin
      have hp1 : h'[i]? = some p := by rw [← hs.at_ i hi]; exact hp
      generalize hone : decide (cfg.maxAr = 1) = one
      -- the records after the turn
      have key : ∃ (s1 : St) (h1 : Heap) (second1 nx : _), turnS one first i second last s = (s1, second1) ∧
          turnS one first i second last { s with heap := h' } = ({ s1 with heap := h1 }, second1) ∧
          s1.heap[i]? = some { p with next := nx } ∧ h1[i]? = some { p with next := nx } ∧ Closed D s1.heap ∧ SameOn D s1.heap h1 ∧
          (∀ j, second1 = some j → D j) ∧ D s1.head ∧ ∀ j, ¬D j → h1[j]? = h'[j]? := by
        have same : ∃ (s1 : St) (h1 : Heap) (second1 nx : _), (s, second) = (s1, second1) ∧
          (({ s with heap := h' } : St), second) = ({ s1 with heap := h1 }, second1) ∧
          s1.heap[i]? = some { p with next := nx } ∧ h1[i]? = some { p with next := nx } ∧ Closed D s1.heap ∧ SameOn D s1.heap h1 ∧
          (∀ j, second1 = some j → D j) ∧ D s1.head ∧ ∀ j, ¬D j → h1[j]? = h'[j]? :=
          ⟨s, h', second, p.next, rfl, rfl, hp, hp1, hc, hs, hsec, hh, fun _ _ => rfl⟩
        cases one with
        | false => exact same
        | true =>
          cases hsc : second with
          | none => rw [hsc] at same; exact same
          | some b =>
            cases hl : last with
            | none => rw [hsc] at same; exact same
            | some l =>
              have hb := hsec b hsc
              have hl := hlast l hl
              have get : ∀ h : Heap, h[i]? = some p → ∃ nx, (setNext (setNext h first (some i)) l (some first))[i]? = some { p with next := nx } ∧
                  nx = if i = l then some first else if i = first then some i else p.next := by
                intro h hp
                rw [setNext_get, setNext_get, hp]
                refine ⟨_, ?_, rfl⟩
                split_ifs <;> rfl
              obtain ⟨nx, g1, e1⟩ := get s.heap hp
              obtain ⟨nx', g2, e2⟩ := get h' hp1
              rw [← e1] at e2
              subst e2
              refine ⟨{ s with heap := setNext (setNext s.heap first (some i)) l (some first), head := b }, setNext (setNext h' first (some i)) l (some first),
                none, nx', rfl, rfl, g1, g2, ?_, (hs.setNext _ _).setNext _ _, by (intro j hj; cases hj), hb, ?_⟩
              · exact (hc.setNext first (by intro j hj; injection hj with hj; exact hj ▸ hi)).setNext l (by intro j hj; injection hj with hj; exact hj ▸ hfirst)
              · intro j hj
                rw [setNext_out hl j hj, setNext_out hfirst j hj]
      obtain ⟨s1, h1, second1, nx, e1, e2, g1, g2, c1, c2, c3, c4, c5⟩ := key
      rw [walk_turn' (nx := nx) hp h2 ht (by rw [hone, e1]; exact g1), hone, e1] at hw
      rw [walk_turn' (s := { s with heap := h' }) (nx := nx) hp1 h2 ht (by rw [hone, e2]; exact g2), hone, e2]
      obtain ⟨h'', w1, w2⟩ := round_over hfirst ih c1 c2 hi c3 c4 g1 (by simp) hw
      exact ⟨h'', w1, w2.same, w2.closed, w2.head, fun j hj => (w2.out j hj).trans (c5 j hj)⟩
    · exact round_over hfirst ih hc hs hi hsec hh hp hturn hw

/-- **The reply only depends on the records that can be reached** from the first one; the others are
left alone. -/
theorem udpsuccess_over {D : Nat → Prop} {cfg : Cfg} {h h' : Heap} {first id : Nat} {query : List UInt8} {rd force long : Bool} {d : Done}
    (hc : Closed D h) (hs : SameOn D h h') (hf : D first) (hd : udpsuccess cfg h first id query rd force long = .ok d) :
    ∃ h'', udpsuccess cfg h' first id query rd force long = .ok { d with heap := h'' } ∧ SameOn D d.heap h'' ∧ Closed D d.heap ∧ D d.head ∧
      ∀ i, ¬D i → h''[i]? = h'[i]? := by
  unfold udpsuccess at hd ⊢
  rw [hs.deref hf]
  cases hp : deref h first with
  | err => rw [hp] at hd; cases hd
  | ub => rw [hp] at hd; cases hd
  | ok p =>
  have hp' := deref_get hp
  rw [hp, Res.ok_bind] at hd
  rw [Res.ok_bind]
  dsimp only at hd ⊢
  cases ht : Lookup.getRtype query with
  | none => rw [ht] at hd; cases hd
  | some t =>
  rw [ht] at hd
  dsimp only at hd ⊢
  have quick : ∀ c, (Res.ok (⟨c, h, first⟩ : Done) = .ok d) → ∃ h'', (Res.ok (⟨c, h', first⟩ : Done)) = .ok { d with heap := h'' } ∧ SameOn D d.heap h'' ∧ Closed D d.heap ∧ D d.head ∧
      ∀ i, ¬D i → h''[i]? = h'[i]? := by
    intro c e
    injection e with e
    subst e
    exact ⟨h', rfl, hs, hc, hf, fun _ _ => rfl⟩
  split at hd
  · rename_i hlen
    rw [if_pos hlen]
    exact quick _ hd
  · rename_i hlen
    rw [if_neg hlen]
    cases hm1 : append 1024 (makeHdr { id := id }) query with
    | none => rw [hm1] at hd; exact quick _ hd
    | some m1 =>
    rw [hm1] at hd
    dsimp only at hd ⊢
    cases hm2 : append 1024 m1 (put16 1) with
    | none => rw [hm2] at hd; exact quick _ hd
    | some m2 =>
    rw [hm2] at hd
    dsimp only at hd ⊢
    have rest : ∀ second : Option Nat, (∀ j, second = some j → D j) → ∀ (k : St → Res Done), (∀ s h'' (d : Done), k s = .ok d → d.heap = s.heap ∧ d.head = s.head ∧
          k { s with heap := h'' } = .ok { d with heap := h'' }) → ∀ m : List UInt8,
        (walk cfg t p.auth (decide (t ≠ 2 ∧ p.type = 2)) first (h.length + 1) (some first) false 0 second none
          { heap := h, head := first, most := m } >>= k) = .ok d →
        ∃ h'', (walk cfg t p.auth (decide (t ≠ 2 ∧ p.type = 2)) first (h'.length + 1) (some first) false 0 second none
          { heap := h', head := first, most := m } >>= k) = .ok { d with heap := h'' } ∧ SameOn D d.heap h'' ∧ Closed D d.heap ∧ D d.head ∧
          ∀ i, ¬D i → h''[i]? = h'[i]? := by
      intro second hsec k hk m hw
      rw [← hs.len]
      cases hr : walk cfg t p.auth (decide (t ≠ 2 ∧ p.type = 2)) first (h.length + 1) (some first) false 0 second none
          { heap := h, head := first, most := m } with
      | err => rw [hr] at hw; cases hw
      | ub => rw [hr] at hw; cases hw
      | ok r =>
        obtain ⟨h'', w1, w2⟩ := walk_over hf (h.length + 1) (some first) false 0 second none { heap := h, head := first, most := m } h' r hc hs
          (fun j hj => by injection hj with hj; exact hj ▸ hf) hsec (fun j hj => by cases hj) hf hr
        rw [hr, Res.ok_bind] at hw
        obtain ⟨k1, k2, k3⟩ := hk r h'' d hw
        refine ⟨h'', ?_, k1 ▸ w2.same, k1 ▸ w2.closed, k2 ▸ w2.head, w2.out⟩
        have w1' : walk cfg t p.auth (decide (t ≠ 2 ∧ p.type = 2)) first (h.length + 1) (some first) false 0 second none
          { heap := h', head := first, most := m } = .ok { r with heap := h'' } := w1
        rw [w1', Res.ok_bind, k3]
    have fin : ∀ (s : St) (h'' : Heap) (d : Done),
        (if s.bad = true then Res.ok ⟨servfail id rd, s.heap, s.head⟩
        else match append 1024 (makeHdr { id := id, qr := true, aa := force || p.auth, rd := rd, qd := 1, an := s.an, ns := s.ns, ar := s.arc } ++ s.most.drop 12) s.ar with
          | none => Res.ok ⟨servfail id rd, s.heap, s.head⟩
          | some most => do
            let out ← fit most long
            match out with
            | none => Res.ok ⟨servfail id rd, s.heap, s.head⟩
            | some c => Res.ok (⟨c, s.heap, s.head⟩ : Done)) = .ok d → d.heap = s.heap ∧ d.head = s.head ∧
        (if s.bad = true then Res.ok ⟨servfail id rd, h'', s.head⟩
        else match append 1024 (makeHdr { id := id, qr := true, aa := force || p.auth, rd := rd, qd := 1, an := s.an, ns := s.ns, ar := s.arc } ++ s.most.drop 12) s.ar with
          | none => Res.ok ⟨servfail id rd, h'', s.head⟩
          | some most => do
            let out ← fit most long
            match out with
            | none => Res.ok ⟨servfail id rd, h'', s.head⟩
            | some c => Res.ok (⟨c, h'', s.head⟩ : Done)) = .ok { d with heap := h'' } := by
      intro s h'' d hk
      split at hk
      · rename_i hb
        injection hk with hk
        subst hk
        rw [if_pos hb]
        exact ⟨rfl, rfl, rfl⟩
      · rename_i hb
        rw [if_neg hb]
        cases ha : append 1024 (makeHdr { id := id, qr := true, aa := force || p.auth, rd := rd, qd := 1, an := s.an, ns := s.ns, ar := s.arc } ++ s.most.drop 12) s.ar with
        | none =>
          rw [ha] at hk
          injection hk with hk
          subst hk
          exact ⟨rfl, rfl, rfl⟩
        | some most =>
          rw [ha] at hk
          dsimp only at hk ⊢
          cases hfit : fit most long with
          | err => rw [hfit] at hk; cases hk
          | ub => rw [hfit] at hk; cases hk
          | ok out =>
            rw [hfit, Res.ok_bind] at hk
            rw [Res.ok_bind]
            cases out with
            | none => injection hk with hk; subst hk; exact ⟨rfl, rfl, rfl⟩
            | some c => injection hk with hk; subst hk; exact ⟨rfl, rfl, rfl⟩
    cases hn : p.next with
    | none =>
      rw [hn] at hd
      exact rest none (by intro j hj; cases hj) _ fin m2 hd
    | some j =>
      have hj : D j := hc.next first p j hf hp' hn
      rw [hn] at hd
      dsimp only at hd ⊢
      rw [hs.deref hj]
      cases hq : deref h j with
      | err => rw [hq] at hd; cases hd
      | ub => rw [hq] at hd; cases hd
      | ok q =>
        rw [hq] at hd
        simp only [Res.ok_bind] at hd ⊢
        exact rest (if t ≠ 2 ∧ q.type = 2 then none else some j) (by
          intro i hi
          split at hi
          · cases hi
          · injection hi with hi
            exact hi ▸ hj) _ fin m2 hd

end Reply
end Mara
