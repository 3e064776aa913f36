import Verif.Mara.BigHashExact
/-!
# The main table against the records given to it: one record at a time
-/

namespace Mara
namespace Big

open Dw (Res)
open Lookup (getRtype changeRtype u16)
open Spec

variable {s : Store} {A : Key → Option Ent} {own : Key → List Nat} {L : List UInt8 → List (Nat × Nat)}

theorem deref_some {i : Nat} {n : Node} (h : s.heap[i]? = some n) (hl : n.live = true) : s.deref i = .ok n := by
  unfold Store.deref
  rw [h]
  simp only [hl, if_true]

/-- The end of a path. -/
theorem Path.split_last {heap : List Node} {kq : List UInt8} {t : Nat} {a : Bool} {tl : Option Nat} : ∀ {l : List Nat} {rs : List Rec},
    Path heap kq t a l rs tl → ∃ l0 p rs0 r, l = l0 ++ [p] ∧ rs = rs0 ++ [r] ∧ heap[p]? = some ⟨a, r.2, t, r.1, tl, true, kq⟩
  | [], _, h => absurd rfl h.ne
  | [i], [], h => h.elim
  | [i], [r], h => ⟨[], i, [], r, rfl, rfl, h⟩
  | [i], _ :: _ :: _, h => h.elim
  | _ :: _ :: _, [], h => h.elim
  | i :: j :: l, r :: rs, h => by
    obtain ⟨l0, p, rs0, r', h1, h2, h3⟩ := Path.split_last h.2
    exact ⟨i :: l0, p, r :: rs0, r', by rw [h1]; rfl, by rw [h2]; rfl, h3⟩

/-- A path grows at its end. -/
theorem Path.snoc {heap heap' : List Node} {kq : List UInt8} {t : Nat} {a : Bool} {tl : Option Nat} {q : Nat} {r' : Rec} :
    ∀ {l0 : List Nat} {p : Nat} {rs0 : List Rec} {r : Rec}, Path heap kq t a (l0 ++ [p]) (rs0 ++ [r]) tl →
    (∀ i ∈ l0, heap'[i]? = heap[i]?) → heap'[p]? = some ⟨a, r.2, t, r.1, some q, true, kq⟩ →
    heap'[q]? = some ⟨a, r'.2, t, r'.1, tl, true, kq⟩ → Path heap' kq t a (l0 ++ [p] ++ [q]) (rs0 ++ [r] ++ [r']) tl
  | [], p, [], r, h, _, hp, hq => ⟨hp, hq⟩
  | [], p, [x], r, h, _, _, _ => h.elim
  | [], p, _ :: _ :: _, r, h, _, _, _ => h.elim
  | [i], p, [], r, h, _, _, _ => by cases h; rename_i h; exact h.elim
  | i :: j :: l, p, [], r, h, _, _, _ => by cases h; rename_i h; cases l <;> exact h.elim
  | [i], p, x :: rs0, r, h, hf, hp, hq => by
    refine ⟨(hf i (List.mem_cons_self ..)).trans h.1, ?_⟩
    exact Path.snoc (l0 := []) (heap := heap) (tl := tl) h.2 (fun i hi => by cases hi) hp hq
  | i :: j :: l, p, x :: rs0, r, h, hf, hp, hq => by
    refine ⟨(hf i (List.mem_cons_self ..)).trans h.1, ?_⟩
    exact Path.snoc (l0 := j :: l) (heap := heap) (tl := tl) h.2 (fun i hi => hf i (List.mem_cons_of_mem _ hi)) hp hq

/-- Where records are inserted: after the last one, since what follows is a name server. -/
theorem place_last {kq : List UInt8} {t : Nat} {a : Bool} {tl : Option Nat} (ht : t ≠ 2)
    (htl : ∀ j, tl = some j → ∃ n, s.heap[j]? = some n ∧ n.live = true ∧ n.type = 2) :
    ∀ {l : List Nat} {rs : List Rec} {i : Nat} {fuel : Nat}, Path s.heap kq t a (i :: l) rs tl → l.length < fuel →
    ∃ l0 p, i :: l = l0 ++ [p] ∧ place s fuel i = .ok p
  | _, _, _, 0, _, hf => absurd hf (by omega)
  | [], [], i, f + 1, h, _ => h.elim
  | [], _ :: _ :: _, i, f + 1, h, _ => h.elim
  | [], [r], i, f + 1, h, _ => by
    refine ⟨[], i, rfl, ?_⟩
    have h : s.heap[i]? = some ⟨a, r.2, t, r.1, tl, true, kq⟩ := h
    unfold place
    rw [deref_some h rfl, Res.ok_bind]
    cases tl with
    | none => rfl
    | some j =>
      obtain ⟨n, h1, h2, h3⟩ := htl j rfl
      simp only [deref_some h1 h2, Res.ok_bind, h3, if_true]
  | j :: l, [], i, f + 1, h, _ => h.elim
  | j :: l, r :: rs, i, f + 1, h, hf => by
    obtain ⟨h1, h2⟩ := h
    obtain ⟨l0, p, e1, e2⟩ := place_last ht htl (fuel := f) h2 (by rw [List.length_cons] at hf; omega)
    refine ⟨i :: l0, p, by rw [e1]; rfl, ?_⟩
    obtain ⟨n, hn, hl, hty, _⟩ := h2.node j (List.mem_cons_self ..)
    unfold place
    rw [deref_some h1 rfl, Res.ok_bind]
    simp only [deref_some hn hl, Res.ok_bind, hty]
    rw [if_neg ht]
    exact e2

theorem nodup_bound {l : List Nat} {n : Nat} (hn : l.Nodup) (h : ∀ i ∈ l, i < n) : l.length ≤ n := by
  have h1 : l ⊆ List.range n := fun i hi => List.mem_range.2 (h i hi)
  have h2 := (hn.subperm h1).length_le
  rwa [List.length_range] at h2

/-- What follows the nodes of a key is a name server. -/
theorem Inv.tail (inv : Inv s A own L) {k : Key} {e : Ent} (he : A k = some e) (j : Nat) (hj : tailOf own e.ns = some j) :
    ∃ n, s.heap[j]? = some n ∧ n.live = true ∧ n.type = 2 := by
  cases hz : e.ns with
  | none => rw [hz] at hj; cases hj
  | some z =>
    rw [hz] at hj
    have hj : (own (z, 2)).head? = some j := hj
    have hmem : j ∈ own (z, 2) := List.mem_of_mem_head? (by rw [hj]; rfl)
    cases hA : A (z, 2) with
    | none => rw [(inv.none_iff _).1 hA] at hmem; cases hmem
    | some e' =>
      obtain ⟨n, h1, h2, h3, _⟩ := (inv.path _ _ hA).node j hmem
      exact ⟨n, h1, h2, h3⟩

/-- The records of a key after one more: at the end, or for name servers after the first one. -/
def insertRec (t : Nat) (rs : List Rec) (r : Rec) : List Rec :=
  if t = 2 then rs.take 1 ++ r :: rs.drop 1 else rs ++ [r]

/-- The state after one more record for a key. -/
theorem Inv.insert (inv : Inv s A own L) {k : Key} {e : Ent} (he : A k = some e) (r : Rec) {p : Nat} {pn : Node}
    (hp : (k.2 ≠ 2 ∧ ∃ l0, own k = l0 ++ [p]) ∨ (k.2 = 2 ∧ ∃ l, own k = p :: l)) (hpn : s.heap[p]? = some pn) {s' : Store}
    (hheap : s'.heap = s.heap.set p { pn with next := some s.heap.length } ++ [⟨e.auth, r.2, k.2, r.1, pn.next, true, enc k⟩])
    (hdict : s'.dict = s.dict) :
    ∃ own', Inv s' (upd A k (some { e with recs := insertRec k.2 e.recs r })) own' L := by
  have hpath := inv.path k e he
  have hplt : p < s.heap.length := (List.getElem?_eq_some_iff.1 hpn).1
  have hpin : p ∈ own k := by
    rcases hp with ⟨_, l0, h⟩ | ⟨_, l, h⟩ <;> rw [h] <;> simp
  have hlt : ∀ k' i, i ∈ own k' → i < s.heap.length := by
    intro k' i hi
    cases hA' : A k' with
    | none => rw [(inv.none_iff k').1 hA'] at hi; cases hi
    | some e => exact (inv.path k' e hA').lt i hi
  have hold : ∀ i, i ≠ p → i < s.heap.length → s'.heap[i]? = s.heap[i]? := by
    intro i h1 h2
    rw [hheap, List.getElem?_append_left (by simpa using h2), List.getElem?_set_ne (Ne.symm h1)]
  have hpnew : s'.heap[p]? = some { pn with next := some s.heap.length } := by
    rw [hheap, List.getElem?_append_left (by simpa using hplt), List.getElem?_set_self hplt]
  have hqnew : s'.heap[s.heap.length]? = some ⟨e.auth, r.2, k.2, r.1, pn.next, true, enc k⟩ := by
    rw [hheap, List.getElem?_append_right (by simp)]
    simp
  -- the new nodes of the key
  obtain ⟨ids, hids1, hids2, hids3, hids4⟩ : ∃ ids : List Nat, ids.head? = (own k).head? ∧ ids.Nodup ∧
      (∀ i ∈ ids, i ∈ own k ∨ i = s.heap.length) ∧
      Path s'.heap (enc k) k.2 e.auth ids (insertRec k.2 e.recs r) (tailOf own e.ns) := by
    have hnd := inv.nodup k
    rcases hp with ⟨ht, l0, hl⟩ | ⟨ht, l, hl⟩
    · refine ⟨l0 ++ [p] ++ [s.heap.length], ?_, ?_, ?_, ?_⟩
      · rw [hl]
        cases l0 <;> rfl
      · rw [← hl, List.nodup_append]
        refine ⟨hnd, by simp, ?_⟩
        intro a ha b hb
        rw [List.mem_singleton] at hb
        have := hlt _ _ ha
        omega
      · intro i hi
        rw [← hl, List.mem_append, List.mem_singleton] at hi
        exact hi
      · rw [insertRec, if_neg ht]
        rw [hl] at hpath hnd
        obtain ⟨l1, p1, rs0, r1, e1, e2, e3⟩ := hpath.split_last
        obtain ⟨e4, e5⟩ := List.append_inj' e1 rfl
        injection e5 with e5
        subst e4 e5
        rw [e2] at hpath ⊢
        rw [e3] at hpn
        injection hpn with hpn
        subst hpn
        refine Path.snoc (heap := s.heap) hpath ?_ hpnew hqnew
        intro i hi
        refine hold i ?_ (hlt k i (by rw [hl]; exact List.mem_append_left _ hi))
        intro hip
        rw [List.nodup_append] at hnd
        exact hnd.2.2 i hi p (List.mem_singleton.2 rfl) hip
    · refine ⟨p :: s.heap.length :: l, ?_, ?_, ?_, ?_⟩
      · rw [hl]; rfl
      · rw [hl] at hnd
        rw [List.nodup_cons] at hnd ⊢
        have hn : s.heap.length ∉ l := by
          intro h
          have := hlt k s.heap.length (by rw [hl]; exact List.mem_cons_of_mem _ h)
          omega
        refine ⟨?_, List.nodup_cons.2 ⟨hn, hnd.2⟩⟩
        rw [List.mem_cons]
        rintro (h | h)
        · omega
        · exact hnd.1 h
      · intro i hi
        rw [hl]
        simp only [List.mem_cons] at hi ⊢
        tauto
      · rw [insertRec, if_pos ht]
        rw [hl] at hpath hnd
        rw [List.nodup_cons] at hnd
        cases l with
        | nil =>
          cases hrs : e.recs with
          | nil => rw [hrs] at hpath; exact hpath.elim
          | cons r0 rs =>
            rw [hrs] at hpath
            cases rs with
            | cons _ _ => exact hpath.elim
            | nil =>
              have hpath : s.heap[p]? = some ⟨e.auth, r0.2, k.2, r0.1, tailOf own e.ns, true, enc k⟩ := hpath
              rw [hpath] at hpn
              injection hpn with hpn
              subst hpn
              exact ⟨hpnew, hqnew⟩
        | cons j l =>
          cases hrs : e.recs with
          | nil => rw [hrs] at hpath; exact hpath.elim
          | cons r0 rs =>
            rw [hrs] at hpath
            obtain ⟨h1, h2⟩ := hpath
            rw [h1] at hpn
            injection hpn with hpn
            subst hpn
            refine ⟨hpnew, hqnew, h2.frame ?_⟩
            intro i hi
            refine hold i ?_ (hlt k i (by rw [hl]; exact List.mem_cons_of_mem _ hi))
            intro hip
            subst hip
            exact hnd.1 hi
  have hids0 : ids ≠ [] := hids4.ne
  have hk0 : own k ≠ [] := hpath.ne
  have hhead : ∀ x, (upd own k ids x).head? = (own x).head? := by
    intro x
    by_cases hx : x = k
    · subst hx; rw [upd_same]; exact hids1
    · rw [upd_ne _ _ hx]
  have htail : ∀ ns, tailOf (upd own k ids) ns = tailOf own ns := by
    intro ns
    cases ns with
    | none => rfl
    | some z => simp only [tailOf, Option.bind_some, hhead]
  refine ⟨upd own k ids, ?_, ?_, ?_, ?_, ?_, ?_, ?_, ?_, ?_, ?_⟩
  · intro x
    by_cases hx : x = k
    · subst hx; simp [upd_same, hids0]
    · rw [upd_ne _ _ hx, upd_ne _ _ hx]; exact inv.none_iff x
  · intro x hne
    by_cases hx : x = k
    · rw [hx]; exact inv.good k hk0
    · rw [upd_ne _ _ hx] at hne; exact inv.good x hne
  · intro x h1 h2
    rw [hdict, hhead]
    exact inv.dict x h1 h2
  · intro b
    rw [hdict]
    exact inv.any b
  · intro b t i
    rw [hhead]
    exact inv.list b t i
  · exact inv.types
  · intro x y i hx hy
    by_cases h1 : x = k
    · by_cases h2 : y = k
      · rw [h1, h2]
      · subst h1
        rw [upd_same] at hx
        rw [upd_ne _ _ h2] at hy
        rcases hids3 i hx with h | h
        · exact inv.disj _ _ i h hy
        · have := hlt _ _ hy
          omega
    · rw [upd_ne _ _ h1] at hx
      by_cases h2 : y = k
      · subst h2
        rw [upd_same] at hy
        rcases hids3 i hy with h | h
        · exact inv.disj _ _ i hx h
        · have := hlt _ _ hx
          omega
      · rw [upd_ne _ _ h2] at hy
        exact inv.disj x y i hx hy
  · intro x
    by_cases hx : x = k
    · subst hx; rw [upd_same]; exact hids2
    · rw [upd_ne _ _ hx]; exact inv.nodup x
  · intro x e' he'
    rw [htail]
    by_cases hx : x = k
    · subst hx
      rw [upd_same] at he' ⊢
      injection he' with he'
      subst he'
      exact hids4
    · rw [upd_ne _ _ hx] at he' ⊢
      refine (inv.path x e' he').frame ?_
      intro i hi
      refine hold i ?_ (hlt x i hi)
      intro hip
      subst hip
      exact hx (inv.disj _ _ _ hi hpin)
  · intro x e' z he' hz
    have up : own (z, 2) ≠ [] → upd own k ids (z, 2) ≠ [] := by
      intro h
      by_cases hzk : (z, 2) = k
      · rw [hzk, upd_same]; exact hids0
      · rw [upd_ne _ _ hzk]; exact h
    by_cases hx : x = k
    · subst hx
      rw [upd_same] at he'
      injection he' with he'
      subst he'
      have := inv.ns x e z he hz
      exact ⟨up this.1, this.2⟩
    · rw [upd_ne _ _ hx] at he'
      have := inv.ns x e' z he' hz
      exact ⟨up this.1, this.2⟩

end Big
end Mara
