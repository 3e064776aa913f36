import Verif.Mara.BigHashGiven
import Verif.Mara.LookupProps
import Mathlib.Data.List.Induction
/-!
# Properties: the server answers with the records it has been given

`Loadable` is what the reader of zone files guarantees; see `Verif/Mara/ZoneProps.lean`.
-/

namespace Mara
namespace Big

open Dw (Res)
open Lookup (getRtype changeRtype u16)
open Spec Given

/-- Records that can be stored: names without NUL in their labels and in small letters. -/
structure Fit (g : Given) : Prop where
  name : Clean g.name
  zone : Clean g.zone
  low : lowName g.name = g.name
  good : Good (base g.star g.name, g.type)

/-- The records can be stored, and in each zone the name servers of the zone come first. -/
structure Loadable (gs : List Given) : Prop where
  fit : ∀ g ∈ gs, Fit g
  nsFirst : gs.Pairwise fun x g => g.star = false ∧ g.type = 2 ∧ g.name = g.zone ∧ x.zone = g.zone → x.type = 2

def empty : Store := ⟨[], fun _ => none⟩

/-- Give the server a record, `csv2_add_rr_bighash`, Csv2_database.c:351-416: whether it was taken is
not looked at. -/
def give (s : Store) (g : Given) : Res Store := do
  let (_, s) ← add s (enc (base g.star g.name, g.type)) g.data g.ttl (enc (encName g.zone, 2))
  .ok s

/-- Give the server records, one after the other. -/
def load : List Given → Store → Res Store
  | [], s => .ok s
  | g :: gs, s => do
    let s ← give s g
    load gs s

theorem load_append : ∀ (a b : List Given) (s : Store), load (a ++ b) s = (load a s >>= load b)
  | [], b, s => rfl
  | g :: a, b, s => by
    rw [List.cons_append, load, load]
    cases give s g with
    | ok s' => exact load_append a b s'
    | err => rfl
    | ub => rfl

/-- The table has just the records given. -/
structure Agrees (A : Key → Option Ent) (gs : List Given) : Prop where
  ent : ∀ star n t, LabelsOk n → A (base star n, t) = entOf gs star n t
  only : ∀ k e, A k = some e → ∃ star n, LabelsOk n ∧ k.1 = base star n

theorem Loadable.init {gs : List Given} {g : Given} (h : Loadable (gs ++ [g])) : Loadable gs where
  fit x hx := h.fit x (List.mem_append_left _ hx)
  nsFirst := (List.pairwise_append.1 h.nsFirst).1

theorem absAdd_agrees {A : Key → Option Ent} {gs : List Given} {g : Given} (ag : Agrees A gs) (hf : Fit g) :
    Agrees (absAdd A (base g.star g.name, g.type) (g.data, g.ttl) (encName g.zone) g.decided) (gs ++ [g]) := by
  have hA := ag.ent g.star g.name g.type hf.name.1
  have hns : nsOf A (base g.star g.name, g.type) (encName g.zone) =
      if g.type ≠ 2 ∧ gs.any (at? false g.zone 2) then some (encName g.zone) else none := by
    have hz : A (encName g.zone, 2) = entOf gs false g.zone 2 := ag.ent false g.zone 2 hf.zone.1
    unfold nsOf
    rw [hz]
    have : (entOf gs false g.zone 2).isSome = gs.any (at? false g.zone 2) := by
      unfold entOf
      split
      · rename_i h; rw [h]; rfl
      · rename_i h; rw [Bool.not_eq_true] at h; rw [h]; rfl
    rw [this]
  have hself : at? g.star g.name g.type g = true := at_iff.2 ⟨rfl, rfl, rfl⟩
  have hput : ∀ (e : Option Ent) (k : Key), absAdd A (base g.star g.name, g.type) (g.data, g.ttl) (encName g.zone) g.decided k =
      (if k = (base g.star g.name, g.type) then entOf (gs ++ [g]) g.star g.name g.type else A k) := by
    intro _ k
    unfold absAdd
    rw [hA]
    cases he : entOf gs g.star g.name g.type with
    | none =>
      have h0 : gs.any (at? g.star g.name g.type) = false := by
        unfold entOf at he
        split at he
        · cases he
        · rename_i h
          rwa [Bool.not_eq_true] at h
      simp only
      rw [entOf_first hself (.inl h0), hns]
      unfold upd
      rfl
    | some e =>
      simp only
      have hmark : e.auth = mark gs g.star g.name g.type := by
        unfold entOf at he
        split at he
        · injection he with he
          rw [← he]
        · cases he
      by_cases h1 : e.auth = g.decided
      · rw [if_pos h1, entOf_same hself he h1]
        unfold upd
        rfl
      · rw [if_neg h1]
        by_cases h2 : e.auth = false
        · rw [if_pos h2]
          have h3 : g.decided = true := by
            cases h : g.decided
            · rw [h] at h1; exact absurd h2 h1
            · rfl
          rw [entOf_first hself (.inr ⟨by rw [← hmark, h2], h3⟩), hns]
          unfold upd
          rfl
        · rw [if_neg h2]
          rw [Bool.not_eq_false] at h2
          have h3 : g.decided = false := by
            cases h : g.decided
            · rfl
            · rw [h] at h1; exact absurd h2 h1
          rw [entOf_ignored hself (by rw [← hmark, h2]) h3]
          split
          · rename_i hk
            rw [hk, hA]
          · rfl
  refine ⟨fun star n t hn => ?_, fun k e hk => ?_⟩
  · rw [hput none]
    split
    · rename_i hk
      injection hk with h1 h2
      obtain ⟨h3, h4⟩ := base_inj hn hf.name.1 h1
      subst h2 h3 h4
      rfl
    · rename_i hk
      rw [ag.ent star n t hn]
      refine (entOf_other ?_).symm
      rw [← Bool.not_eq_true, at_iff]
      rintro ⟨h1, h2, h3⟩
      subst h1 h2 h3
      exact hk rfl
  · rw [hput none] at hk
    split at hk
    · rename_i h
      exact ⟨g.star, g.name, hf.name.1, by rw [h]⟩
    · exact ag.only k e hk

theorem inv_empty : Inv empty (fun _ => none) (fun _ => []) (fun _ => []) where
  none_iff k := by simp
  good k h := absurd rfl h
  dict k _ _ := rfl
  any b := rfl
  list b t i := by simp
  types b := List.nodup_nil
  disj k k' i h := by cases h
  nodup k := List.nodup_nil
  path k e h := by cases h
  ns k e z h := by cases h

/-- The table after records have been given. -/
theorem load_inv : ∀ (gs : List Given), Loadable gs →
    ∃ s A own L, load gs empty = .ok s ∧ Inv s A own L ∧ Agrees A gs := by
  intro gs
  induction gs using List.reverseRecOn with
  | nil =>
    intro _
    exact ⟨empty, _, _, _, rfl, inv_empty, fun _ _ _ _ => rfl, fun k e h => by cases h⟩
  | append_singleton gs g ih =>
    intro h
    obtain ⟨s, A, own, L, h1, inv, ag⟩ := ih h.init
    have hf := h.fit g (by simp)
    have ha := authority_ok g hf.name hf.zone (by have := hf.good.small; simp only at this; omega)
    have hno : (base g.star g.name, g.type).2 = 2 → g.decided = true → ∀ x e z', A x = some e → e.ns = some z' →
        (z', 2) ≠ (base g.star g.name, g.type) := by
      intro ht hd x e z' hx he hk
      have ht : g.type = 2 := ht
      obtain ⟨star, n, hn, hxn⟩ := ag.only x e hx
      obtain ⟨b, t⟩ := x
      have hxn : b = base star n := hxn
      subst hxn
      rw [ag.ent star n t hn] at hx
      unfold entOf at hx
      split at hx
      · injection hx with hx
        rw [← hx] at he
        cases hh : homeOf gs star n t with
        | none => rw [hh] at he; cases he
        | some z =>
          rw [hh] at he
          injection he with he
          have hz : encName z = base g.star g.name := by
            have := congrArg Prod.fst hk
            rw [← he] at this
            exact this
          obtain ⟨y, hy, hyz, hyt⟩ := homeOf_mem hh
          have hyf := (h.init.fit y hy).zone
          rw [hyz] at hyf
          obtain ⟨h3, h4⟩ := base_inj (a := false) hyf.1 hf.name.1 hz
          have hap : g.name = g.zone := by
            unfold decided at hd
            rw [← h3, ht] at hd
            simpa using hd
          exact hyt ((List.pairwise_append.1 h.nsFirst).2.2 y hy g (List.mem_singleton.2 rfl)
            ⟨h3.symm, ht, hap, by rw [hyz, h4, hap]⟩)
      · cases hx
    obtain ⟨s', own', L', h2, inv'⟩ := add_ok inv hf.good (g.data, g.ttl) (Lookup.encName_pos g.zone) ha hno
    refine ⟨s', _, own', L', ?_, inv', absAdd_agrees ag hf⟩
    rw [load_append, h1, Res.ok_bind, load, give, h2]
    rfl

/-- The records found by following a chain. -/
theorem chain_path {s : Store} {kq : List UInt8} {t : Nat} {a : Bool} {tl : Option Nat} {m : Nat} {rest : List Node}
    (hr : chain s m tl = .ok rest) : ∀ {l : List Nat} {rs : List Rec}, Path s.heap kq t a l rs tl →
    ∃ ps, chain s (l.length + m) l.head? = .ok (ps ++ rest) ∧ ps.map (fun p => (p.type, p.data, p.ttl)) = rs.map (fun r => (t, r)) ∧
      ∃ p ps', ps = p :: ps' ∧ p.auth = a
  | [], _, h => absurd rfl h.ne
  | [i], [], h => h.elim
  | [i], [r], h => by
    refine ⟨[⟨a, r.2, t, r.1, tl, true, kq⟩], ?_, rfl, _, _, rfl, rfl⟩
    have : [i].length + m = m + 1 := by simp; omega
    rw [this, List.head?_cons, chain, deref_some h rfl, Res.ok_bind]
    simp only
    rw [hr]
    rfl
  | [i], _ :: _ :: _, h => h.elim
  | _ :: _ :: _, [], h => h.elim
  | i :: j :: l, r :: rs, h => by
    obtain ⟨ps, h1, h2, _⟩ := chain_path hr h.2
    refine ⟨⟨a, r.2, t, r.1, some j, true, kq⟩ :: ps, ?_, ?_, _, _, rfl, rfl⟩
    · have : (i :: j :: l).length + m = ((j :: l).length + m) + 1 := by simp; omega
      rw [this, List.head?_cons, chain, deref_some h.1 rfl, Res.ok_bind]
      simp only
      rw [List.head?_cons] at h1
      rw [h1]
      rfl
    · rw [List.map_cons, List.map_cons, h2]

theorem chain_none (s : Store) (n : Nat) : chain s n none = .ok [] := by cases n <;> rfl

/-- What the server finds in the table. -/
def view (s : Store) : Lookup.Hash (List (Nat × List UInt8 × Nat)) := fun q =>
  match s.dict q with
  | none => none
  | some (.list _) => some .list
  | some (.rr i) =>
    match chain s s.heap.length (some i) with
    | .ok (p :: ps) => some (.rr p.auth ((p :: ps).map fun p => (p.type, p.data, p.ttl)))
    | _ => none

theorem sets_typed {gs : List Given} {star : Bool} {n : Name} {t : Nat} :
    ((sets gs star n t).map (·.2)).map (fun r => (t, r)) = sets gs star n t := by
  rw [List.map_map]
  conv => rhs; rw [← List.map_id (sets gs star n t)]
  apply List.map_congr_left
  intro x hx
  rw [sets_eq, List.mem_map] at hx
  obtain ⟨g, hg, rfl⟩ := hx
  have hk : g ∈ kept gs star n t := by
    split at hg
    · rcases List.mem_append.1 hg with h | h
      · exact List.mem_of_mem_take h
      · exact List.mem_of_mem_drop (List.mem_reverse.1 h)
    · exact hg
  have hm : g ∈ gs.filter (at? star n t) := by
    rw [kept_eq] at hk
    split at hk
    · exact (List.mem_filter.1 hk).1
    · exact hk
  have := (at_iff.1 (List.mem_filter.1 hm).2).2.2
  simp [this]

/-- The chain of an entry. -/
theorem chain_entry {s : Store} {A : Key → Option Ent} {own : Key → List Nat} {L : List UInt8 → List (Nat × Nat)}
    (inv : Inv s A own L) {k : Key} {e : Ent} (he : A k = some e) :
    ∃ p ps, chain s s.heap.length (own k).head? = .ok (p :: ps) ∧ p.auth = e.auth ∧
      (p :: ps).map (fun p => (p.type, p.data, p.ttl)) = e.recs.map (fun r => (k.2, r)) ++
        (match e.ns with
        | none => []
        | some z => match A (z, 2) with
          | none => []
          | some e' => e'.recs.map fun r => (2, r)) := by
  have hp := inv.path k e he
  have hlt := hp.lt
  cases hz : e.ns with
  | none =>
    rw [hz] at hp
    have hb := nodup_bound (inv.nodup k) hlt
    obtain ⟨ps, h1, h2, p, ps', h3, h4⟩ := chain_path (chain_none s (s.heap.length - (own k).length)) hp
    rw [show (own k).length + (s.heap.length - (own k).length) = s.heap.length by omega, h3, List.append_nil] at h1
    refine ⟨p, ps', h1, h4, ?_⟩
    rw [← h3, h2]
    simp
  | some z =>
    rw [hz] at hp
    have hn := inv.ns k e z he hz
    cases he' : A (z, 2) with
    | none => exact absurd ((inv.none_iff _).1 he') hn.1
    | some e' =>
      have hp' := inv.path _ _ he'
      have hlt' := hp'.lt
      have hns' : e'.ns = none := by
        cases h : e'.ns with
        | none => rfl
        | some z' => exact absurd rfl (inv.ns _ _ _ he' h).2
      rw [hns'] at hp'
      have hne : k ≠ (z, 2) := by
        intro h
        rw [h] at hn
        exact hn.2 rfl
      have hnd : (own k ++ own (z, 2)).Nodup := by
        rw [List.nodup_append]
        refine ⟨inv.nodup _, inv.nodup _, ?_⟩
        intro a ha b hb hab
        subst hab
        exact hne (inv.disj _ _ _ ha hb)
      have hb := nodup_bound hnd (n := s.heap.length) (by
        intro i hi
        rcases List.mem_append.1 hi with hi | hi
        · exact hlt i hi
        · exact hlt' i hi)
      rw [List.length_append] at hb
      obtain ⟨ps2, g1, g2, _⟩ := chain_path (chain_none s (s.heap.length - (own k).length - (own (z, 2)).length)) hp'
      rw [List.append_nil] at g1
      obtain ⟨ps, h1, h2, p, ps', h3, h4⟩ := chain_path (m := (own (z, 2)).length + (s.heap.length - (own k).length - (own (z, 2)).length))
        (tl := tailOf own (some z)) g1 hp
      rw [show (own k).length + ((own (z, 2)).length + (s.heap.length - (own k).length - (own (z, 2)).length)) = s.heap.length by omega,
        h3, List.cons_append] at h1
      refine ⟨p, ps' ++ ps2, h1, h4, ?_⟩
      simp only [he']
      rw [← List.cons_append, ← h3, List.map_append, h2, g2]

/-- The view of the table is the zone of the specification. -/
theorem view_rr {s : Store} {A : Key → Option Ent} {own : Key → List Nat} {L : List UInt8 → List (Nat × Nat)} {gs : List Given}
    (inv : Inv s A own L) (ag : Agrees A gs) (hl : Loadable gs) {star : Bool} {n : Name} {t : Nat} (hn : LabelsOk n) (ht : t < 65536) :
    Lookup.rrOf (view s (enc (base star n, t))) =
      if gs.any (at? star n t) then some (mark gs star n t, sets gs star n t ++ servers gs star n t) else none := by
  by_cases h255 : t = 255
  · subst h255
    have h0 : gs.any (at? star n 255) = false := by
      rw [List.any_eq_false]
      intro x hx h
      rw [at_iff] at h
      exact (hl.fit x hx).good.kind.1 h.2.2
    rw [h0]
    unfold view
    rw [inv.any]
    by_cases hL : L (base star n) = []
    · rw [if_pos hL]
      rfl
    · rw [if_neg hL]
      rfl
  · have hd := inv.dict (base star n, t) ht h255
    have he := ag.ent star n t hn
    unfold view
    rw [hd]
    unfold entOf at he
    split at he
    · rename_i hany
      rw [if_pos hany]
      obtain ⟨p, ps, h1, h2, h3⟩ := chain_entry inv he
      obtain ⟨i, l, hown⟩ : ∃ i l, own (base star n, t) = i :: l := by
        cases h : own (base star n, t) with
        | nil => exact absurd h (inv.path _ _ he).ne
        | cons i l => exact ⟨i, l, rfl⟩
      rw [hown, List.head?_cons] at h1
      rw [hown, List.head?_cons]
      simp only [Option.map_some, h1]
      rw [h3]
      simp only [Lookup.rrOf, h2, sets_typed]
      congr 3
      unfold servers
      cases hh : homeOf gs star n t with
      | none => rfl
      | some z =>
        simp only [Option.map_some]
        obtain ⟨_, hz⟩ := homeOf_ns hh
        obtain ⟨x, hx, hxz, _⟩ := homeOf_mem hh
        have hzl : LabelsOk z := by rw [← hxz]; exact (hl.fit x hx).zone.1
        have := ag.ent false z 2 hzl
        unfold entOf at this
        rw [if_pos hz] at this
        have hb : base false z = encName z := rfl
        rw [hb] at this
        rw [this]
        exact sets_typed
    · rename_i hany
      rw [if_neg hany, (inv.none_iff _).1 he]
      rfl

theorem view_list {s : Store} {A : Key → Option Ent} {own : Key → List Nat} {L : List UInt8 → List (Nat × Nat)} {gs : List Given}
    (inv : Inv s A own L) (ag : Agrees A gs) {star : Bool} {n : Name} (hn : LabelsOk n) :
    Lookup.isList (view s (enc (base star n, 255))) = gs.any fun g => decide (g.star = star ∧ g.name = n) := by
  unfold view
  rw [inv.any, Bool.eq_iff_iff, List.any_eq_true]
  constructor
  · intro h
    by_cases hL : L (base star n) = []
    · rw [if_pos hL] at h
      cases h
    · obtain ⟨⟨t, i⟩, hti⟩ := List.exists_mem_of_ne_nil _ hL
      have ho := (inv.list _ _ _).1 hti
      have hA : A (base star n, t) ≠ none := by
        rw [Ne, inv.none_iff]
        intro h0
        rw [h0] at ho
        cases ho
      rw [ag.ent star n t hn] at hA
      unfold entOf at hA
      split at hA
      · rename_i hany
        rw [List.any_eq_true] at hany
        obtain ⟨x, hx, h1⟩ := hany
        rw [at_iff] at h1
        exact ⟨x, hx, decide_eq_true ⟨h1.1, h1.2.1⟩⟩
      · exact absurd rfl hA
  · rintro ⟨x, hx, h1⟩
    rw [decide_eq_true_iff] at h1
    have hany : gs.any (at? star n x.type) = true := List.any_eq_true.2 ⟨x, hx, at_iff.2 ⟨h1.1, h1.2, rfl⟩⟩
    have he := ag.ent star n x.type hn
    unfold entOf at he
    rw [if_pos hany] at he
    obtain ⟨i, l, hown⟩ : ∃ i l, own (base star n, x.type) = i :: l := by
      cases h : own (base star n, x.type) with
      | nil => exact absurd h (inv.path _ _ he).ne
      | cons i l => exact ⟨i, l, rfl⟩
    have hm := (inv.list (base star n) x.type i).2 (by rw [hown]; rfl)
    rw [if_neg (List.ne_nil_of_mem hm)]
    rfl

/-- **C68.** The records given to the server are taken, and what is found afterwards for every name and type is
what the specification says: all records of the zones that decide on the name, with the name
servers of the zone.  No chain of records is broken. -/
theorem load_exact {gs : List Given} (hl : Loadable gs) :
    ∃ s, load gs empty = .ok s ∧ Lookup.Stores (view s) (toZone gs) ∧
      ∀ star n t i, LabelsOk n → t < 65536 → s.dict (enc (base star n, t)) = some (.rr i) →
        ∃ p ps, chain s s.heap.length (some i) = .ok (p :: ps) := by
  obtain ⟨s, A, own, L, h1, inv, ag⟩ := load_inv gs hl
  refine ⟨s, h1, ⟨?_, ?_, ?_, ?_, ?_, ?_⟩, ?_⟩
  · intro n t hn ht
    exact view_rr (star := false) inv ag hl hn ht
  · intro n t hn ht
    have := view_rr (star := true) inv ag hl hn ht
    have h2 : enc (base true n, t) = 95 :: (encName n ++ u16 t) := rfl
    rw [h2] at this
    rw [this]
    unfold toZone
    simp only
    split <;> rfl
  · intro n hn
    exact view_list (star := false) inv ag hn
  · intro n hn
    have := view_list (star := true) inv ag hn
    have h2 : enc (base true n, 255) = 95 :: (encName n ++ u16 255) := rfl
    rwa [h2] at this
  · intro n hn
    unfold toZone
    simp only
    rw [if_neg]
    rw [List.any_eq_true]
    rintro ⟨x, hx, h⟩
    exact (hl.fit x hx).good.kind.1 (at_iff.1 h).2.2
  · intro n hn h
    have h : (gs.any fun g => decide (g.star = false ∧ g.name = n)) = true := h
    rw [List.any_eq_true] at h
    obtain ⟨x, hx, h2⟩ := h
    rw [decide_eq_true_iff] at h2
    rw [← h2.2]
    exact (hl.fit x hx).low
  · intro star n t i hn ht hi
    have h255 : t ≠ 255 := by
      intro h
      rw [h, inv.any] at hi
      split at hi <;> cases hi
    rw [inv.dict _ ht h255] at hi
    cases hA : A (base star n, t) with
    | none =>
      rw [(inv.none_iff _).1 hA] at hi
      cases hi
    | some e =>
      obtain ⟨p, ps, h2, _⟩ := chain_entry inv hA
      cases ho : (own (base star n, t)).head? with
      | none => rw [ho] at hi; cases hi
      | some j =>
        rw [ho] at hi h2
        injection hi with hi
        injection hi with hi
        exact ⟨p, ps, by rw [← hi]; exact h2⟩

/-- A zone `c.` with name servers, SOA, `a.c.`, `*.c.`, and a delegation of `d.c.`; then the zone `d.c.` itself. -/
def exGiven : List Given :=
  [⟨false, [[99]], 2, [1, 110, 0], 86400, [[99]]⟩, ⟨false, [[99]], 2, [1, 111, 0], 86400, [[99]]⟩,
   ⟨false, [[99]], 2, [1, 112, 0], 86400, [[99]]⟩, ⟨false, [[99]], 6, [7, 7], 3600, [[99]]⟩,
   ⟨false, [[97], [99]], 1, [10, 0, 0, 1], 3600, [[99]]⟩, ⟨false, [[97], [99]], 1, [10, 0, 0, 2], 3600, [[99]]⟩,
   ⟨true, [[99]], 16, [2, 104, 105], 3600, [[99]]⟩, ⟨false, [[100], [99]], 2, [1, 120, 0], 3600, [[99]]⟩,
   ⟨false, [[100], [99]], 2, [1, 110, 0], 60, [[100], [99]]⟩, ⟨false, [[100], [99]], 6, [8, 8], 60, [[100], [99]]⟩]

theorem exGiven_loadable : Loadable exGiven where
  fit g hg := by
    simp only [exGiven, List.mem_cons, List.not_mem_nil, or_false] at hg
    rcases hg with rfl | rfl | rfl | rfl | rfl | rfl | rfl | rfl | rfl | rfl <;>
      exact ⟨⟨by unfold LabelsOk; decide, by decide⟩, ⟨by unfold LabelsOk; decide, by decide⟩, by decide,
        ⟨by decide, by decide, by decide, by decide⟩⟩
  nsFirst := by unfold exGiven; decide

example : ∃ s, load exGiven empty = .ok s ∧ Lookup.Stores (view s) (toZone exGiven) := by
  obtain ⟨s, h1, h2, _⟩ := load_exact exGiven_loadable
  exact ⟨s, h1, h2⟩

-- the order in which name servers are sent, and those sent along
example : (toZone exGiven).rr [[99]] 2 = some (true, [(2, [1, 110, 0], 86400), (2, [1, 112, 0], 86400), (2, [1, 111, 0], 86400)]) := by
  decide +kernel

example : (toZone exGiven).rr [[97], [99]] 1 = some (true, [(1, [10, 0, 0, 1], 3600), (1, [10, 0, 0, 2], 3600),
    (2, [1, 110, 0], 86400), (2, [1, 112, 0], 86400), (2, [1, 111, 0], 86400)]) := by decide +kernel

-- the zone below decides
example : (toZone exGiven).rr [[100], [99]] 2 = some (true, [(2, [1, 110, 0], 60)]) := by decide +kernel

/-- **C68.** From the records given to the replies: the reply to every ordinary question is what the
specification of replies says for the records given. -/
theorem served_exact {gs : List Given} (hl : Loadable gs) :
    ∃ s, load gs empty = .ok s ∧ ∀ (cfg : Lookup.Cfg) (raw : Js) (q : Name) (t : Nat), Lookup.Usual cfg → Lookup.Asks cfg raw q t →
      Lookup.Plain cfg q t → Lookup.procQuery cfg (view s) raw = .ok (Lookup.sent q ((toZone gs).reply (lowName q) t)) := by
  obtain ⟨s, h1, h2, _⟩ := load_exact hl
  exact ⟨s, h1, fun cfg raw q t hu ha hp => Lookup.answer_exact h2 hu ha hp⟩

example : ∃ s, load exGiven empty = .ok s ∧ Lookup.procQuery {} (view s) (Lookup.exQuery [[65], [67]] 1 1) =
    .ok (.success [(1, [10, 0, 0, 1], 3600), (1, [10, 0, 0, 2], 3600), (2, [1, 110, 0], 86400), (2, [1, 112, 0], 86400),
      (2, [1, 111, 0], 86400)] true) := by
  obtain ⟨s, h1, h2⟩ := served_exact exGiven_loadable
  refine ⟨s, h1, (h2 {} _ [[65], [67]] 1 Lookup.exUsual
    (Lookup.exAsks (by unfold LabelsOk; decide) (by decide) (by decide) (by decide)) (Lookup.exPlain (by decide +kernel))).trans ?_⟩
  decide +kernel

theorem mem_sets {gs : List Given} {star : Bool} {n : Name} {t : Nat} {x : Nat × List UInt8 × Nat} :
    x ∈ sets gs star n t ↔ ∃ g ∈ gs, at? star n t g = true ∧ (g.decided = true ∨ mark gs star n t = false) ∧ x = (g.type, g.data, g.ttl) := by
  rw [sets_eq, List.mem_map]
  have hk : ∀ g, (g ∈ (if t = 2 then (kept gs star n t).take 1 ++ ((kept gs star n t).drop 1).reverse else kept gs star n t)) ↔
      g ∈ kept gs star n t := by
    intro g
    split
    · rw [List.mem_append, List.mem_reverse, ← List.mem_append, List.take_append_drop]
    · rfl
  have hk2 : ∀ g, g ∈ kept gs star n t ↔ g ∈ gs ∧ at? star n t g = true ∧ (g.decided = true ∨ mark gs star n t = false) := by
    intro g
    rw [kept_eq]
    cases mark gs star n t
    · simp
    · simp [and_comm]
  constructor
  · rintro ⟨g, hg, rfl⟩
    obtain ⟨h1, h2, h3⟩ := (hk2 g).1 ((hk g).1 hg)
    exact ⟨g, h1, h2, h3, rfl⟩
  · rintro ⟨g, h1, h2, h3, rfl⟩
    exact ⟨g, (hk g).2 ((hk2 g).2 ⟨h1, h2, h3⟩), rfl⟩

/-- **C68.** No record is lost: a record that its zone decides on is sent to every client that asks for its
name and type, and with it are sent only records that have been given. -/
theorem record_served {gs : List Given} (hl : Loadable gs) {g : Given} (hg : g ∈ gs) (hs : g.star = false) (hd : g.decided = true) :
    ∃ s, load gs empty = .ok s ∧ ∀ (cfg : Lookup.Cfg) (raw : Js) (q : Name), Lookup.Usual cfg → Lookup.Asks cfg raw q g.type →
      Lookup.Plain cfg q g.type → lowName q = g.name →
      ∃ rs, Lookup.procQuery cfg (view s) raw = .ok (.success rs true) ∧ (g.type, g.data, g.ttl) ∈ rs ∧
        ∀ x ∈ rs, ∃ g' ∈ gs, x = (g'.type, g'.data, g'.ttl) ∧
          ((g'.name = g.name ∧ g'.type = g.type ∧ g'.decided = true) ∨ (g'.type = 2 ∧ ∃ g'' ∈ gs, g'.name = g''.zone ∧ g''.name = g.name)) := by
  obtain ⟨s, h1, h2⟩ := served_exact hl
  refine ⟨s, h1, fun cfg raw q hu ha hp hq => ?_⟩
  have hat : at? false g.name g.type g = true := at_iff.2 ⟨hs, rfl, rfl⟩
  have hmark : mark gs false g.name g.type = true := by
    unfold mark
    exact List.any_eq_true.2 ⟨g, List.mem_filter.2 ⟨hg, hat⟩, hd⟩
  have hrr : (toZone gs).rr g.name g.type = some (true, sets gs false g.name g.type ++ servers gs false g.name g.type) := by
    unfold toZone
    simp only
    rw [if_pos (List.any_eq_true.2 ⟨g, hg, hat⟩), hmark]
  refine ⟨sets gs false g.name g.type ++ servers gs false g.name g.type, (h2 cfg raw q g.type hu ha hp).trans ?_, List.mem_append_left _ (mem_sets.2 ⟨g, hg, hat, .inl hd, rfl⟩), ?_⟩
  · rw [hq, Zone.reply, hrr]
    rfl
  · intro x hx
    rcases List.mem_append.1 hx with hx | hx
    · obtain ⟨g', h3, h4, h5, h6⟩ := mem_sets.1 hx
      have h4 := at_iff.1 h4
      refine ⟨g', h3, h6, .inl ⟨h4.2.1, h4.2.2, ?_⟩⟩
      rcases h5 with h5 | h5
      · exact h5
      · rw [hmark] at h5
        cases h5
    · unfold servers at hx
      cases hh : homeOf gs false g.name g.type with
      | none => rw [hh] at hx; cases hx
      | some z =>
        rw [hh] at hx
        obtain ⟨g', h3, h4, h5, h6⟩ := mem_sets.1 hx
        have h4 := at_iff.1 h4
        refine ⟨g', h3, h6, .inr ⟨h4.2.2, ?_⟩⟩
        rw [homeOf_eq] at hh
        split at hh
        · cases hh
        · rename_i y hy
          split at hh
          · injection hh with hh
            have h7 := List.find?_some hy
            rw [first, Bool.and_eq_true, at_iff] at h7
            exact ⟨y, List.mem_of_find?_eq_some hy, by rw [h4.2.1, hh], h7.1.2.1⟩
          · cases hh

example : ∃ s, load exGiven empty = .ok s ∧ ∃ rs, Lookup.procQuery {} (view s) (Lookup.exQuery [[97], [99]] 1 1) = .ok (.success rs true) ∧
    (1, [10, 0, 0, 2], 3600) ∈ rs := by
  obtain ⟨s, h1, h2⟩ := record_served exGiven_loadable (g := ⟨false, [[97], [99]], 1, [10, 0, 0, 2], 3600, [[99]]⟩)
    (by simp [exGiven]) rfl (by decide)
  obtain ⟨rs, h3, h4, _⟩ := h2 {} (Lookup.exQuery [[97], [99]] 1 1) [[97], [99]] Lookup.exUsual
    (Lookup.exAsks (by unfold LabelsOk; decide) (by decide) (by decide) (by decide)) (Lookup.exPlain (by decide +kernel)) (by decide)
  exact ⟨s, h1, rs, h3, h4⟩

/-- **C68.** No zone can take over a name that another zone decides on: more records, all of zones that do
not decide on the name, change nothing of what is found for it. -/
theorem no_takeover {gs more : List Given} (hl : Loadable (gs ++ more)) {n : Name} {t : Nat} (hn : LabelsOk n) (ht : t < 65536)
    (hmark : mark gs false n t = true) (hm : ∀ g ∈ more, at? false n t g = true → g.decided = false)
    (hns : ∀ g ∈ more, ¬ (g.star = false ∧ g.type = 2 ∧ ∃ g' ∈ gs, g'.zone = g.name)) :
    ∃ s s', load gs empty = .ok s ∧ load (gs ++ more) empty = .ok s' ∧
      Lookup.rrOf (view s' (encName n ++ u16 t)) = Lookup.rrOf (view s (encName n ++ u16 t)) := by
  have hgs : Loadable gs := ⟨fun g hg => hl.fit g (List.mem_append_left _ hg), (List.pairwise_append.1 hl.nsFirst).1⟩
  obtain ⟨s, A, own, L, h1, inv, ag⟩ := load_inv gs hgs
  obtain ⟨s', A', own', L', h1', inv', ag'⟩ := load_inv _ hl
  refine ⟨s, s', h1, h1', ?_⟩
  have e1 := view_rr (star := false) inv ag hgs hn ht
  have e2 := view_rr (star := false) inv' ag' hl hn ht
  have e1 : Lookup.rrOf (view s (encName n ++ u16 t)) = _ := e1
  have e2 : Lookup.rrOf (view s' (encName n ++ u16 t)) = _ := e2
  rw [e1, e2]
  clear e1 e2 inv inv' ag ag' h1 h1' hgs
  -- one record at a time, for the entry
  have key : ∀ (more gs : List Given), mark gs false n t = true → (∀ g ∈ more, at? false n t g = true → g.decided = false) →
      entOf (gs ++ more) false n t = entOf gs false n t := by
    intro more
    induction more with
    | nil => intro gs _ _; rw [List.append_nil]
    | cons g l ih =>
      intro gs hmk hd
      have hstep : entOf (gs ++ [g]) false n t = entOf gs false n t := by
        cases hat : at? false n t g with
        | false => exact entOf_other hat
        | true => exact entOf_ignored hat hmk (hd g (List.mem_cons_self ..) hat)
      have hmk' : mark (gs ++ [g]) false n t = true := by
        unfold mark at hmk ⊢
        rw [List.filter_append, List.any_append, hmk]
        rfl
      have := ih (gs ++ [g]) hmk' (fun x hx => hd x (List.mem_cons_of_mem _ hx))
      rw [List.append_assoc] at this
      rw [← hstep, ← this]
      rfl
  have hsame : ∀ (more gs : List Given) (z : Name), (∀ g ∈ more, at? false z 2 g = false) → sets (gs ++ more) false z 2 = sets gs false z 2 := by
    intro more gs z h
    have hf : (gs ++ more).filter (at? false z 2) = gs.filter (at? false z 2) := by
      have : more.filter (at? false z 2) = [] := by
        rw [List.filter_eq_nil_iff]
        intro x hx
        rw [h x hx]
        decide
      rw [List.filter_append, this, List.append_nil]
    have hmk : mark (gs ++ more) false z 2 = mark gs false z 2 := by
      unfold mark
      rw [hf]
    rw [sets_eq, sets_eq, kept_eq, kept_eq, hmk, hf]
  have hany : gs.any (at? false n t) = true := by
    unfold mark at hmark
    rw [List.any_eq_true] at hmark ⊢
    obtain ⟨x, hx, _⟩ := hmark
    exact ⟨x, (List.mem_filter.1 hx).1, (List.mem_filter.1 hx).2⟩
  have hany' : (gs ++ more).any (at? false n t) = true := by rw [List.any_append, hany]; rfl
  have hk := key more gs hmark hm
  unfold entOf at hk
  rw [if_pos hany, if_pos hany'] at hk
  injection hk with hk
  injection hk with k1 k2 k3
  rw [if_pos hany, if_pos hany', k1]
  have k2' : sets (gs ++ more) false n t = sets gs false n t := by
    rw [← sets_typed, ← sets_typed (gs := gs), k2]
  have k3' : homeOf (gs ++ more) false n t = homeOf gs false n t := by
    cases ha : homeOf gs false n t with
    | none =>
      rw [ha] at k3
      simpa using k3
    | some z =>
      rw [ha] at k3
      cases hb : homeOf (gs ++ more) false n t with
      | none => rw [hb] at k3; cases k3
      | some z' =>
        rw [hb] at k3
        injection k3 with k3
        obtain ⟨x, hx, hxz, _⟩ := homeOf_mem ha
        obtain ⟨y, hy, hyz, _⟩ := homeOf_mem hb
        have l1 : LabelsOk z := by rw [← hxz]; exact (hl.fit x (List.mem_append_left _ hx)).zone.1
        have l2 : LabelsOk z' := by rw [← hyz]; exact (hl.fit y hy).zone.1
        rw [(encName_inj (r := []) (s := []) l2 l1 (by rw [k3])).1]
  rw [k2']
  unfold servers
  rw [k3']
  cases ha : homeOf gs false n t with
  | none => rfl
  | some z =>
    simp only
    obtain ⟨x, hx, hxz, _⟩ := homeOf_mem ha
    rw [hsame more gs z]
    intro g hg
    rw [← Bool.not_eq_true, at_iff]
    rintro ⟨g1, g2, g3⟩
    exact hns g hg ⟨g1, g3, x, hx, by rw [hxz, g2]⟩

-- the zone `x.` tries to have `a.c.` and `c.`
example : ∃ s s', load exGiven empty = .ok s ∧
    load (exGiven ++ [⟨false, [[97], [99]], 1, [6, 6, 6, 6], 60, [[120]]⟩, ⟨false, [[99]], 6, [6], 60, [[120]]⟩]) empty = .ok s' ∧
    Lookup.rrOf (view s' (encName [[97], [99]] ++ u16 1)) = Lookup.rrOf (view s (encName [[97], [99]] ++ u16 1)) := by
  refine no_takeover ⟨?_, by unfold exGiven; decide⟩ (by unfold LabelsOk; decide) (by decide) (by decide +kernel) (by decide) ?_
  · intro g hg
    rcases List.mem_append.1 hg with hg | hg
    · exact exGiven_loadable.fit g hg
    · simp only [List.mem_cons, List.not_mem_nil, or_false] at hg
      rcases hg with rfl | rfl <;>
      exact ⟨⟨by unfold LabelsOk; decide, by decide⟩, ⟨by unfold LabelsOk; decide, by decide⟩, by decide,
        ⟨by decide, by decide, by decide, by decide⟩⟩
  · intro g hg
    simp only [List.mem_cons, List.not_mem_nil, or_false] at hg
    rcases hg with rfl | rfl <;> rintro ⟨_, h, _⟩ <;> exact absurd h (by decide)

/-- A zone `c.` that delegates `d.c.`, and a zone `d.c.` in which an address comes before the name servers. -/
def exLate : List Given :=
  [⟨false, [[100], [99]], 2, [1, 120, 0], 60, [[99]]⟩, ⟨false, [[100], [99]], 1, [1, 1, 1, 1], 60, [[100], [99]]⟩,
   ⟨false, [[100], [99]], 2, [1, 110, 0], 60, [[100], [99]]⟩]

def exLateCheck : Bool :=
  match load exLate empty with
  | .ok s =>
    match s.dict (enc (encName [[100], [99]], 1)) with
    | some (.rr i) =>
      match s.heap[i]? with
      | some p =>
        match p.next with
        | some j =>
          match s.heap[j]? with
          | some q => p.live && !q.live
          | none => false
        | none => false
      | none => false
    | _ => false
  | _ => false

/-- Why the name servers must come first: if a name has been delegated to by another zone, then given an
address by its own zone, and then name servers, the address record is left pointing to a record that
has been given back to the system. -/
theorem late_ns_dangling : ∃ s i p j q, load exLate empty = .ok s ∧ s.dict (enc (encName [[100], [99]], 1)) = some (.rr i) ∧
    s.heap[i]? = some p ∧ p.live = true ∧ p.next = some j ∧ s.heap[j]? = some q ∧ q.live = false := by
  have h : exLateCheck = true := by decide +kernel
  unfold exLateCheck at h
  split at h
  · rename_i s hs
    split at h
    · rename_i i hi
      split at h
      · rename_i p hp
        split at h
        · rename_i j hj
          split at h
          · rename_i q hq
            rw [Bool.and_eq_true, Bool.not_eq_true'] at h
            exact ⟨s, i, p, j, q, hs, hi, hp, h.1, hj, hq, h.2⟩
          · cases h
        · cases h
      · cases h
    · cases h
  · cases h

end Big
end Mara
