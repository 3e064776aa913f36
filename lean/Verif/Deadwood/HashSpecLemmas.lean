import Verif.Deadwood.HashRun
import Mathlib.Data.List.Dedup
/-! Facts about the abstract cache used by the property theorems. -/

namespace Dw
open Spec (Cache Entry)
namespace Cachespec

theorem find_eq_none {l : List Entry} {k : List UInt8} :
    Cache.find l k = none ↔ ∀ e ∈ l, e.key ≠ k := by
  simp [Cache.find, List.find?_eq_none]

theorem find_some_mem {l : List Entry} {k : List UInt8} {e : Entry}
    (h : Cache.find l k = some e) : e ∈ l ∧ e.key = k :=
  ⟨List.mem_of_find?_eq_some h, by simpa using List.find?_some h⟩

theorem find_of_mem {l : List Entry} (hn : (l.map Entry.key).Nodup) {e : Entry} (he : e ∈ l) :
    Cache.find l e.key = some e := by
  cases h : Cache.find l e.key with
  | none => exact absurd rfl (find_eq_none.1 h e he)
  | some x =>
    obtain ⟨h1, h2⟩ := find_some_mem h
    rw [List.inj_on_of_nodup_map hn h1 he h2]

theorem find_cons (x : Entry) (l : List Entry) (k : List UInt8) :
    Cache.find (x :: l) k = if x.key = k then some x else Cache.find l k := by
  by_cases h : x.key = k <;> simp [Cache.find, h]

theorem find_without (l : List Entry) (k k' : List UInt8) :
    Cache.find (Cache.without l k') k = if k = k' then none else Cache.find l k := by
  split_ifs with h
  · subst h; rw [find_eq_none]; intro e he; exact (mem_without.1 he).2
  · simp only [Cache.find, Cache.without, List.find?_filter]
    congr 1
    funext e
    by_cases hk : e.key = k
    · have : k ≠ k' := h
      simp [hk, this]
    · simp [hk]

theorem find_sublist {l' l : List Entry} (hs : l'.Sublist l) (hn : (l.map Entry.key).Nodup)
    {k : List UInt8} {e : Entry} (h : Cache.find l' k = some e) : Cache.find l k = some e := by
  obtain ⟨h1, rfl⟩ := find_some_mem h
  exact find_of_mem hn (hs.subset h1)

/-- Distinct keys, and no key both evictable and permanent. -/
structure KN (c : Cache) : Prop where
  nd : (c.lru.map Entry.key).Nodup
  disj : ∀ e ∈ c.lru, Cache.find c.perm e.key = none
  ndP : (c.perm.map Entry.key).Nodup

theorem nodup_without {l : List Entry} (hn : (l.map Entry.key).Nodup) (k : List UInt8) :
    ((Cache.without l k).map Entry.key).Nodup :=
  hn.sublist (List.Sublist.map _ List.filter_sublist)

theorem nodup_cons_without {l : List Entry} (hn : (l.map Entry.key).Nodup) (e : Entry) :
    ((e :: Cache.without l e.key).map Entry.key).Nodup := by
  rw [List.map_cons, List.nodup_cons]
  refine ⟨?_, nodup_without hn _⟩
  intro h
  obtain ⟨x, hx, hxe⟩ := List.mem_map.1 h
  exact (mem_without.1 hx).2 hxe

theorem KN.put {c : Cache} (h : KN c) {now : Int} {k v : List UInt8} {t : Int} {c' : Cache}
    (hp : c.put now k v t = some c') : KN c' := by
  unfold Cache.put at hp
  split_ifs at hp with h1 h2
  · cases hp; exact h
  · cases hp
    obtain ⟨hs1, hs2, -⟩ := trim_sub
      { c with lru := ⟨k, v, c.expiry now k t⟩ :: Cache.without c.lru k }
    refine ⟨?_, ?_, by rw [hs2]; exact h.ndP⟩
    · exact (nodup_cons_without h.nd ⟨k, v, c.expiry now k t⟩).sublist (hs1.map _)
    · intro e he
      rw [hs2]
      rcases List.mem_cons.1 (hs1.subset he) with rfl | he
      · simpa using h2
      · exact h.disj e (mem_without.1 he).1

theorem KN.step {c : Cache} (h : KN c) {op : HOp} (hl : LegalOp c op) : KN (step c op).2 := by
  cases op with
  | put now k v t =>
    simp only [Cachespec.step]
    cases hp : c.put now k v t with
    | none => exact h
    | some c' => exact h.put hp
  | pin now k v =>
    simp only [Cachespec.step]
    unfold Cache.pin
    split_ifs with h1
    · exact h
    · refine ⟨h.nd, ?_, ?_⟩
      · intro e he
        simp only [find_cons]
        rw [if_neg, h.disj e he]
        intro hk
        exact find_eq_none.1 hl e he hk.symm
      · simp only [List.map_cons, List.nodup_cons]
        refine ⟨?_, h.ndP⟩
        intro hm
        obtain ⟨x, hx, hxe⟩ := List.mem_map.1 hm
        simp only [Bool.not_eq_true, Option.isSome_eq_false_iff, Option.isNone_iff_eq_none] at h1
        exact find_eq_none.1 h1 x hx hxe
  | look now k ig =>
    simp only [Cachespec.step]
    unfold Cache.look
    cases h1 : Cache.find c.perm k with
    | some e => exact h
    | none =>
      cases h2 : Cache.find c.lru k with
      | none => exact h
      | some e =>
        simp only
        split_ifs
        · obtain ⟨hm, rfl⟩ := find_some_mem h2
          refine ⟨nodup_cons_without h.nd e, ?_, h.ndP⟩
          intro x hx
          rcases List.mem_cons.1 hx with rfl | hx
          · exact h1
          · exact h.disj x (mem_without.1 hx).1
        · exact h
  | ttl now k => exact h
  | drop k =>
    simp only [Cachespec.step]
    unfold Cache.drop
    split_ifs
    · exact h
    · exact ⟨nodup_without h.nd k, fun e he => h.disj e (mem_without.1 he).1, h.ndP⟩
    · exact h

theorem KN.run {ops : List HOp} : ∀ {c : Cache}, KN c → Legal c ops → KN (run c ops).2 := by
  induction ops with
  | nil => intro c h _; exact h
  | cons op ops ih => intro c h hl; exact ih (h.step hl.1) hl.2

theorem KN.empty (n : Nat) : KN ⟨n, [], []⟩ := ⟨by simp, by simp, by simp⟩

theorem run_snoc (c : Cache) (a : List HOp) (op : HOp) :
    run c (a ++ [op]) = ((run c a).1 ++ [(step (run c a).2 op).1], (step (run c a).2 op).2) := by
  rw [run_append]; rfl

theorem legal_snoc {c : Cache} {a : List HOp} {op : HOp} (h : Legal c (a ++ [op])) :
    Legal c a ∧ LegalOp (run c a).2 op := by
  rw [legal_append] at h
  exact ⟨h.1, h.2.1⟩

/-- Lookups never change what is stored under any key. -/
theorem look_find (c : Cache) (now : Int) (k : List UInt8) (ig : Bool) (k' : List UInt8) :
    Cache.find (c.look now k ig).2.lru k' = Cache.find c.lru k' ∧
    (c.look now k ig).2.perm = c.perm := by
  unfold Cache.look
  cases h1 : Cache.find c.perm k with
  | some e => exact ⟨rfl, rfl⟩
  | none =>
    cases h2 : Cache.find c.lru k with
    | none => exact ⟨rfl, rfl⟩
    | some e =>
      simp only
      split_ifs
      · refine ⟨?_, rfl⟩
        obtain ⟨-, rfl⟩ := find_some_mem h2
        simp only [find_cons, find_without]
        split_ifs with h3 h4
        · rw [← h3, h2]
        · exact absurd h4.symm h3
        · rfl
      · exact ⟨rfl, rfl⟩

end Cachespec
end Dw
