import Verif.Deadwood.DictLemmas
import Mathlib.Data.List.Induction
/-! # Properties of dictionaries (C21, C22) -/

namespace Dw
open Hash

/-- A dictionary after a list of additions (time, key, value). -/
def dictRun (hf : List UInt8 → Nat) (cs : Nat) (adds : List (Int × List UInt8 × List UInt8)) : Hash :=
  adds.foldl (fun h a => dictAdd hf cs h a.1 a.2.1 a.2.2) (dictInit cs)

/-- Specification: the last value added for a key. -/
def lastAdded (adds : List (Int × List UInt8 × List UInt8)) (k : List UInt8) : Option (List UInt8) :=
  (adds.reverse.find? (fun a => a.2.1 == k)).map (fun a => a.2.2)

/-- The keys of a list of additions. -/
def addKeys (adds : List (Int × List UInt8 × List UInt8)) : List (List UInt8) :=
  adds.map (fun a => a.2.1)

theorem addKeys_snoc (adds : List (Int × List UInt8 × List UInt8)) (a) :
    addKeys (adds ++ [a]) = addKeys adds ++ [a.2.1] := by simp [addKeys]

theorem dictRun_state {hf : List UInt8 → Nat} {ks : List (List UInt8)} (hok : DictOk hf ks)
    (cs : Nat) (adds : List (Int × List UInt8 × List UInt8)) (hk : ∀ k ∈ addKeys adds, k ∈ ks) :
    ∃ l j, DState hf ks (dictRun hf cs adds) l j ∧
      (∀ x, (lfind l x).map Elem.value = lastAdded adds x) ∧
      (∀ x, (∃ e ∈ l, e.key = x) ↔ x ∈ addKeys adds) := by
  induction adds using List.reverseRecOn with
  | nil =>
    refine ⟨[], 2, ⟨⟨TInv.init cs 2, rfl, by simp⟩, ?_, by omega, ?_, by simp⟩, ?_, ?_⟩
    · show powerTwo (initElements cs 2) - 1 = _
      rw [show initElements cs 2 = 2 ^ 1 by simp [initElements], powerTwo_two_pow]
    · show 0 < powerTwo (initElements cs 2) - 1
      rw [show initElements cs 2 = 2 ^ 1 by simp [initElements], powerTwo_two_pow]; decide
    · intro x; rfl
    · intro x; simp [addKeys]
  | append_singleton adds a ih =>
    obtain ⟨l, j, D, h1, h2⟩ := ih (fun k hk' => hk k (by rw [addKeys_snoc]; simp [hk']))
    obtain ⟨l', j', D', h1', h2'⟩ := dictAdd_state hok (cs := cs) D a.1 (k := a.2.1) (v := a.2.2)
      (hk _ (by simp [addKeys]))
    refine ⟨l', j', ?_, ?_, ?_⟩
    · simpa [dictRun] using D'
    · intro x
      rw [h1', h1]
      simp only [lastAdded, List.reverse_append, List.reverse_cons, List.reverse_nil,
        List.nil_append, List.cons_append, List.find?_cons]
      by_cases hx : x = a.2.1
      · simp [hx]
      · have : (a.2.1 == x) = false := by simpa using Ne.symm hx
        simp [hx, this]
    · intro x
      rw [h2', h2]
      rw [addKeys_snoc, List.mem_append, List.mem_singleton, or_comm]

theorem dict_get {hf : List UInt8 → Nat} {ks : List (List UInt8)} (hok : DictOk hf ks) {h : Hash}
    {l : List Elem} {j : Nat} (D : DState hf ks h l j) (now : Int) (k : List UInt8) :
    dictFetch hf h now k = (lfind l k).map Elem.value := by
  have hg := D.inv.t.grep_eq k (by have := D.chain hok (h.bucket hf k); omega)
  unfold dictFetch Hash.get
  rw [hg]
  cases lfind l k <;> simp

/-- **C21.** After any additions, through any number of automatic enlargements,
a lookup gives the last value added for the key (or nothing if there is none),
and the size is the number of distinct keys. -/
theorem dict_is_map {hf : List UInt8 → Nat} (cs : Nat) (adds : List (Int × List UInt8 × List UInt8))
    (hok : DictOk hf (addKeys adds)) :
    (∀ now k, dictFetch hf (dictRun hf cs adds) now k = lastAdded adds k) ∧
    dictSize (dictRun hf cs adds) = (addKeys adds).dedup.length := by
  obtain ⟨l, j, D, h1, h2⟩ := dictRun_state hok cs adds (fun _ h => h)
  constructor
  · intro now k; rw [dict_get hok D, h1]
  · rw [dictSize, D.inv.t.size, ← List.length_map (f := Elem.key)]
    apply List.Perm.length_eq
    rw [List.perm_ext_iff_of_nodup D.inv.t.keys (List.nodup_dedup _)]
    intro x
    rw [List.mem_dedup, ← h2 x, List.mem_map]

/-- Dictionaries with at most 10000 distinct keys are always fine, whatever the
hash function. -/
theorem dictOk_small {hf : List UInt8 → Nat} {ks : List (List UInt8)}
    (h : ks.dedup.length ≤ 10000) : DictOk hf ks := by
  refine ⟨by omega, ?_⟩
  intro S hS hsub j _ i
  refine Nat.le_trans (List.length_filter_le _ _) ?_
  exact Nat.le_trans (nodup_length_le hS hsub) h

/-- The scan after the key is found. -/
theorem nextLoop_found (k : List UInt8) (l : List Elem) :
    nextLoop k true l = (l.head?).map Elem.key := by
  cases l <;> rfl

/-- The scan finds the key and answers its successor. -/
theorem nextLoop_skip {k : List UInt8} {e : Elem} : ∀ {a b : List Elem}, (∀ x ∈ a, x.key ≠ k) →
    e.key = k → nextLoop k false (a ++ e :: b) = (b.head?).map Elem.key
  | [], b, _, he => by
    simp only [List.nil_append, nextLoop, he, beq_self_eq_true]
    exact nextLoop_found k b
  | x :: a, b, ha, he => by
    have hx : (x.key == k) = false := by simpa using ha x (by simp)
    simp only [List.cons_append, nextLoop, hx]
    exact nextLoop_skip (fun y hy => ha y (by simp [hy])) he

theorem nextLoop_absent {k : List UInt8} : ∀ {a : List Elem}, (∀ x ∈ a, x.key ≠ k) →
    nextLoop k false a = none
  | [], _ => rfl
  | x :: a, ha => by
    have hx : (x.key == k) = false := by simpa using ha x (by simp)
    simp only [nextLoop, hx]
    exact nextLoop_absent (fun y hy => ha y (by simp [hy]))

/-- Walking from a bucket is a suffix of walking from the start, and everything
skipped lies in earlier buckets. -/
theorem walk_suffix {hf : List UInt8 → Nat} {h : Hash} {l : List Elem} (I : TInv hf h l) (b : Nat)
    (hb : b ≤ h.mask) :
    ∃ p, h.walk 0 = p ++ h.walk b ∧ ∀ e ∈ p, h.bucket hf e.key < b := by
  refine ⟨(List.range' 0 b).flatMap (fun i => (h.tbl i).take 10000), ?_, ?_⟩
  · simp only [walk, ← List.flatMap_append]
    congr 1
    have := List.range'_append (s := 0) (m := b) (n := h.mask + 1 - b) (step := 1)
    simp only [Nat.one_mul, Nat.zero_add] at this
    rw [this]
    congr 1; omega
  · intro e he
    obtain ⟨i, hi, hei⟩ := List.mem_flatMap.1 he
    have := ((I.mem i e).1 (List.mem_of_mem_take hei)).2
    rw [this]
    have := List.mem_range'_1.1 hi
    omega

/-- Asking for the key after the one at a position. -/
theorem nextkey_succ {hf : List UInt8 → Nat} {h : Hash} {l : List Elem} (I : TInv hf h l)
    {a b : List Elem} {e : Elem} (hw : h.walk 0 = a ++ e :: b)
    (hn : ((h.walk 0).map Elem.key).Nodup) :
    nextkey hf h (some e.key) = (b.head?).map Elem.key := by
  obtain ⟨p, hp, hpb⟩ := walk_suffix I (h.bucket hf e.key) Nat.and_le_right
  have hep : e ∉ p := fun hm => by have := hpb e hm; omega
  rw [hw] at hp
  -- `p` is a prefix of `a`
  obtain ⟨a', ha'⟩ : ∃ a', h.walk (h.bucket hf e.key) = a' ++ e :: b ∧ a = p ++ a' := by
    rcases List.append_eq_append_iff.1 hp with ⟨c, hc1, hc2⟩ | ⟨c, hc1, hc2⟩
    · -- p = a ++ c, so e would be in p unless c = []
      cases c with
      | nil => exact ⟨[], by simpa using hc2.symm, by simpa using hc1.symm⟩
      | cons y c =>
        simp only [List.cons_append, List.cons.injEq] at hc2
        exact absurd (by rw [hc1, hc2.1]; simp) hep
    · exact ⟨c, hc2, hc1⟩
  rw [nextkey, ha'.1]
  apply nextLoop_skip _ rfl
  intro x hx hxe
  rw [hw, ha'.2] at hn
  simp only [List.map_append, List.map_cons, List.append_assoc] at hn
  have h1 := (List.nodup_append.1 hn).2.1
  exact (List.nodup_append.1 h1).2.2 x.key (List.mem_map_of_mem hx) e.key (by simp) hxe

theorem visit_from {hf : List UInt8 → Nat} {h : Hash} {l : List Elem} (I : TInv hf h l)
    (hn : ((h.walk 0).map Elem.key).Nodup) :
    ∀ (b : List Elem) (a : List Elem) (e : Elem) (fuel : Nat), h.walk 0 = a ++ e :: b →
      b.length < fuel → visit hf h fuel (some e.key) = b.map Elem.key
  | [], a, e, fuel + 1, hw, _ => by
    simp [visit, nextkey_succ I hw hn]
  | x :: b, a, e, fuel + 1, hw, hf' => by
    have := nextkey_succ I hw hn
    simp only [visit, this, List.head?_cons, Option.map_some, List.map_cons]
    rw [visit_from I hn b (a ++ [e]) x fuel (by simpa using hw) (by simp at hf'; omega)]

/-- **C22.** Starting without a key and repeatedly asking for the next key visits
every key of the dictionary exactly once and then ends. -/
theorem iteration_visits_all {hf : List UInt8 → Nat} (cs : Nat)
    (adds : List (Int × List UInt8 × List UInt8)) (hok : DictOk hf (addKeys adds)) (fuel : Nat)
    (hfuel : (addKeys adds).dedup.length < fuel) :
    (visit hf (dictRun hf cs adds) fuel none).Nodup ∧
    (∀ k, k ∈ visit hf (dictRun hf cs adds) fuel none ↔ k ∈ addKeys adds) ∧
    (∀ fuel', fuel ≤ fuel' →
      visit hf (dictRun hf cs adds) fuel' none = visit hf (dictRun hf cs adds) fuel none) := by
  obtain ⟨l, j, D, h1, h2⟩ := dictRun_state hok cs adds (fun _ h => h)
  have hsz := (dict_is_map cs adds hok).2
  rw [dictSize, D.inv.t.size] at hsz
  generalize dictRun hf cs adds = h at *
  have hp := D.inv.walk_perm (D.chain hok)
  have hn : ((h.walk 0).map Elem.key).Nodup := (hp.map _).nodup_iff.2 D.inv.t.keys
  have hall : ∀ f, l.length < f → visit hf h f none = (h.walk 0).map Elem.key := by
    intro f hlf
    cases f with
    | zero => omega
    | succ f =>
      cases hw : h.walk 0 with
      | nil => simp [visit, nextkey, hw, nextLoop]
      | cons e b =>
        have hl : (e :: b).length = l.length := by rw [← hw]; exact hp.length_eq
        simp only [visit, nextkey, hw, nextLoop, if_true, List.map_cons]
        rw [visit_from D.inv.t hn b [] e f (by simpa using hw) (by simp at hl; omega)]
  rw [hall fuel (by omega)]
  refine ⟨hn, ?_, ?_⟩
  · intro k
    rw [← h2 k, List.mem_map]
    constructor
    · rintro ⟨e, he, rfl⟩; exact ⟨e, hp.mem_iff.1 he, rfl⟩
    · rintro ⟨e, he, rfl⟩; exact ⟨e, hp.mem_iff.2 he, rfl⟩
  · intro f hf'; exact hall f (by omega)

/-! ## Examples -/

/-- Six additions with five keys: the table (4 buckets) grows. -/
def demoAdds : List (Int × List UInt8 × List UInt8) :=
  [(0, [1], [10]), (0, [2], [20]), (0, [3], [30]), (0, [1], [11]), (0, [4], [40]), (0, [5], [50])]

example (hf : List UInt8 → Nat) : DictOk hf (addKeys demoAdds) := dictOk_small (by decide)

example (hf : List UInt8 → Nat) : dictFetch hf (dictRun hf 0 demoAdds) 0 [1] = some [11] :=
  (dict_is_map 0 demoAdds (dictOk_small (by decide))).1 0 [1]

example (hf : List UInt8 → Nat) (k : List UInt8) :
    k ∈ visit hf (dictRun hf 0 demoAdds) 6 none ↔ k ∈ [[1], [2], [3], [1], [4], [5]] :=
  (iteration_visits_all 0 demoAdds (dictOk_small (by decide)) 6 (by decide)).2.1 k

end Dw
