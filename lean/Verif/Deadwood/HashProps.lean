import Verif.Deadwood.HashSpecLemmas
/-!
# Properties of the Deadwood cache (C15–C18)

All theorems are about histories of calls on a fresh cache and hold for every
hash function.  `NoFlood` excludes histories that put more than 32000 live keys
in one bucket (the code stops searching a chain there); `Legal` excludes adding
a permanent entry over an evictable one (see `pin_over_evictable_is_ub`).
-/

namespace Dw
open Spec (Cache Entry)
open Cachespec

/-- The hypotheses shared by the theorems: the history `ops` on a cache made by
`dwh_hash_init(n)`. -/
structure Good (hf : List UInt8 → Nat) (cs n : Nat) (ops : List HOp) : Prop where
  noFlood : NoFlood hf (Hash.init cs n).mask ((Hash.init cs n).max + pins ops) (keysOf ops)
  legal : Legal ⟨(Hash.init cs n).max, [], []⟩ ops

/-- The fresh abstract cache. -/
abbrev fresh0 (cs n : Nat) : Cache := ⟨(Hash.init cs n).max, [], []⟩

theorem Good.sim {hf : List UInt8 → Nat} {cs n : Nat} {ops : List HOp} (g : Good hf cs n ops) :
    ∃ h es ps, (Hash.init cs n).run hf ops = .ok ((run (fresh0 cs n) ops).1, h) ∧
      Hash.Rel hf (Hash.init cs n).mask h (run (fresh0 cs n) ops).2 es ps ∧
      (run (fresh0 cs n) ops).2.lru.length < (Hash.init cs n).max ∧ h.Short ∧
      h.max = (Hash.init cs n).max := by
  obtain ⟨h, es, ps, h1, h2, h3, h4, h5⟩ := Hash.run_sim g.noFlood ops
    (Hash.rel_init (hf := hf) cs n) (Hash.max_pos cs n) (Hash.max_pos cs n) (by simp) (by simp)
    (fun k hk => hk) g.legal
  exact ⟨h, es, ps, h1, h2, h3, h5, by rw [← h2.cap]; exact h4⟩

/-! ## What a history wrote last -/

/-- Is the last write a permanent one? -/
def isPerm : Option (Bool × List UInt8) → Bool
  | some (true, _) => true
  | _ => false

/-- Effect of one call on "the last value written for `k`". -/
def writeStep (k : List UInt8) (w : Option (Bool × List UInt8)) : HOp → Option (Bool × List UInt8)
  | .put _ k' v t => if k' = k ∧ (0 < t ∨ t = -2) ∧ isPerm w = false then some (false, v) else w
  | .pin _ k' v => if k' = k ∧ isPerm w = false then some (true, v) else w
  | .drop k' => if k' = k ∧ isPerm w = false then none else w
  | _ => w

/-- What a history wrote last for a key (`true` = permanently): a permanent
value sticks, a removal forgets. -/
def written (k : List UInt8) (ops : List HOp) : Option (Bool × List UInt8) :=
  ops.foldl (writeStep k) none

/-- Relation between an abstract cache and the last write of a key. -/
structure WInv (k : List UInt8) (c : Cache) (w : Option (Bool × List UInt8)) : Prop where
  perm : ∀ e, Cache.find c.perm k = some e → w = some (true, e.val)
  perm' : ∀ v, w = some (true, v) → ∃ e, Cache.find c.perm k = some e
  lru : ∀ e, Cache.find c.lru k = some e → w = some (false, e.val)

theorem WInv.isPerm_iff {k : List UInt8} {c : Cache} {w : Option (Bool × List UInt8)}
    (W : WInv k c w) : isPerm w = (Cache.find c.perm k).isSome := by
  cases h : Cache.find c.perm k with
  | some e => rw [W.perm e h]; rfl
  | none =>
    unfold isPerm
    split
    · next v =>
      obtain ⟨e, he⟩ := W.perm' v rfl
      rw [h] at he; cases he
    · rfl

theorem put_find {c c' : Cache} (hK : KN c) {now : Int} {k v : List UInt8} {t : Int}
    (ht : 0 < t ∨ t = -2) (hp : c.put now k v t = some c') :
    Cache.find c.perm k = none ∧ c'.perm = c.perm ∧
    (∀ e, Cache.find c'.lru k = some e → e = ⟨k, v, c.expiry now k t⟩) ∧
    (∀ k' e, k' ≠ k → Cache.find c'.lru k' = some e → Cache.find c.lru k' = some e) := by
  unfold Cache.put at hp
  rw [if_neg (by omega)] at hp
  split_ifs at hp with h2
  cases hp
  obtain ⟨hs1, hs2, -⟩ := trim_sub
    { c with lru := ⟨k, v, c.expiry now k t⟩ :: Cache.without c.lru k }
  have hn := nodup_cons_without hK.nd ⟨k, v, c.expiry now k t⟩
  refine ⟨by simpa using h2, hs2, ?_, ?_⟩
  · intro e he
    have := find_sublist hs1 hn he
    simp [find_cons] at this
    exact this.symm
  · intro k' e hk' he
    have := find_sublist hs1 hn he
    simp only [find_cons, find_without] at this
    rw [if_neg (Ne.symm hk'), if_neg hk'] at this
    exact this

theorem put_skip {c : Cache} {now : Int} {k v : List UInt8} {t : Int}
    (ht : ¬ (0 < t ∨ t = -2)) : c.put now k v t = some c := by
  unfold Cache.put; rw [if_pos (by omega)]

theorem put_none {c : Cache} {now : Int} {k v : List UInt8} {t : Int}
    (hp : c.put now k v t = none) : (0 < t ∨ t = -2) ∧ (Cache.find c.perm k).isSome := by
  unfold Cache.put at hp
  split_ifs at hp with h1 h2
  exact ⟨by omega, h2⟩

theorem WInv.step {k : List UInt8} {c : Cache} {w : Option (Bool × List UInt8)}
    (W : WInv k c w) (hK : KN c) {op : HOp} (hl : LegalOp c op) :
    WInv k (step c op).2 (writeStep k w op) := by
  cases op with
  | put now k' v t =>
    by_cases ht : 0 < t ∨ t = -2
    swap
    · have : writeStep k w (.put now k' v t) = w := by simp [writeStep, ht]
      rw [this]; simp only [Cachespec.step, put_skip ht]; exact W
    cases hp : c.put now k' v t with
    | none =>
      have hpk := (put_none hp).2
      have : writeStep k w (.put now k' v t) = w := by
        rw [writeStep, if_neg]
        rintro ⟨rfl, -, h⟩
        rw [W.isPerm_iff, hpk] at h; cases h
      rw [this]; simp only [Cachespec.step, hp]; exact W
    | some c' =>
      obtain ⟨h1, h2, h3, h4⟩ := put_find hK ht hp
      simp only [Cachespec.step, hp]
      by_cases hk : k' = k
      · subst hk
        have hw : writeStep k' w (.put now k' v t) = some (false, v) := by
          rw [writeStep, if_pos ⟨rfl, ht, by rw [W.isPerm_iff, h1]; rfl⟩]
        rw [hw]
        refine ⟨?_, ?_, ?_⟩
        · intro e he; rw [h2, h1] at he; cases he
        · intro x hx; simp at hx
        · intro e he; rw [h3 e he]
      · have hw : writeStep k w (.put now k' v t) = w := by
          rw [writeStep, if_neg (fun h => hk h.1)]
        rw [hw]
        refine ⟨?_, ?_, ?_⟩
        · rw [h2]; exact W.perm
        · rw [h2]; exact W.perm'
        · intro e he; exact W.lru e (h4 k e (Ne.symm hk) he)
  | pin now k' v =>
    simp only [Cachespec.step, Cache.pin]
    split_ifs with h1
    · have : writeStep k w (.pin now k' v) = w := by
        rw [writeStep, if_neg]
        rintro ⟨rfl, h⟩
        rw [W.isPerm_iff, h1] at h; cases h
      rw [this]; exact W
    · by_cases hk : k' = k
      · subst hk
        have hw : writeStep k' w (.pin now k' v) = some (true, v) := by
          rw [writeStep, if_pos ⟨rfl, by rw [W.isPerm_iff]; simpa using h1⟩]
        rw [hw]
        refine ⟨?_, ?_, ?_⟩
        · intro e he
          rw [find_cons, if_pos rfl] at he
          cases he; rfl
        · intro x hx; exact ⟨⟨k', v, 0⟩, by rw [find_cons, if_pos rfl]⟩
        · intro e he
          rw [show Cache.find c.lru k' = none from hl] at he
          cases he
      · have hw : writeStep k w (.pin now k' v) = w := by
          rw [writeStep, if_neg (fun h => hk h.1)]
        rw [hw]
        refine ⟨?_, ?_, W.lru⟩
        · intro e he
          rw [find_cons, if_neg hk] at he
          exact W.perm e he
        · intro x hx
          obtain ⟨e, he⟩ := W.perm' x hx
          exact ⟨e, by rw [find_cons, if_neg hk]; exact he⟩
  | look now k' ig =>
    have h := look_find c now k' ig k
    refine ⟨?_, ?_, ?_⟩
    · simp only [Cachespec.step, h.2]; exact W.perm
    · simp only [Cachespec.step, h.2]; exact W.perm'
    · simp only [Cachespec.step, h.1]; exact W.lru
  | ttl now k' => exact W
  | drop k' =>
    simp only [Cachespec.step, Cache.drop]
    split_ifs with h1 h2
    · have : writeStep k w (.drop k') = w := by
        rw [writeStep, if_neg]
        rintro ⟨rfl, h⟩
        rw [W.isPerm_iff, h1] at h; cases h
      rw [this]; exact W
    · by_cases hk : k' = k
      · subst hk
        have hw : writeStep k' w (.drop k') = none := by
          rw [writeStep, if_pos ⟨rfl, by rw [W.isPerm_iff]; simpa using h1⟩]
        rw [hw]
        refine ⟨?_, by simp, ?_⟩
        · intro e he; rw [he] at h1; simp at h1
        · intro e he; simp only [find_without, if_true] at he; cases he
      · have hw : writeStep k w (.drop k') = w := by
          rw [writeStep, if_neg (fun h => hk h.1)]
        rw [hw]
        refine ⟨W.perm, W.perm', ?_⟩
        intro e he
        simp only [find_without, if_neg (Ne.symm hk)] at he
        exact W.lru e he
    · by_cases hk : k' = k
      · subst hk
        have hw : writeStep k' w (.drop k') = none := by
          rw [writeStep, if_pos ⟨rfl, by rw [W.isPerm_iff]; simpa using h1⟩]
        rw [hw]
        refine ⟨?_, by simp, ?_⟩
        · intro e he; rw [he] at h1; simp at h1
        · intro e he; rw [he] at h2; simp at h2
      · have hw : writeStep k w (.drop k') = w := by
          rw [writeStep, if_neg (fun h => hk h.1)]
        rw [hw]; exact W

theorem WInv.foldl {k : List UInt8} (ops : List HOp) :
    ∀ {c : Cache} {w : Option (Bool × List UInt8)}, WInv k c w → KN c → Legal c ops →
    WInv k (run c ops).2 (ops.foldl (writeStep k) w) := by
  induction ops with
  | nil => intro c w W _ _; exact W
  | cons op ops ih => intro c w W hK hl; exact ih (W.step hK hl.1) (hK.step hl.1) hl.2

theorem WInv.run {k : List UInt8} {n : Nat} {ops : List HOp} (hl : Legal ⟨n, [], []⟩ ops) :
    WInv k (run ⟨n, [], []⟩ ops).2 (written k ops) :=
  WInv.foldl ops (c := ⟨n, [], []⟩) ⟨by simp [Cache.find], by simp, by simp [Cache.find]⟩
    (KN.empty n) hl

/-! ## C15: the cache is a map -/

/-- **C15.** Whatever the hash function and history, the hash table with its
recency queue answers every call exactly like the abstract least-recently-used
map (in particular without undefined behaviour). -/
theorem cache_is_lru_map {hf : List UInt8 → Nat} {cs n : Nat} {ops : List HOp}
    (g : Good hf cs n ops) :
    ∃ h, (Hash.init cs n).run hf ops = .ok ((run (fresh0 cs n) ops).1, h) := by
  obtain ⟨h, -, -, h1, -⟩ := g.sim
  exact ⟨h, h1⟩

/-- **C15.** A lookup after any history answers nothing, or exactly the value
last written for that key (and not removed since). -/
theorem look_gives_last_written {hf : List UInt8 → Nat} {cs n : Nat} {ops : List HOp}
    (g : Good hf cs n ops) (now : Int) (k : List UInt8) (ig : Bool) :
    ∃ outs h, (Hash.init cs n).run hf ops = .ok (outs, h) ∧
      ∀ v, (h.get hf now k ig 1).1 = some v → ∃ p, written k ops = some (p, v) := by
  obtain ⟨h, es, ps, h1, R, -, hs, -⟩ := g.sim
  refine ⟨_, h, h1, ?_⟩
  intro v hv
  rw [(Hash.get_look R hs now k ig).1] at hv
  have W := WInv.run (k := k) g.legal
  unfold Cache.look at hv
  cases hp : Cache.find (run (fresh0 cs n) ops).2.perm k with
  | some e =>
    rw [hp] at hv
    simp at hv
    exact ⟨true, by rw [W.perm e hp, hv]⟩
  | none =>
    rw [hp] at hv
    cases hq : Cache.find (run (fresh0 cs n) ops).2.lru k with
    | none => rw [hq] at hv; simp at hv
    | some e =>
      rw [hq] at hv
      simp only at hv
      split_ifs at hv
      · simp at hv
        exact ⟨false, by rw [W.lru e hq, hv]⟩

theorem nodup_len {l ks : List (List UInt8)} (hn : l.Nodup) (h : ∀ x ∈ l, x ∈ ks) :
    l.length ≤ ks.dedup.length := by
  apply List.Subperm.length_le
  apply List.subperm_of_subset hn
  intro x hx
  exact List.mem_dedup.2 (h x hx)

/-- With room for all keys, an insertion evicts nothing. -/
theorem put_noevict {c c' : Cache} (hK : KN c) {now : Int} {k v : List UInt8} {t : Int}
    (ht : 0 < t ∨ t = -2) (hp : c.put now k v t = some c') {ks : List (List UInt8)}
    (hks : ∀ e ∈ c.lru ++ c.perm, e.key ∈ ks) (hk : k ∈ ks) (hN : ks.dedup.length < c.cap) :
    c'.lru = ⟨k, v, c.expiry now k t⟩ :: Cache.without c.lru k := by
  have hnp := (put_find hK ht hp).1
  unfold Cache.put at hp
  rw [if_neg (by omega)] at hp
  split_ifs at hp with h2
  cases hp
  unfold Cache.trim
  rw [if_neg]
  have hn : ((⟨k, v, c.expiry now k t⟩ :: Cache.without c.lru k).map Entry.key ++
      c.perm.map Entry.key).Nodup := by
    rw [List.nodup_append]
    refine ⟨nodup_cons_without hK.nd ⟨k, v, c.expiry now k t⟩, hK.ndP, ?_⟩
    intro a ha b hb hab
    subst hab
    obtain ⟨y, hy, rfl⟩ := List.mem_map.1 hb
    obtain ⟨x, hx, hxy⟩ := List.mem_map.1 ha
    rcases List.mem_cons.1 hx with rfl | hx
    · exact find_eq_none.1 hnp y hy hxy.symm
    · exact find_eq_none.1 (hK.disj x (mem_without.1 hx).1) y hy hxy.symm
  have hl := nodup_len (ks := ks) hn (by
    intro x hx
    rcases List.mem_append.1 hx with hx | hx
    · obtain ⟨e, he, rfl⟩ := List.mem_map.1 hx
      rcases List.mem_cons.1 he with rfl | he
      · exact hk
      · exact hks e (by simp [(mem_without.1 he).1])
    · obtain ⟨e, he, rfl⟩ := List.mem_map.1 hx
      exact hks e (by simp [he]))
  simp at hl ⊢
  omega

/-- Completeness is kept by every call while there is room for all keys. -/
theorem step_complete {k : List UInt8} {c : Cache} {w : Option (Bool × List UInt8)}
    (W : WInv k c w) (hK : KN c) {op : HOp} {ks : List (List UInt8)}
    (hks : ∀ e ∈ c.lru ++ c.perm, e.key ∈ ks) (hko : ∀ x ∈ keysOf [op], x ∈ ks)
    (hN : ks.dedup.length < c.cap)
    (hc : ∀ v, w = some (false, v) → ∃ e, Cache.find c.lru k = some e) :
    ∀ v, writeStep k w op = some (false, v) → ∃ e, Cache.find (step c op).2.lru k = some e := by
  intro v hv
  cases op with
  | put now k' v' t =>
    by_cases ht : 0 < t ∨ t = -2
    swap
    · have : writeStep k w (.put now k' v' t) = w := by simp [writeStep, ht]
      rw [this] at hv; simp only [Cachespec.step, put_skip ht]; exact hc v hv
    simp only [Cachespec.step]
    cases hp : c.put now k' v' t with
    | none =>
      have hpk := (put_none hp).2
      rw [writeStep, if_neg] at hv
      · exact hc v hv
      · rintro ⟨rfl, -, h⟩
        rw [W.isPerm_iff, hpk] at h; cases h
    | some c' =>
      have := put_noevict hK ht hp hks (hko k' (by simp [keysOf])) hN
      simp only [this, find_cons]
      by_cases hk : k' = k
      · exact ⟨_, by rw [if_pos hk]⟩
      · rw [writeStep, if_neg (fun h => hk h.1)] at hv
        obtain ⟨e, he⟩ := hc v hv
        exact ⟨e, by rw [if_neg hk, find_without, if_neg (Ne.symm hk), he]⟩
  | pin now k' v' =>
    have hc' : ∃ e, Cache.find c.lru k = some e := by
      rw [writeStep] at hv
      split_ifs at hv
      · simp at hv
      · exact hc v hv
    simp only [Cachespec.step, Cache.pin]
    split_ifs <;> exact hc'
  | look now k' ig =>
    simp only [Cachespec.step, (look_find c now k' ig k).1]
    exact hc v hv
  | ttl now k' => exact hc v hv
  | drop k' =>
    rw [writeStep] at hv
    split_ifs at hv with h1
    obtain ⟨e, he⟩ := hc v hv
    have hk : k' ≠ k := by
      rintro rfl
      apply h1
      refine ⟨rfl, ?_⟩
      have hd := hK.disj e (find_some_mem he).1
      rw [(find_some_mem he).2] at hd
      rw [W.isPerm_iff, hd]
      rfl
    simp only [Cachespec.step, Cache.drop]
    split_ifs
    · exact ⟨e, he⟩
    · exact ⟨e, by simp only [find_without, if_neg (Ne.symm hk)]; exact he⟩
    · exact ⟨e, he⟩

theorem step_keys {c : Cache} {op : HOp} {ks : List (List UInt8)}
    (hcap : 0 < c.cap) (hlen : c.lru.length < c.cap)
    (hks : ∀ e ∈ c.lru ++ c.perm, e.key ∈ ks) (hko : ∀ x ∈ keysOf [op], x ∈ ks) :
    ∀ e ∈ (step c op).2.lru ++ (step c op).2.perm, e.key ∈ ks := by
  intro e he
  rcases List.mem_append.1 ((step_book c op ks hcap hlen hks).2.2.2 e he) with h | h
  · exact h
  · exact hko _ h

/-- Completeness over a history. -/
theorem lru_complete {k : List UInt8} {ks : List (List UInt8)} (ops : List HOp) :
    ∀ {c : Cache} {w : Option (Bool × List UInt8)}, WInv k c w → KN c → Legal c ops →
    0 < c.cap → c.lru.length < c.cap → (∀ v, w = some (false, v) → ∃ e, Cache.find c.lru k = some e) →
    (∀ e ∈ c.lru ++ c.perm, e.key ∈ ks) → (∀ x ∈ keysOf ops, x ∈ ks) →
    ks.dedup.length < c.cap →
    ∀ v, ops.foldl (writeStep k) w = some (false, v) →
      ∃ e, Cache.find (run c ops).2.lru k = some e := by
  induction ops with
  | nil => intro c w _ _ _ _ _ hc _ _ _ v hv; exact hc v hv
  | cons op ops ih =>
    intro c w W hK hl hcap hlen hc hks hko hN v hv
    have hko' : keysOf (op :: ops) = keysOf [op] ++ keysOf ops := keysOf_append [op] ops
    have hsub : ∀ x ∈ keysOf [op], x ∈ ks := fun x hx => hko x (by rw [hko']; simp [hx])
    have hsub2 : ∀ x ∈ keysOf ops, x ∈ ks := fun x hx => hko x (by rw [hko']; simp [hx])
    have hb := step_book c op ks hcap hlen hks
    exact ih (W.step hK hl.1) (hK.step hl.1) hl.2 (by omega) (by omega)
      (step_complete W hK hks hsub hN hc) (step_keys hcap hlen hks hsub) hsub2 (by omega) v hv

/-- **C15.** While fewer distinct keys than the capacity were ever written, a
lookup that accepts any age answers exactly the last value written. -/
theorem look_complete {hf : List UInt8 → Nat} {cs n : Nat} {ops : List HOp}
    (g : Good hf cs n ops) (hroom : (keysOf ops).dedup.length < (Hash.init cs n).max)
    (now : Int) (k : List UInt8) :
    ∃ outs h, (Hash.init cs n).run hf ops = .ok (outs, h) ∧
      (h.get hf now k true 1).1 = (written k ops).map Prod.snd := by
  obtain ⟨h, es, ps, h1, R, -, hs, -⟩ := g.sim
  refine ⟨_, h, h1, ?_⟩
  rw [(Hash.get_look R hs now k true).1]
  have W := WInv.run (k := k) g.legal
  have hcomp := lru_complete (k := k) (ks := keysOf ops) ops (c := fresh0 cs n) (w := none)
    ⟨by simp [Cache.find], by simp, by simp [Cache.find]⟩ (KN.empty _) g.legal (Hash.max_pos cs n)
    (Hash.max_pos cs n) (by simp) (by simp) (fun _ h => h) hroom
  unfold Cache.look
  cases hp : Cache.find (run (fresh0 cs n) ops).2.perm k with
  | some e => rw [W.perm e hp]; rfl
  | none =>
    cases hq : Cache.find (run (fresh0 cs n) ops).2.lru k with
    | some e => rw [W.lru e hq]; rfl
    | none =>
      cases hw : written k ops with
      | none => rfl
      | some pv =>
        obtain ⟨p, v⟩ := pv
        cases p with
        | true => obtain ⟨e, he⟩ := W.perm' v hw; rw [hp] at he; cases he
        | false => obtain ⟨e, he⟩ := hcomp v hw; rw [hq] at he; cases he


/-! ## C16: expiry -/

/-- The call writes (or removes) the key. -/
def touches (k : List UInt8) : HOp → Bool
  | .put _ k' _ _ => k' == k
  | .pin _ k' _ => k' == k
  | .drop k' => k' == k
  | _ => false

/-- Calls that do not touch a key keep its stored expiry. -/
theorem expire_kept {k : List UInt8} {E : Int} (ops : List HOp) : ∀ {c : Cache}, KN c →
    Legal c ops → (∀ op ∈ ops, touches k op = false) → Cache.find c.perm k = none →
    (∀ e, Cache.find c.lru k = some e → e.expire = E) →
    Cache.find (run c ops).2.perm k = none ∧
    ∀ e, Cache.find (run c ops).2.lru k = some e → e.expire = E := by
  induction ops with
  | nil => intro c _ _ _ h1 h2; exact ⟨h1, h2⟩
  | cons op ops ih =>
    intro c hK hl ht h1 h2
    have hop := ht op (by simp)
    refine ih (hK.step hl.1) hl.2 (fun o ho => ht o (by simp [ho])) ?_ ?_
    · cases op with
      | put now k' v t =>
        simp only [Cachespec.step]
        cases hp : c.put now k' v t with
        | none => exact h1
        | some c' =>
          by_cases htt : 0 < t ∨ t = -2
          · show Cache.find c'.perm k = none
            rw [(put_find hK htt hp).2.1]; exact h1
          · rw [put_skip htt] at hp; cases hp; exact h1
      | pin now k' v =>
        simp [touches] at hop
        simp only [Cachespec.step, Cache.pin]
        split_ifs
        · exact h1
        · show Cache.find (_ :: c.perm) k = none
          rw [find_cons, if_neg hop]; exact h1
      | look now k' ig => simp only [Cachespec.step, (look_find c now k' ig k).2]; exact h1
      | ttl now k' => exact h1
      | drop k' => simp only [Cachespec.step, Cache.drop]; split_ifs <;> exact h1
    · cases op with
      | put now k' v t =>
        simp [touches] at hop
        simp only [Cachespec.step]
        cases hp : c.put now k' v t with
        | none => exact h2
        | some c' =>
          by_cases htt : 0 < t ∨ t = -2
          · intro e he
            exact h2 e ((put_find hK htt hp).2.2.2 k e (Ne.symm hop) he)
          · rw [put_skip htt] at hp; cases hp; exact h2
      | pin now k' v => simp only [Cachespec.step, Cache.pin]; split_ifs <;> exact h2
      | look now k' ig => simp only [Cachespec.step, (look_find c now k' ig k).1]; exact h2
      | ttl now k' => exact h2
      | drop k' =>
        simp [touches] at hop
        simp only [Cachespec.step, Cache.drop]
        split_ifs
        · exact h2
        · intro e he
          simp only [find_without, if_neg (Ne.symm hop)] at he
          exact h2 e he
        · exact h2

/-- **C16.** An entry inserted at time `t0` with lifetime `ttl` seconds and not
touched since: a normal lookup at time `now` answers what a lookup ignoring
expiry answers exactly when `now` is not past the expiry (lifetime clamped to
30 s .. 2 years) and the expiry is not more than three years ahead; otherwise it
answers nothing. -/
theorem served_iff_not_expired {hf : List UInt8 → Nat} {cs n : Nat} {pre mid : List HOp}
    {t0 : Int} {k v : List UInt8} {ttl : Int}
    (g : Good hf cs n (pre ++ HOp.put t0 k v ttl :: mid)) (hpos : 0 < ttl)
    (hnp : isPerm (written k pre) = false) (hmid : ∀ op ∈ mid, touches k op = false) (now : Int) :
    ∃ outs h, (Hash.init cs n).run hf (pre ++ HOp.put t0 k v ttl :: mid) = .ok (outs, h) ∧
      (h.get hf now k false 1).1 =
        (if now ≤ t0 + max 30 (min ttl 63072000) * 256 ∧
            t0 + max 30 (min ttl 63072000) * 256 ≤ now + 94608000 * 256
         then (h.get hf now k true 1).1 else none) := by
  obtain ⟨h, es, ps, h1, R, -, hs, -⟩ := g.sim
  refine ⟨_, h, h1, ?_⟩
  rw [(Hash.get_look R hs now k true).1, (Hash.get_look R hs now k false).1]
  have hl := g.legal
  rw [legal_append] at hl
  obtain ⟨hl1, hl2, hl3⟩ := hl
  have hK1 : KN (run (fresh0 cs n) pre).2 := (KN.empty _).run hl1
  have W := WInv.run (k := k) hl1
  have hfp : Cache.find (run (fresh0 cs n) pre).2.perm k = none := by
    rw [W.isPerm_iff] at hnp; simpa using hnp
  have hrun : (run (fresh0 cs n) (pre ++ HOp.put t0 k v ttl :: mid)).2 =
      (run (step (run (fresh0 cs n) pre).2 (HOp.put t0 k v ttl)).2 mid).2 := by
    rw [run_append]; rfl
  rw [hrun]
  generalize (run (fresh0 cs n) pre).2 = c1 at *
  have hinv : Cache.find (step c1 (HOp.put t0 k v ttl)).2.perm k = none ∧
      ∀ e, Cache.find (step c1 (HOp.put t0 k v ttl)).2.lru k = some e →
        e.expire = t0 + max 30 (min ttl 63072000) * 256 := by
    simp only [Cachespec.step]
    cases hp : c1.put t0 k v ttl with
    | none => have := (put_none hp).2; rw [hfp] at this; cases this
    | some c' =>
      obtain ⟨h1, h2, h3, -⟩ := put_find hK1 (Or.inl hpos) hp
      refine ⟨by show Cache.find c'.perm k = none; rw [h2, h1], ?_⟩
      intro e he
      rw [h3 e he]
      simp only [Cache.expiry, Cache.clampTtl]
      rw [if_neg (by omega)]
  obtain ⟨hA, hB⟩ := expire_kept mid (hK1.step hl2) hl3 hmid hinv.1 hinv.2
  generalize (run (step c1 (HOp.put t0 k v ttl)).2 mid).2 = c2 at *
  unfold Cache.look
  rw [hA]
  cases hq : Cache.find c2.lru k with
  | none => simp
  | some e =>
    have hE := hB e hq
    have hfr := Hash.fresh_iff now e
    rw [hE] at hfr
    by_cases hf2 : now ≤ t0 + max 30 (min ttl 63072000) * 256 ∧
        t0 + max 30 (min ttl 63072000) * 256 ≤ now + 94608000 * 256
    · rw [if_pos hf2]
      have : Cache.fresh now e = true := hfr.2 ⟨hf2.1, by omega⟩
      simp [this]
    · rw [if_neg hf2]
      have : Cache.fresh now e = false := by
        rw [Bool.eq_false_iff]; intro hh; exact hf2 ⟨(hfr.1 hh).1, by have := (hfr.1 hh).2; omega⟩
      simp [this]

/-! ## C17: bounded, least recently used out first -/

/-- **C17.** The recency queue, hence the number of evictable entries, stays
below the configured maximum after any history. -/
theorem evictable_below_max {hf : List UInt8 → Nat} {cs n : Nat} {ops : List HOp}
    (g : Good hf cs n ops) :
    ∃ outs h, (Hash.init cs n).run hf ops = .ok (outs, h) ∧ h.fila.length < h.max ∧
      ∀ i e, e ∈ h.tbl i → e.immutable = false → e.id ∈ h.fila := by
  obtain ⟨h, es, ps, h1, R, h2, hs, h3⟩ := g.sim
  refine ⟨_, h, h1, ?_, ?_⟩
  · rw [h3, R.inv.fila, List.length_map]
    rwa [R.lru, List.length_map] at h2
  · intro i e he him
    rcases List.mem_append.1 ((R.inv.t.mem i e).1 he).1 with he | he
    · rw [R.inv.fila]; exact List.mem_map_of_mem he
    · rw [(R.inv.perm e he).1] at him; cases him

/-- Keys in order of use, latest first, from what a history did and answered:
an effective insertion or a successful lookup uses a key. -/
def useStep (u : List (List UInt8)) : HOp × HOut → List (List UInt8)
  | (.put _ k _ t, .code c) => if c = 1 ∧ (0 < t ∨ t = -2) then k :: u else u
  | (.look _ k _, .val (some _)) => k :: u
  | _ => u

/-- Uses of a history, latest first. -/
def uses (ops : List HOp) (outs : List HOut) : List (List UInt8) :=
  (ops.zip outs).foldl useStep []

/-- The queue is ordered by the last use. -/
def Recent (c : Cache) (u : List (List UInt8)) : Prop :=
  (c.lru.map Entry.key).Pairwise (fun a b => u.idxOf a < u.idxOf b) ∧
  ∀ e ∈ c.lru, e.key ∈ u

theorem Recent.sub {c c' : Cache} {u : List (List UInt8)} (h : Recent c u)
    (hs : c'.lru.Sublist c.lru) : Recent c' u :=
  ⟨h.1.sublist (hs.map _), fun e he => h.2 e (hs.subset he)⟩

theorem Recent.front {c c' : Cache} {u : List (List UInt8)} (h : Recent c u) {e : Entry}
    (hc : c'.lru = e :: Cache.without c.lru e.key) : Recent c' (e.key :: u) := by
  refine ⟨?_, ?_⟩
  · rw [hc, List.map_cons, List.pairwise_cons]
    constructor
    · intro b hb
      obtain ⟨x, hx, rfl⟩ := List.mem_map.1 hb
      have hne : e.key ≠ x.key := fun h => (mem_without.1 hx).2 h.symm
      rw [List.idxOf_cons_self, List.idxOf_cons_ne _ hne]
      omega
    · have hw : ((Cache.without c.lru e.key).map Entry.key).Pairwise
          (fun a b => u.idxOf a < u.idxOf b) :=
        h.1.sublist (List.Sublist.map _ List.filter_sublist)
      refine hw.imp_of_mem ?_
      intro a b ha hb hab
      obtain ⟨x, hx, rfl⟩ := List.mem_map.1 ha
      obtain ⟨y, hy, rfl⟩ := List.mem_map.1 hb
      rw [List.idxOf_cons_ne _ (fun h => (mem_without.1 hx).2 h.symm),
        List.idxOf_cons_ne _ (fun h => (mem_without.1 hy).2 h.symm)]
      omega
  · intro x hx
    rw [hc] at hx
    rcases List.mem_cons.1 hx with rfl | hx
    · simp
    · simp [h.2 x (mem_without.1 hx).1]

theorem Recent.more {c : Cache} {u : List (List UInt8)} (h : Recent c u) {k : List UInt8}
    (hk : ∀ e ∈ c.lru, e.key ≠ k) : Recent c (k :: u) := by
  refine ⟨?_, fun e he => by simp [h.2 e he]⟩
  refine h.1.imp_of_mem ?_
  intro a b ha hb hab
  obtain ⟨x, hx, rfl⟩ := List.mem_map.1 ha
  obtain ⟨y, hy, rfl⟩ := List.mem_map.1 hb
  rw [List.idxOf_cons_ne _ (Ne.symm (hk x hx)), List.idxOf_cons_ne _ (Ne.symm (hk y hy))]
  omega

theorem Recent.step {c : Cache} {u : List (List UInt8)} (h : Recent c u) (hK : KN c) (op : HOp) :
    Recent (step c op).2 (useStep u (op, (step c op).1)) := by
  cases op with
  | put now k v t =>
    simp only [Cachespec.step]
    cases hp : c.put now k v t with
    | none => simpa [useStep] using h
    | some c' =>
      by_cases ht : 0 < t ∨ t = -2
      · have hu : useStep u (.put now k v t, .code 1) = k :: u := by simp [useStep, ht]
        show Recent c' (useStep u (.put now k v t, .code 1))
        rw [hu]
        unfold Cache.put at hp
        rw [if_neg (by omega)] at hp
        split_ifs at hp
        cases hp
        have h0 : Recent { c with lru := ⟨k, v, c.expiry now k t⟩ :: Cache.without c.lru k }
          (k :: u) := h.front (e := ⟨k, v, c.expiry now k t⟩) rfl
        exact h0.sub (trim_sub _).1
      · rw [put_skip ht] at hp; cases hp
        have hu : useStep u (.put now k v t, .code 1) = u := by simp [useStep, ht]
        show Recent c (useStep u (.put now k v t, .code 1))
        rw [hu]; exact h
  | pin now k v =>
    simp only [Cachespec.step, Cache.pin]
    split_ifs <;> exact h
  | look now k ig =>
    simp only [Cachespec.step]
    unfold Cache.look
    cases h1 : Cache.find c.perm k with
    | some e =>
      refine h.more ?_
      rintro x hx rfl
      rw [hK.disj x hx] at h1; cases h1
    | none =>
      cases h2 : Cache.find c.lru k with
      | none => exact h
      | some e =>
        simp only
        split_ifs
        · obtain ⟨-, rfl⟩ := find_some_mem h2
          exact h.front (e := e) rfl
        · exact h
  | ttl now k => exact h
  | drop k =>
    simp only [Cachespec.step, Cache.drop]
    split_ifs
    · exact h
    · exact h.sub List.filter_sublist
    · exact h

theorem Recent.foldl (ops : List HOp) : ∀ {c : Cache} {u : List (List UInt8)}, Recent c u →
    KN c → Legal c ops →
    Recent (run c ops).2 ((ops.zip (run c ops).1).foldl useStep u) := by
  induction ops with
  | nil => intro c u h _ _; exact h
  | cons op ops ih =>
    intro c u h hK hl
    simp only [run, List.zip_cons_cons, List.foldl_cons]
    exact ih (h.step hK op) (hK.step hl.1) hl.2

/-- The key has an evictable entry in the cache. -/
def Hash.evictable (hf : List UInt8 → Nat) (h : Hash) (k : List UInt8) : Prop :=
  ∃ e, h.grep hf k = some e ∧ e.immutable = false

theorem evictable_iff {hf : List UInt8 → Nat} {m : Nat} {h : Hash} {c : Cache}
    {es ps : List Elem} (R : Hash.Rel hf m h c es ps) (hs : h.Short) (k : List UInt8) :
    h.evictable hf k ↔ ∃ e ∈ c.lru, e.key = k := by
  unfold Hash.evictable
  rw [R.inv.t.grep_eq k (hs _), R.lru]
  constructor
  · rintro ⟨e, he, him⟩
    obtain ⟨h1, h2⟩ := (Hash.lfind_eq_some R.inv.t.keys).1 he
    rcases List.mem_append.1 h1 with h1 | h1
    · exact ⟨Hash.ent e, List.mem_map_of_mem h1, h2⟩
    · rw [(R.inv.perm e h1).1] at him; cases him
  · rintro ⟨x, hx, rfl⟩
    obtain ⟨e, he, rfl⟩ := List.mem_map.1 hx
    exact ⟨e, (Hash.lfind_eq_some R.inv.t.keys).2 ⟨by simp [he], rfl⟩, (R.inv.evict e he).1⟩

theorem pins_append (a b : List HOp) : pins (a ++ b) = pins a + pins b := by
  induction a with
  | nil => simp [pins]
  | cons x a ih => cases x <;> (simp [pins, ih]; try omega)

theorem Good.prefix {hf : List UInt8 → Nat} {cs n : Nat} {a b : List HOp}
    (g : Good hf cs n (a ++ b)) : Good hf cs n a := by
  refine ⟨?_, (legal_append _ _ _ |>.1 g.legal).1⟩
  intro S h1 h2 h3 i
  refine g.noFlood S h1 (fun k hk => ?_) ?_ i
  · rw [keysOf_append]; simp [h2 k hk]
  · rw [pins_append]; omega

/-- **C17.** When an insertion makes another evictable entry disappear, that
entry is the one used longest ago: every other evictable entry left was used
more recently. -/
theorem evicts_least_recently_used {hf : List UInt8 → Nat} {cs n : Nat} {ops : List HOp}
    {now : Int} {k0 v : List UInt8} {ttl : Int} (g : Good hf cs n (ops ++ [HOp.put now k0 v ttl])) :
    ∃ outs h h' o, (Hash.init cs n).run hf ops = .ok (outs, h) ∧
      (Hash.init cs n).run hf (ops ++ [HOp.put now k0 v ttl]) = .ok (outs ++ [o], h') ∧
      ∀ k, k ≠ k0 → h.evictable hf k → ¬ h'.evictable hf k →
        ∀ k', k' ≠ k0 → h'.evictable hf k' →
          (uses ops outs).idxOf k' < (uses ops outs).idxOf k := by
  obtain ⟨h, es, ps, h1, R, -, hs, -⟩ := g.prefix.sim
  obtain ⟨h', es', ps', h1', R', -, hs', -⟩ := g.sim
  rw [run_snoc] at h1' R'
  refine ⟨_, h, h', _, h1, h1', ?_⟩
  intro k hk hev hnev k' hk' hev'
  rw [evictable_iff R hs] at hev
  rw [evictable_iff R' hs'] at hnev hev'
  have hrec : Recent (run (fresh0 cs n) ops).2 (uses ops (run (fresh0 cs n) ops).1) :=
    Recent.foldl ops ⟨by simp, by simp⟩ (KN.empty _) g.prefix.legal
  generalize (run (fresh0 cs n) ops).2 = c at *
  generalize uses ops (run (fresh0 cs n) ops).1 = u at *
  obtain ⟨e, he, rfl⟩ := hev
  obtain ⟨e', he', rfl⟩ := hev'
  simp only [Cachespec.step] at hnev he'
  cases hp : c.put now k0 v ttl with
  | none => rw [hp] at hnev; exact absurd ⟨e, he, rfl⟩ hnev
  | some c' =>
    rw [hp] at hnev he'
    simp only at hnev he'
    unfold Cache.put at hp
    split_ifs at hp with ht hpm
    · cases hp; exact absurd ⟨e, he, rfl⟩ hnev
    cases hp
    have heW : e ∈ Cache.without c.lru k0 := mem_without.2 ⟨he, hk⟩
    unfold Cache.trim at hnev he'
    split_ifs at hnev he' with hfull
    · have hne : Cache.without c.lru k0 ≠ [] := List.ne_nil_of_mem heW
      obtain ⟨W0, x, hW⟩ : ∃ W0 x, Cache.without c.lru k0 = W0 ++ [x] :=
        ⟨_, _, (List.dropLast_append_getLast hne).symm⟩
      have hdl : ((⟨k0, v, c.expiry now k0 ttl⟩ : Entry) :: Cache.without c.lru k0).dropLast =
          ⟨k0, v, c.expiry now k0 ttl⟩ :: W0 := by
        rw [List.dropLast_cons_of_ne_nil hne, hW, List.dropLast_concat]
      simp only [hdl] at hnev he'
      have hex : e = x := by
        rw [hW] at heW
        rcases List.mem_append.1 heW with hh | hh
        · exact absurd ⟨e, by simp [hh], rfl⟩ hnev
        · simpa using hh
      subst hex
      have he'W : e' ∈ W0 := by
        rcases List.mem_cons.1 he' with rfl | hh
        · exact absurd rfl hk'
        · exact hh
      have hpw : ((W0 ++ [e]).map Entry.key).Pairwise (fun a b => u.idxOf a < u.idxOf b) := by
        rw [← hW]; exact hrec.1.sublist (List.Sublist.map _ List.filter_sublist)
      rw [List.map_append, List.pairwise_append] at hpw
      exact hpw.2.2 e'.key (List.mem_map_of_mem he'W) e.key (by simp)
    · exact absurd ⟨e, by simp [heW], rfl⟩ hnev

/-! ## C18: permanent entries -/

theorem isPerm_stays {k v : List UInt8} (ops : List HOp) :
    ops.foldl (writeStep k) (some (true, v)) = some (true, v) := by
  induction ops with
  | nil => rfl
  | cons op ops ih =>
    have : writeStep k (some (true, v)) op = some (true, v) := by
      cases op <;> simp [writeStep, isPerm]
    rw [List.foldl_cons, this, ih]

/-- **C18.** A key whose last write was a permanent one is answered with that
value by every lookup at every time; inserting or adding it again, or removing
it, is refused. -/
theorem permanent_answered {hf : List UInt8 → Nat} {cs n : Nat} {ops : List HOp}
    (g : Good hf cs n ops) {k v : List UInt8} (hw : written k ops = some (true, v)) :
    ∃ outs h, (Hash.init cs n).run hf ops = .ok (outs, h) ∧
      (∀ now ig, (h.get hf now k ig 1).1 = some v) ∧
      (∀ now v' t, 0 < t → h.add hf now k v' t 1 = .err) ∧
      (∀ now v', h.add hf now k v' 1 2 = .err) ∧ h.zap hf k 1 = (-1, h) := by
  obtain ⟨h, es, ps, h1, R, -, hs, -⟩ := g.sim
  have W := WInv.run (k := k) g.legal
  obtain ⟨e, he⟩ := W.perm' v hw
  have hev := W.perm e he
  rw [hw] at hev
  simp at hev
  generalize (run (fresh0 cs n) ops).2 = c at *
  have he2 := he
  rw [R.perm, Hash.find_ent] at he2
  obtain ⟨x, hx, hxe⟩ := Option.map_eq_some_iff.1 he2
  obtain ⟨hxm, hxk⟩ := (Hash.lfind_eq_some R.inv.keysP).1 hx
  have hg : h.grep hf k = some x := by
    rw [R.inv.t.grep_eq k (hs _), Hash.lfind_eq_some R.inv.t.keys]; exact ⟨by simp [hxm], hxk⟩
  have hg2 : ({ h with next := h.next + 1 } : Hash).grep hf k = some x := hg
  have hpm := R.inv.perm x hxm
  refine ⟨_, h, h1, ?_, ?_, ?_, ?_⟩
  · intro now ig
    rw [(Hash.get_look R hs now k ig).1]
    simp [Cache.look, he, hev]
  · intro now v' t ht
    simp only [Hash.add, if_pos (Or.inl ht : 0 < t ∨ t = -2), Hash.placeNew, Hash.zap, hg2]
    simp [hpm]
  · intro now v'
    simp only [Hash.add, Hash.placeNew, Hash.zap, hg2]
    simp [hpm]
  · simp [Hash.zap, hg, hpm]

/-- **C18.** Once added as permanent, an entry is answered after every later
history, at every time. -/
theorem permanent_forever {hf : List UInt8 → Nat} {cs n : Nat} {pre post : List HOp}
    {t0 : Int} {k v : List UInt8} (g : Good hf cs n (pre ++ HOp.pin t0 k v :: post))
    (hnp : isPerm (written k pre) = false) :
    ∃ outs h, (Hash.init cs n).run hf (pre ++ HOp.pin t0 k v :: post) = .ok (outs, h) ∧
      ∀ now ig, (h.get hf now k ig 1).1 = some v := by
  obtain ⟨outs, h, h1, h2, -⟩ := permanent_answered g (k := k) (v := v) (by
    simp only [written, List.foldl_append, List.foldl_cons]
    have : writeStep k (List.foldl (writeStep k) none pre) (HOp.pin t0 k v) = some (true, v) := by
      rw [writeStep, if_pos ⟨rfl, hnp⟩]
    rw [this, isPerm_stays])
  exact ⟨outs, h, h1, h2⟩

/-! ## The calling discipline -/

/-- Histories as Deadwood makes them without a cache file: permanent entries
first (configuration), then anything else; these satisfy `Good` for caches up to
32000 entries, whatever the hash function. -/
theorem good_of_startup {hf : List UInt8 → Nat} {cs n : Nat} {a b : List HOp}
    (ha : ∀ op ∈ a, ∃ t k v, op = HOp.pin t k v)
    (hb : ∀ op ∈ b, (∀ t k v, op ≠ HOp.pin t k v) ∧ ∀ now k v t, op = HOp.put now k v t → 0 ≤ now)
    (hsmall : (Hash.init cs n).max + a.length ≤ 32000) : Good hf cs n (a ++ b) := by
  have hbp : pins b = 0 := by
    clear hsmall
    induction b with
    | nil => rfl
    | cons x b ih =>
      rw [pins_cons, ih (fun o ho => hb o (by simp [ho]))]
      cases x with
      | pin t k v => exact absurd rfl ((hb _ (by simp)).1 t k v)
      | _ => rfl
  have hap : pins a ≤ a.length := by
    clear ha hsmall
    induction a with
    | nil => simp [pins]
    | cons x a ih => cases x <;> simp [pins] <;> omega
  refine ⟨noFlood_small (by rw [pins_append]; omega), ?_⟩
  rw [legal_append]
  constructor
  · have : ∀ (l : List HOp) (c : Cache), c.lru = [] → (∀ op ∈ l, ∃ t k v, op = HOp.pin t k v) →
        Legal c l := by
      intro l
      induction l with
      | nil => intro c _ _; trivial
      | cons x l ih =>
        intro c hc hx
        obtain ⟨t, k, v, rfl⟩ := hx x (by simp)
        refine ⟨by simp [LegalOp, hc, Cache.find], ih _ ?_ (fun o ho => hx o (by simp [ho]))⟩
        simp only [Cachespec.step, Cache.pin]
        split_ifs <;> exact hc
    exact this a _ rfl ha
  · have : ∀ (l : List HOp) (c : Cache), (∀ op ∈ l, (∀ t k v, op ≠ HOp.pin t k v) ∧
        ∀ now k v t, op = HOp.put now k v t → 0 ≤ now) → Legal c l := by
      intro l
      induction l with
      | nil => intro c _; trivial
      | cons x l ih =>
        intro c hx
        refine ⟨?_, ih _ (fun o ho => hx o (by simp [ho]))⟩
        cases x with
        | put now k v t => exact (hx _ (by simp)).2 now k v t rfl
        | pin t k v => exact absurd rfl ((hx _ (by simp)).1 t k v)
        | _ => trivial
    exact this b _ hb

/-- Is the outcome undefined behaviour? (for evaluating examples) -/
def Res.isUb {α : Type} : Res α → Bool
  | .ub => true
  | _ => false

theorem Res.eq_ub {α : Type} {x : Res α} (h : x.isUb = true) : x = .ub := by
  cases x <;> simp [Res.isUb] at h ⊢

/-- **Finding.** Adding a permanent entry for a key that is present as an
evictable one (as happens when a cache file holding that key was read before the
configured entries are added) leaves a queue node pointing to freed memory; a
later insertion into the full cache follows it: undefined behaviour. -/
theorem pin_over_evictable_is_ub :
    (Hash.init 0 3).run (fun _ => 0)
      [.put 0 [97] [1] 60, .pin 0 [97] [2], .put 0 [98] [3] 60, .put 0 [99] [4] 60] = .ub := by
  apply Res.eq_ub
  decide +kernel

/-! ## Examples: the hypotheses are met by concrete cases -/

/-- A history used below: capacity 3, one permanent entry, evictions. -/
def demoOps : List HOp :=
  [.pin 0 [9] [9, 9], .put 100 [1] [10] 60, .put 200 [2] [20] 60, .look 300 [1] false,
   .put 400 [3] [30] 60]

theorem demoGood (hf : List UInt8 → Nat) : Good hf 0 4 demoOps := by
  refine good_of_startup (a := [.pin 0 [9] [9, 9]]) (b := demoOps.tail) ?_ ?_ (by decide)
  · intro op hop; simp at hop; exact ⟨_, _, _, hop⟩
  · intro op hop
    simp only [demoOps, List.tail_cons, List.mem_cons, List.not_mem_nil, or_false] at hop
    rcases hop with rfl | rfl | rfl | rfl <;> refine ⟨by simp, ?_⟩ <;> intro now k v t h <;>
      first | (cases h; decide) | cases h

example (hf : List UInt8 → Nat) : ∃ h, (Hash.init 0 4).run hf demoOps =
    .ok ([.code 1, .code 1, .code 1, .val (some [10]), .code 1], h) := by
  obtain ⟨h, h1⟩ := cache_is_lru_map (demoGood hf)
  have : (run (fresh0 0 4) demoOps).1 =
      [.code 1, .code 1, .code 1, .val (some [10]), .code 1] := by decide +kernel
  exact ⟨h, this ▸ h1⟩

example (hf : List UInt8 → Nat) : ∃ outs h, (Hash.init 0 4).run hf demoOps = .ok (outs, h) ∧
    ∀ v, (h.get hf 500 [1] false 1).1 = some v → ∃ p, written [1] demoOps = some (p, v) :=
  look_gives_last_written (demoGood hf) 500 [1] false

example : written [1] demoOps = some (false, [10]) ∧ written [9] demoOps = some (true, [9, 9]) := by
  decide

example (hf : List UInt8 → Nat) :
    ∃ outs h, (Hash.init 0 9).run hf [.put 5 [1] [10] 60, .put 6 [1] [11] 60] = .ok (outs, h) ∧
      (h.get hf 7 [1] true 1).1 = some [11] := by
  have g : Good hf 0 9 [.put 5 [1] [10] 60, .put 6 [1] [11] 60] :=
    good_of_startup (a := []) (by simp) (by simp; first | (intros; omega) | (constructor <;> (intros; omega))) (by decide)
  simpa [written, writeStep, isPerm] using look_complete g (by decide) 7 [1]

example (hf : List UInt8 → Nat) :
    ∃ outs h, (Hash.init 0 9).run hf [.put 5 [1] [10] 60, .look 9 [1] false] = .ok (outs, h) ∧
      (h.get hf (5 + 60 * 256 + 1) [1] false 1).1 = none := by
  have g : Good hf 0 9 ([] ++ HOp.put 5 [1] [10] 60 :: [.look 9 [1] false]) :=
    good_of_startup (a := []) (by simp) (by simp; first | (intros; omega) | (constructor <;> (intros; omega))) (by decide)
  obtain ⟨o, h, h1, h2⟩ := served_iff_not_expired g (by decide) (by decide) (by simp [touches])
    (5 + 60 * 256 + 1)
  refine ⟨o, h, h1, ?_⟩
  rw [h2, if_neg (by decide)]

example (hf : List UInt8 → Nat) : ∃ outs h, (Hash.init 0 4).run hf demoOps = .ok (outs, h) ∧
    h.fila.length < h.max :=
  let ⟨o, h, h1, h2, _⟩ := evictable_below_max (demoGood hf)
  ⟨o, h, h1, h2⟩

/-- In the demo the last insertion evicts `[2]` (used at 200) and keeps `[1]`
(used at 300). -/
example : (match (Hash.init 0 4).run (fun _ => 0) (demoOps.take 4),
      (Hash.init 0 4).run (fun _ => 0) demoOps with
    | .ok (outs, h), .ok (_, h') =>
      (h.grep (fun _ => 0) [2]).isSome && (h'.grep (fun _ => 0) [2]).isNone &&
      (h'.grep (fun _ => 0) [1]).isSome &&
      decide ((uses (demoOps.take 4) outs).idxOf [1] < (uses (demoOps.take 4) outs).idxOf [2])
    | _, _ => false) = true := by
  decide +kernel

example (hf : List UInt8 → Nat) : ∃ outs h, (Hash.init 0 4).run hf demoOps = .ok (outs, h) ∧
    ∀ now ig, (h.get hf now [9] ig 1).1 = some [9, 9] :=
  permanent_forever (pre := []) (demoGood hf) (by decide)

end Dw
