import Verif.Deadwood.HashRefine
import Mathlib.Data.List.Perm.Subperm
/-! Histories of cache calls: spec run, legality, and the simulation lemma. -/

namespace Dw
open Spec (Cache Entry)

namespace Cachespec

/-- The abstract cache performing one call. -/
def step (c : Cache) : HOp → HOut × Cache
  | .put now k v t => match c.put now k v t with
    | some c' => (.code 1, c') | none => (.code (-1), c)
  | .pin _ k v => match c.pin k v with
    | some c' => (.code 1, c') | none => (.code (-1), c)
  | .look now k ig => (.val (c.look now k ig).1, (c.look now k ig).2)
  | .ttl now k => (.code (c.ttlLeft now k), c)
  | .drop k => (.code (c.drop k).1, (c.drop k).2)

/-- The abstract cache performing a history. -/
def run (c : Cache) : List HOp → List HOut × Cache
  | [] => ([], c)
  | op :: ops => ((step c op).1 :: (run (step c op).2 ops).1, (run (step c op).2 ops).2)

/-- A call that keeps to the calling discipline: the clock is not before the
epoch, and a permanent entry is not added over an evictable one. -/
def LegalOp (c : Cache) : HOp → Prop
  | .put now _ _ _ => 0 ≤ now
  | .pin _ k _ => Cache.find c.lru k = none
  | _ => True

/-- A history of such calls. -/
def Legal (c : Cache) : List HOp → Prop
  | [] => True
  | op :: ops => LegalOp c op ∧ Legal (step c op).2 ops

/-- Keys written by a history. -/
def keysOf : List HOp → List (List UInt8)
  | [] => []
  | .put _ k _ _ :: ops => k :: keysOf ops
  | .pin _ k _ :: ops => k :: keysOf ops
  | _ :: ops => keysOf ops

/-- Number of permanent insertions in a history. -/
def pins : List HOp → Nat
  | [] => 0
  | .pin _ _ _ :: ops => pins ops + 1
  | _ :: ops => pins ops

end Cachespec

/-- No bucket gets more than 32000 of the given keys, as long as at most `n` of
them are present. -/
def NoFlood (hf : List UInt8 → Nat) (mask n : Nat) (ks : List (List UInt8)) : Prop :=
  ∀ S : List (List UInt8), S.Nodup → (∀ k ∈ S, k ∈ ks) → S.length ≤ n →
    ∀ i, (S.filter (fun k => hf k &&& mask == i)).length ≤ 32000

/-- Small caches cannot be flooded, whatever the keys and hash function. -/
theorem noFlood_small {hf : List UInt8 → Nat} {mask n : Nat} {ks : List (List UInt8)}
    (h : n ≤ 32000) : NoFlood hf mask n ks := by
  intro S _ _ hl i
  exact Nat.le_trans (List.length_filter_le _ _) (by omega)

/-- Histories with at most 32000 colliding keys do not flood a bucket. -/
theorem noFlood_keys {hf : List UInt8 → Nat} {mask n : Nat} {ks : List (List UInt8)}
    (h : ∀ i, (ks.filter (fun k => hf k &&& mask == i)).length ≤ 32000) :
    NoFlood hf mask n ks := by
  intro S hS hsub _ i
  refine Nat.le_trans (List.Subperm.length_le ?_) (h i)
  apply List.subperm_of_subset (hS.filter _)
  intro x hx
  rw [List.mem_filter] at hx ⊢
  exact ⟨hsub x hx.1, hx.2⟩

namespace Hash
open Cachespec
variable {hf : List UInt8 → Nat}

/-- One call is simulated. -/
theorem step_sim {m : Nat} {h : Hash} {c : Cache} {es ps : List Elem}
    (R : Rel hf m h c es ps) (hs : h.Short) (op : HOp) (hl : LegalOp c op) :
    ∃ h' es' ps', h.step hf op = .ok ((Cachespec.step c op).1, h') ∧
      Rel hf m h' (Cachespec.step c op).2 es' ps' := by
  cases op with
  | put now k v t =>
    rcases add_put R hs hl k v t with ⟨h1, h2⟩ | ⟨h', c', es', h1, h2, R'⟩
    · exact ⟨h, es, ps, by simp [Hash.step, Cachespec.step, h1, h2],
        by simpa [Cachespec.step, h2] using R⟩
    · exact ⟨h', es', ps, by simp [Hash.step, Cachespec.step, h1, h2],
        by simpa [Cachespec.step, h2] using R'⟩
  | pin now k v =>
    rcases add_pin R hs now k v hl with ⟨h1, h2⟩ | ⟨h', c', ps', h1, h2, R'⟩
    · exact ⟨h, es, ps, by simp [Hash.step, Cachespec.step, h1, h2],
        by simpa [Cachespec.step, h2] using R⟩
    · exact ⟨h', es, ps', by simp [Hash.step, Cachespec.step, h1, h2],
        by simpa [Cachespec.step, h2] using R'⟩
  | look now k ig =>
    obtain ⟨h1, es', R'⟩ := get_look R hs now k ig
    exact ⟨_, es', ps, by simp [Hash.step, Cachespec.step, h1], R'⟩
  | ttl now k =>
    exact ⟨h, es, ps, by simp [Hash.step, Cachespec.step, getTtl_eq R hs], R⟩
  | drop k =>
    obtain ⟨h1, es', R'⟩ := zap_drop R hs k
    exact ⟨_, es', ps, by simp [Hash.step, Cachespec.step, h1], R'⟩

end Hash

namespace Cachespec

theorem mem_without {l : List Entry} {k : List UInt8} {e : Entry} :
    e ∈ Cache.without l k ↔ e ∈ l ∧ e.key ≠ k := by simp [Cache.without]

theorem length_without (l : List Entry) (k : List UInt8) :
    (Cache.without l k).length ≤ l.length := List.length_filter_le _ _

theorem without_lt {l : List Entry} {k : List UInt8} {e : Entry} (h : Cache.find l k = some e) :
    (Cache.without l k).length < l.length := by
  have h1 := List.mem_of_find?_eq_some h
  have h2 : e.key = k := by simpa using List.find?_some h
  unfold Cache.without
  have := List.length_filter_lt_length_iff_exists (p := fun x : Entry => x.key != k) (l := l)
  rw [this]
  exact ⟨e, h1, by simp [h2]⟩

/-- Elements of the trimmed cache were there before trimming. -/
theorem trim_sub (c : Cache) : (Cache.trim c).lru.Sublist c.lru ∧ (Cache.trim c).perm = c.perm ∧
    (Cache.trim c).cap = c.cap := by
  unfold Cache.trim
  split_ifs
  · exact ⟨List.dropLast_sublist _, rfl, rfl⟩
  · exact ⟨List.Sublist.refl _, rfl, rfl⟩

theorem trim_len (c : Cache) (hc : 0 < c.cap) (h : c.lru.length ≤ c.cap) :
    (Cache.trim c).lru.length < c.cap := by
  unfold Cache.trim
  split_ifs with h1
  · simp; omega
  · omega

/-- Size and key bookkeeping of one abstract step. -/
theorem step_book (c : Cache) (op : HOp) (ks : List (List UInt8)) (hc : 0 < c.cap)
    (hlen : c.lru.length < c.cap) (hk : ∀ e ∈ c.lru ++ c.perm, e.key ∈ ks) :
    (step c op).2.cap = c.cap ∧ (step c op).2.lru.length < c.cap ∧
    (step c op).2.perm.length ≤ c.perm.length + pins [op] ∧
    (∀ e ∈ (step c op).2.lru ++ (step c op).2.perm, e.key ∈ ks ++ keysOf [op]) := by
  have hk' : ∀ e, e ∈ c.lru ∨ e ∈ c.perm → e.key ∈ ks := fun e he => hk e (by simpa using he)
  cases op with
  | put now k v t =>
    simp only [step, pins, keysOf]
    unfold Cache.put
    split_ifs with h1 h2
    · exact ⟨rfl, hlen, by simp, fun e he => by simp [hk e he]⟩
    · exact ⟨rfl, hlen, by simp, fun e he => by simp [hk e he]⟩
    · simp only
      have hs := trim_sub { c with lru := ⟨k, v, c.expiry now k t⟩ :: Cache.without c.lru k }
      have hl := trim_len { c with lru := ⟨k, v, c.expiry now k t⟩ :: Cache.without c.lru k } hc
        (by have := length_without c.lru k; simp; omega)
      refine ⟨hs.2.2, hl, by simp [hs.2.1], ?_⟩
      intro e he
      rw [List.mem_append, hs.2.1] at he
      rcases he with he | he
      · rcases List.mem_cons.1 (hs.1.subset he) with rfl | he
        · simp
        · simp [hk' e (Or.inl (mem_without.1 he).1)]
      · simp [hk' e (Or.inr he)]
  | pin now k v =>
    simp only [step, pins, keysOf]
    unfold Cache.pin
    split_ifs with h1
    · exact ⟨rfl, hlen, by simp, fun e he => by simp [hk e he]⟩
    · refine ⟨rfl, hlen, by simp, ?_⟩
      intro e he
      simp only [List.mem_append, List.mem_cons] at he
      rcases he with he | rfl | he
      · simp [hk' e (Or.inl he)]
      · simp
      · simp [hk' e (Or.inr he)]
  | look now k ig =>
    simp only [step, pins, keysOf, List.append_nil]
    unfold Cache.look
    cases h1 : Cache.find c.perm k with
    | some e => exact ⟨rfl, hlen, by simp, hk⟩
    | none =>
      cases h2 : Cache.find c.lru k with
      | none => exact ⟨rfl, hlen, by simp, hk⟩
      | some e =>
        simp only
        split_ifs
        · have := without_lt h2
          refine ⟨rfl, by simp; omega, by simp, ?_⟩
          intro x hx
          simp only [List.mem_append, List.mem_cons, mem_without] at hx
          rcases hx with (rfl | hx) | hx
          · exact hk' x (Or.inl (List.mem_of_find?_eq_some h2))
          · exact hk' x (Or.inl hx.1)
          · exact hk' x (Or.inr hx)
        · exact ⟨rfl, hlen, by simp, hk⟩
  | ttl now k => exact ⟨rfl, hlen, by simp [step, pins], by simpa [step, keysOf] using hk⟩
  | drop k =>
    simp only [step, pins, keysOf, List.append_nil]
    unfold Cache.drop
    split_ifs with h1 h2
    · exact ⟨rfl, hlen, by simp, hk⟩
    · have := length_without c.lru k
      refine ⟨rfl, by show (Cache.without c.lru k).length < c.cap; omega, by simp, ?_⟩
      intro x hx
      simp only [List.mem_append, mem_without] at hx
      rcases hx with hx | hx
      · exact hk' x (Or.inl hx.1)
      · exact hk' x (Or.inr hx)
    · exact ⟨rfl, hlen, by simp, hk⟩

theorem keysOf_append (a b : List HOp) : keysOf (a ++ b) = keysOf a ++ keysOf b := by
  induction a with
  | nil => rfl
  | cons x a ih => cases x <;> simp [keysOf, ih]

theorem pins_cons (a : HOp) (b : List HOp) : pins (a :: b) = pins [a] + pins b := by
  cases a <;> (simp [pins]; try omega)

theorem run_append (c : Cache) (a b : List HOp) :
    run c (a ++ b) = ((run c a).1 ++ (run (run c a).2 b).1, (run (run c a).2 b).2) := by
  induction a generalizing c with
  | nil => rfl
  | cons x a ih => simp [run, ih]

theorem legal_append (c : Cache) (a b : List HOp) :
    Legal c (a ++ b) ↔ Legal c a ∧ Legal (run c a).2 b := by
  induction a generalizing c with
  | nil => simp [Legal, run]
  | cons x a ih => simp [Legal, run, ih, and_assoc]

end Cachespec

namespace Hash
open Cachespec
variable {hf : List UInt8 → Nat}

theorem short_of_noFlood {m n : Nat} {h : Hash} {c : Cache} {es ps : List Elem}
    (R : Rel hf m h c es ps) {ks : List (List UInt8)} (hF : NoFlood hf m n ks)
    (hk : ∀ e ∈ c.lru ++ c.perm, e.key ∈ ks) (hn : c.lru.length + c.perm.length ≤ n) :
    h.Short := by
  intro i
  rw [R.inv.t.chain_length]
  have hkey : ∀ l : List Elem, (l.filter (fun e => h.bucket hf e.key == i)).length =
      ((l.map Elem.key).filter (fun k => hf k &&& m == i)).length := by
    intro l
    rw [List.filter_map, List.length_map]
    simp only [Hash.bucket, R.mask]
    rfl
  rw [hkey]
  apply hF _ R.inv.t.keys
  · intro k hk1
    obtain ⟨e, he, rfl⟩ := List.mem_map.1 hk1
    refine hk (ent e) ?_
    rw [R.lru, R.perm, ← List.map_append]
    exact List.mem_map_of_mem he
  · rw [R.lru, R.perm] at hn
    simpa using hn

/-- A whole history is simulated. -/
theorem run_sim {m n : Nat} {ks : List (List UInt8)} (hF : NoFlood hf m n ks) (ops : List HOp) :
    ∀ {h : Hash} {c : Cache} {es ps : List Elem}, Rel hf m h c es ps → 0 < c.cap →
    c.lru.length < c.cap → c.cap + c.perm.length + pins ops ≤ n →
    (∀ e ∈ c.lru ++ c.perm, e.key ∈ ks) → (∀ k ∈ keysOf ops, k ∈ ks) → Legal c ops →
    ∃ h' es' ps', h.run hf ops = .ok ((Cachespec.run c ops).1, h') ∧
      Rel hf m h' (Cachespec.run c ops).2 es' ps' ∧
      (Cachespec.run c ops).2.lru.length < c.cap ∧ (Cachespec.run c ops).2.cap = c.cap ∧
      h'.Short := by
  induction ops with
  | nil =>
    intro h c es ps R hc hlen hn hk _ _
    exact ⟨h, es, ps, rfl, R, hlen, rfl, short_of_noFlood R hF hk (by omega)⟩
  | cons op ops ih =>
    intro h c es ps R hc hlen hn hk hko hl
    have hs : h.Short := short_of_noFlood R hF hk (by omega)
    obtain ⟨h1, es1, ps1, hst, R1⟩ := step_sim R hs op hl.1
    have hb := step_book c op ks hc hlen hk
    rw [pins_cons] at hn
    have hsub : ∀ k ∈ keysOf [op], k ∈ ks := by
      intro k hk2
      apply hko
      have : keysOf (op :: ops) = keysOf [op] ++ keysOf ops := keysOf_append [op] ops
      rw [this]; simp [hk2]
    obtain ⟨h2, es2, ps2, hr, R2, hl2, hc2, hs2⟩ := ih R1 (by omega) (by omega)
      (by rw [hb.1]; omega)
      (by
        intro e he
        rcases List.mem_append.1 (hb.2.2.2 e he) with h | h
        · exact h
        · exact hsub _ h)
      (by
        intro k hk2
        apply hko
        have : keysOf (op :: ops) = keysOf [op] ++ keysOf ops := keysOf_append [op] ops
        rw [this]; simp [hk2])
      hl.2
    refine ⟨h2, es2, ps2, ?_, R2, by rw [← hb.1]; exact hl2, by rw [← hb.1]; exact hc2, hs2⟩
    simp [Hash.run, hst, hr, Cachespec.run]

/-- The empty cache. -/
theorem rel_init (cs n : Nat) : Rel hf (Hash.init cs n).mask (Hash.init cs n)
    ⟨(Hash.init cs n).max, [], []⟩ [] [] where
  inv := ⟨TInv.init cs n, rfl, by simp, by simp⟩
  lru := rfl
  perm := rfl
  cap := rfl
  mask := rfl

theorem max_pos (cs n : Nat) : 0 < (Hash.init cs n).max := by
  simp only [Hash.init, initElements]
  split_ifs <;> omega

end Hash
end Dw
