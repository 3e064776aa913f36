import Verif.Deadwood.HashLemmas
import Verif.Spec.Cache
/-! The hash with its recency queue refines the abstract cache (helper lemmas). -/

namespace Dw
namespace Hash

variable {hf : List UInt8 → Nat}

/-- Invariant of a cache: evictable elements `es` (recency order), permanent ones `ps`. -/
structure Inv (hf : List UInt8 → Nat) (h : Hash) (es ps : List Elem) : Prop where
  t : TInv hf h (es ++ ps)
  fila : h.fila = es.map Elem.id
  evict : ∀ e ∈ es, e.immutable = false ∧ 0 < e.expire
  perm : ∀ e ∈ ps, e.immutable = true ∧ e.expire = 0

/-- The association an element stands for. -/
def ent (e : Elem) : Spec.Entry := ⟨e.key, e.value, e.expire⟩

/-- Abstraction relation (for a table with mask `m`). -/
structure Rel (hf : List UInt8 → Nat) (m : Nat) (h : Hash) (c : Spec.Cache) (es ps : List Elem) :
    Prop where
  inv : Inv hf h es ps
  lru : c.lru = es.map ent
  perm : c.perm = ps.map ent
  cap : c.cap = h.max
  mask : h.mask = m

theorem find_ent (l : List Elem) (k : List UInt8) :
    Spec.Cache.find (l.map ent) k = (lfind l k).map ent := by
  simp only [Spec.Cache.find, lfind, List.find?_map]
  rfl

theorem without_ent (l : List Elem) (k : List UInt8) :
    Spec.Cache.without (l.map ent) k = (l.filter (fun e => e.key != k)).map ent := by
  simp only [Spec.Cache.without, List.filter_map]
  rfl

theorem noId_eq_without {l : List Elem} (hk : (l.map Elem.key).Nodup)
    (hi : (l.map Elem.id).Nodup) {e : Elem} (he : e ∈ l) :
    noId l e.id = l.filter (fun x => x.key != e.key) := by
  apply List.filter_congr
  intro x hx
  have : x.id = e.id ↔ x.key = e.key :=
    ⟨fun h => by rw [List.inj_on_of_nodup_map hi hx he h], fun h => by rw [key_inj hk hx he h]⟩
  rw [Bool.eq_iff_iff]
  simp [this]

theorem erase_ids {l : List Elem} (hi : (l.map Elem.id).Nodup) (e : Elem) :
    (l.map Elem.id).erase e.id = (noId l e.id).map Elem.id := by
  rw [hi.erase_eq_filter, List.filter_map]
  rfl

theorem noId_self {l : List Elem} {id : Nat} (h : ∀ e ∈ l, e.id ≠ id) : noId l id = l := by
  simpa [noId] using h

theorem noId_append (a b : List Elem) (id : Nat) : noId (a ++ b) id = noId a id ++ noId b id := by
  simp [noId]

theorem Inv.keysE {h : Hash} {es ps : List Elem} (I : Inv hf h es ps) :
    (es.map Elem.key).Nodup := by
  have := I.t.keys; rw [List.map_append] at this; exact (List.nodup_append.1 this).1

theorem Inv.keysP {h : Hash} {es ps : List Elem} (I : Inv hf h es ps) :
    (ps.map Elem.key).Nodup := by
  have := I.t.keys; rw [List.map_append] at this; exact (List.nodup_append.1 this).2.1

theorem Inv.idsE {h : Hash} {es ps : List Elem} (I : Inv hf h es ps) :
    (es.map Elem.id).Nodup := by
  have := I.t.ids; rw [List.map_append] at this; exact (List.nodup_append.1 this).1

theorem Inv.idsDisj {h : Hash} {es ps : List Elem} (I : Inv hf h es ps) {a b : Elem}
    (ha : a ∈ es) (hb : b ∈ ps) : b.id ≠ a.id := by
  have := I.t.ids; rw [List.map_append] at this
  exact fun h => (List.nodup_append.1 this).2.2 a.id (List.mem_map_of_mem ha) b.id
    (List.mem_map_of_mem hb) h.symm

theorem Inv.keysDisj {h : Hash} {es ps : List Elem} (I : Inv hf h es ps) {a b : Elem}
    (ha : a ∈ es) (hb : b ∈ ps) : b.key ≠ a.key := by
  have := I.t.keys; rw [List.map_append] at this
  exact fun h => (List.nodup_append.1 this).2.2 a.key (List.mem_map_of_mem ha) b.key
    (List.mem_map_of_mem hb) h.symm

/-- The three outcomes of a search. -/
theorem Inv.find_cases {h : Hash} {es ps : List Elem} (I : Inv hf h es ps) (k : List UInt8) :
    (∃ e ∈ es, e.key = k ∧ lfind (es ++ ps) k = some e ∧ lfind es k = some e ∧ lfind ps k = none) ∨
    (∃ e ∈ ps, e.key = k ∧ lfind (es ++ ps) k = some e ∧ lfind ps k = some e ∧ lfind es k = none) ∨
    (lfind (es ++ ps) k = none ∧ lfind es k = none ∧ lfind ps k = none) := by
  by_cases hE : ∃ e ∈ es, e.key = k
  · obtain ⟨e, he, rfl⟩ := hE
    refine Or.inl ⟨e, he, rfl, (lfind_eq_some I.t.keys).2 ⟨by simp [he], rfl⟩,
      (lfind_eq_some I.keysE).2 ⟨he, rfl⟩, lfind_eq_none.2 fun x hx => I.keysDisj he hx⟩
  · by_cases hP : ∃ e ∈ ps, e.key = k
    · obtain ⟨e, he, rfl⟩ := hP
      refine Or.inr (Or.inl ⟨e, he, rfl, (lfind_eq_some I.t.keys).2 ⟨by simp [he], rfl⟩,
        (lfind_eq_some I.keysP).2 ⟨he, rfl⟩, lfind_eq_none.2 fun x hx => (I.keysDisj hx he).symm⟩)
    · push Not at hE hP
      refine Or.inr (Or.inr ⟨lfind_eq_none.2 ?_, lfind_eq_none.2 hE, lfind_eq_none.2 hP⟩)
      intro e he
      rcases List.mem_append.1 he with h | h
      · exact hE e h
      · exact hP e h

/-- Removing an evictable element with its queue node. -/
theorem Inv.remove {h : Hash} {es ps : List Elem} (I : Inv hf h es ps) {e : Elem} (he : e ∈ es) :
    Inv hf { h.unlink e with fila := h.fila.erase e.id } (noId es e.id) ps where
  t := by
    have h1 := (I.t.unlink (e := e) (by simp [he])).withFila (h.fila.erase e.id)
    rw [noId_append, noId_self (l := ps) (fun x hx => I.idsDisj he hx)] at h1
    exact h1
  fila := by
    show h.fila.erase e.id = _
    rw [I.fila, erase_ids I.idsE]
  evict x hx := I.evict x (mem_noId.1 hx).1
  perm := I.perm

theorem Inv.zap_evictable {h : Hash} {es ps : List Elem} (I : Inv hf h es ps) {e : Elem}
    (he : e ∈ es) (hg : h.grep hf e.key = some e) :
    h.zap hf e.key 1 = (1, { h.unlink e with fila := h.fila.erase e.id }) := by
  simp [Hash.zap, hg, (I.evict e he).1, Hash.unlink]

/-- Evicting drops the last element of the recency order. -/
theorem Inv.evict_last {h : Hash} {es ps : List Elem} {x : Elem}
    (I : Inv hf h (es ++ [x]) ps) :
    h.evict = .ok ({ h with fila := h.fila.dropLast }.unlink x) ∧
    Inv hf ({ h with fila := h.fila.dropLast }.unlink x) es ps := by
  have hx : x ∈ (es ++ [x]) ++ ps := by simp
  have hl : h.fila.getLast? = some x.id := by rw [I.fila]; simp
  have hid := I.t.findId hx
  have him : x.immutable = false := (I.evict x (by simp)).1
  constructor
  · simp [Hash.evict, hl, hid, him]
  · have hn : noId ((es ++ [x]) ++ ps) x.id = es ++ ps := by
      have hi := I.t.ids
      rw [noId_append, noId_append]
      have h1 : noId [x] x.id = [] := by simp [noId]
      have h2 : noId es x.id = es := by
        apply noId_self
        intro e he heq
        have := I.idsE
        rw [List.map_append, List.nodup_append] at this
        exact this.2.2 e.id (List.mem_map_of_mem he) x.id (by simp) heq
      have h3 : noId ps x.id = ps := noId_self fun e he => I.idsDisj (by simp) he
      rw [h1, h2, h3, List.append_nil]
    refine ⟨?_, ?_, fun e he => I.evict e (by simp [he]), I.perm⟩
    · have := (I.t.withFila h.fila.dropLast).unlink hx
      rw [hn] at this
      exact this
    · show h.fila.dropLast = _
      rw [I.fila]; simp

/-- Moving a used element to the front. -/
theorem Inv.fetch {h : Hash} {es ps : List Elem} (I : Inv hf h es ps) {e : Elem} (he : e ∈ es) :
    Inv hf (h.filaFetch e.id) (e :: noId es e.id) ps := by
  have hin : e.id ∈ h.fila := by rw [I.fila]; exact List.mem_map_of_mem he
  have hp : es.Perm (e :: noId es e.id) := noId_perm I.idsE he
  have hf' : h.filaFetch e.id = { h with fila := e.id :: h.fila.erase e.id } := by
    simp [filaFetch, hin]
  rw [hf']
  refine ⟨?_, ?_, ?_, I.perm⟩
  · exact (I.t.perm (hp.append_right ps)).withFila _
  · show e.id :: h.fila.erase e.id = _
    rw [I.fila, erase_ids I.idsE, List.map_cons]
  · intro x hx
    exact I.evict x (hp.mem_iff.2 hx)

/-- Adding a new evictable element (key absent): before trimming. -/
theorem Inv.pushE {h : Hash} {es ps : List Elem} (I : Inv hf h es ps) {e : Elem}
    (hk : ∀ x ∈ es ++ ps, x.key ≠ e.key) (hi : ∀ x ∈ es ++ ps, x.id ≠ e.id) (hid : e.id < h.next)
    (him : e.immutable = false) (hex : 0 < e.expire) :
    Inv hf { h.push hf e with fila := e.id :: h.fila, size := h.size + 1 } (e :: es) ps where
  t := (I.t.pushed hk hi hid).withFila _
  fila := by show e.id :: h.fila = _; rw [I.fila]; rfl
  evict x hx := by
    rcases List.mem_cons.1 hx with rfl | hx
    · exact ⟨him, hex⟩
    · exact I.evict x hx
  perm := I.perm

theorem Inv.pushP {h : Hash} {es ps : List Elem} (I : Inv hf h es ps) {e : Elem}
    (hk : ∀ x ∈ es ++ ps, x.key ≠ e.key) (hi : ∀ x ∈ es ++ ps, x.id ≠ e.id) (hid : e.id < h.next)
    (him : e.immutable = true) (hex : e.expire = 0) :
    Inv hf { h.push hf e with size := h.size + 1 } es (e :: ps) where
  t := (I.t.pushed hk hi hid).perm List.perm_middle.symm
  fila := I.fila
  evict := I.evict
  perm x hx := by
    rcases List.mem_cons.1 hx with rfl | hx
    · exact ⟨him, hex⟩
    · exact I.perm x hx

theorem Inv.bump {h : Hash} {es ps : List Elem} (I : Inv hf h es ps) :
    Inv hf { h with next := h.next + 1 } es ps :=
  ⟨I.t.bump, I.fila, I.evict, I.perm⟩

/-- Placing a new evictable element once its key is absent. -/
theorem place_fresh {m : Nat} {h : Hash} {c : Spec.Cache} {es ps : List Elem}
    (I : Inv hf h es ps) (hp : c.perm = ps.map ent) (hcap : c.cap = h.max) (hm : h.mask = m)
    {e : Elem} (hk : ∀ x ∈ es ++ ps, x.key ≠ e.key) (hi : ∀ x ∈ es ++ ps, x.id ≠ e.id)
    (hid : e.id < h.next) (him : e.immutable = false) (hex : 0 < e.expire) :
    ∃ h' es', (let h2 := { h.push hf e with fila := e.id :: h.fila, size := h.size + 1 }
        if h2.max ≤ h2.size then h2.evict else .ok h2) = .ok h' ∧
      Rel hf m h' (Spec.Cache.trim { c with lru := (e :: es).map ent }) es' ps := by
  have J := I.pushE hk hi hid him hex
  have hsz : h.size + 1 = (e :: es).length + ps.length := by
    have := I.t.size; simp at this ⊢; omega
  by_cases hfull : h.max ≤ h.size + 1
  · obtain ⟨es0, x, hx⟩ : ∃ es0 x, e :: es = es0 ++ [x] :=
      ⟨(e :: es).dropLast, (e :: es).getLast (by simp), (List.dropLast_append_getLast (by simp)).symm⟩
    have J' := J
    rw [hx] at J'
    obtain ⟨h1, h2⟩ := J'.evict_last
    refine ⟨_, es0, ?_, h2, ?_, ?_, ?_, ?_⟩
    · show (if h.max ≤ h.size + 1 then _ else _) = _
      rw [if_pos hfull]; exact h1
    · simp only [Spec.Cache.trim, List.length_map, hp, hcap]
      rw [if_pos (by omega)]
      show ((e :: es).map ent).dropLast = _
      rw [hx]; simp
    · simp only [Spec.Cache.trim]; split_ifs <;> exact hp
    · simp only [Spec.Cache.trim]; split_ifs <;> exact hcap
    · exact hm
  · refine ⟨_, e :: es, ?_, J, ?_, ?_, ?_, ?_⟩
    · show (if h.max ≤ h.size + 1 then _ else _) = _
      rw [if_neg hfull]
    · simp only [Spec.Cache.trim, List.length_map, hp, hcap]
      rw [if_neg (by omega)]
    · simp only [Spec.Cache.trim]; split_ifs <;> exact hp
    · simp only [Spec.Cache.trim]; split_ifs <;> exact hcap
    · exact hm

/-- Every chain is short enough for a search to see all of it. -/
def Short (h : Hash) : Prop := ∀ i, (h.tbl i).length ≤ 32000

theorem newExpire_eq {m : Nat} {h : Hash} {c : Spec.Cache} {es ps : List Elem}
    (R : Rel hf m h c es ps) (hs : h.Short) {now : Int} {k : List UInt8} {ttl : Int}
    (ht : 0 < ttl ∨ ttl = -2) (hnp : lfind ps k = none) :
    h.newExpire hf now k ttl = c.expiry now k ttl := by
  have hg := R.inv.t.grep_eq k (hs _)
  have hfe : lfind (es ++ ps) k = lfind es k := by
    rcases R.inv.find_cases k with ⟨e, -, -, h1, h2, -⟩ | ⟨e, -, -, -, h2, -⟩ | ⟨h1, h2, -⟩
    · rw [h1, h2]
    · rw [hnp] at h2; cases h2
    · rw [h1, h2]
  unfold newExpire Spec.Cache.expiry
  by_cases h2 : ttl = -2
  · subst h2
    simp only [R.lru, find_ent, hg, hfe]
    simp
    cases lfind es k <;> simp [ent]
  · have ht : 0 < ttl := by omega
    simp only [if_neg h2]
    have hclamp : (if ttl < 30 ∧ ttl ≠ -2 then 30 else if 63072000 < ttl then 63072000 else ttl)
        = Spec.Cache.clampTtl ttl := by
      unfold Spec.Cache.clampTtl
      split_ifs <;> omega
    rw [hclamp, if_pos]
    unfold Spec.Cache.clampTtl; omega

theorem expiry_pos {h : Hash} {c : Spec.Cache} {es ps : List Elem}
    {m : Nat} (R : Rel hf m h c es ps) {now : Int} (hnow : 0 ≤ now) (k : List UInt8) (ttl : Int) :
    0 < c.expiry now k ttl := by
  unfold Spec.Cache.expiry
  split_ifs
  · rw [R.lru, find_ent]
    cases hl : lfind es k with
    | none => simp; omega
    | some e =>
      simp [ent]
      exact (R.inv.evict e ((lfind_eq_some R.inv.keysE).1 hl).1).2
  · unfold Spec.Cache.clampTtl; omega

/-- Insertion refines the abstract insertion. -/
theorem add_put {m : Nat} {h : Hash} {c : Spec.Cache} {es ps : List Elem}
    (R : Rel hf m h c es ps) (hs : h.Short) {now : Int} (hnow : 0 ≤ now) (k v : List UInt8)
    (ttl : Int) :
    (h.add hf now k v ttl 1 = .err ∧ c.put now k v ttl = none) ∨
    ∃ h' c' es', h.add hf now k v ttl 1 = .ok h' ∧ c.put now k v ttl = some c' ∧
      Rel hf m h' c' es' ps := by
  by_cases ht : 0 < ttl ∨ ttl = -2
  swap
  · right
    refine ⟨h, c, es, by simp [add, ht], ?_, R⟩
    rw [Spec.Cache.put, if_pos (by omega)]
  have I0 := R.inv.bump
  have hg0 : ({ h with next := h.next + 1 } : Hash).grep hf k = lfind (es ++ ps) k :=
    I0.t.grep_eq k (hs _)
  have hput : ∀ c1, Spec.Cache.put c now k v ttl = c1 ↔
      (if (Spec.Cache.find c.perm k).isSome then none
      else some (Spec.Cache.trim { c with
        lru := ⟨k, v, c.expiry now k ttl⟩ :: Spec.Cache.without c.lru k })) = c1 := by
    intro c1; rw [Spec.Cache.put, if_neg (by omega)]
  rcases R.inv.find_cases k with ⟨x, hx, rfl, h1, h2, h3⟩ | ⟨x, hx, rfl, h1, h2, h3⟩ | ⟨h1, h2, h3⟩
  · -- replaces an evictable entry
    right
    have hz := I0.zap_evictable hx (by rw [hg0, h1])
    have I1 := I0.remove hx
    obtain ⟨h', es', ha, hR⟩ := place_fresh (c := c) (m := m)
      (e := { id := h.next, key := x.key, value := v, expire := c.expiry now x.key ttl,
              immutable := false })
      I1 R.perm R.cap R.mask
      (by
        intro y hy hyk
        rw [noId_eq_without R.inv.keysE R.inv.idsE hx] at hy
        rcases List.mem_append.1 hy with hy | hy
        · have := (List.mem_filter.1 hy).2; simp at this; exact this hyk
        · exact R.inv.keysDisj hx hy hyk)
      (by
        intro y hy hid
        have : y ∈ es ++ ps := by
          rcases List.mem_append.1 hy with hy | hy
          · simp [(mem_noId.1 hy).1]
          · simp [hy]
        have := R.inv.t.fresh y this
        simp at hid; omega)
      (by show h.next < h.next + 1; omega) rfl (expiry_pos R hnow _ _)
    refine ⟨h', _, es', ?_, (hput _).2 ?_, hR⟩
    · simp only [add, if_pos ht, placeNew]
      simp only [hz]
      simp only [newExpire_eq R hs ht h3]
      exact ha
    · rw [R.perm, find_ent, h3]
      simp only [R.lru, without_ent, noId_eq_without R.inv.keysE R.inv.idsE hx]
      rfl
  · left
    have him : x.immutable = true := (R.inv.perm x hx).1
    constructor
    · simp only [add, if_pos ht, placeNew, Hash.zap]
      rw [hg0, h1]; simp [him]
    · rw [hput, R.perm, find_ent, h2]; simp
  · right
    have hz : ({ h with next := h.next + 1 } : Hash).zap hf k 1 =
        (0, { h with next := h.next + 1 }) := by simp [Hash.zap, hg0, h1]
    obtain ⟨h', es', ha, hR⟩ := place_fresh (c := c) (m := m)
      (e := { id := h.next, key := k, value := v, expire := c.expiry now k ttl,
              immutable := false })
      I0 R.perm R.cap R.mask (by simpa using lfind_eq_none.1 h1)
      (by intro y hy hid; have := R.inv.t.fresh y hy; simp at hid; omega)
      (by show h.next < h.next + 1; omega) rfl (expiry_pos R hnow _ _)
    refine ⟨h', _, es', ?_, (hput _).2 ?_, hR⟩
    · simp only [add, if_pos ht, placeNew]
      simp only [hz]
      simp only [newExpire_eq R hs ht h3]
      exact ha
    · rw [R.perm, find_ent, h3]
      have : es.filter (fun e => e.key != k) = es := by
        rw [List.filter_eq_self]; intro a ha; simpa using lfind_eq_none.1 h2 a ha
      simp only [R.lru, without_ent, this]
      rfl

/-- Adding a permanent entry for a key that is not an evictable one. -/
theorem add_pin {m : Nat} {h : Hash} {c : Spec.Cache} {es ps : List Elem}
    (R : Rel hf m h c es ps) (hs : h.Short) (now : Int) (k v : List UInt8)
    (hno : Spec.Cache.find c.lru k = none) :
    (h.add hf now k v 1 2 = .err ∧ c.pin k v = none) ∨
    ∃ h' c' ps', h.add hf now k v 1 2 = .ok h' ∧ c.pin k v = some c' ∧ Rel hf m h' c' es ps' := by
  have I0 := R.inv.bump
  have hg0 : ({ h with next := h.next + 1 } : Hash).grep hf k = lfind (es ++ ps) k :=
    I0.t.grep_eq k (hs _)
  rcases R.inv.find_cases k with ⟨x, hx, rfl, h1, h2, h3⟩ | ⟨x, hx, rfl, h1, h2, h3⟩ | ⟨h1, h2, h3⟩
  · rw [R.lru, find_ent, h2] at hno; cases hno
  · left
    have him : x.immutable = true := (R.inv.perm x hx).1
    constructor
    · simp only [add, placeNew, Hash.zap]
      rw [hg0, h1]; simp [him]
    · rw [Spec.Cache.pin, R.perm, find_ent, h2]; simp
  · right
    have hz : ({ h with next := h.next + 1 } : Hash).zap hf k 2 =
        (0, { h with next := h.next + 1 }) := by simp [Hash.zap, hg0, h1]
    have J := I0.pushP (e := { id := h.next, key := k, value := v, expire := 0, immutable := true })
      (by simpa using lfind_eq_none.1 h1)
      (by intro y hy hid; have := R.inv.t.fresh y hy; simp at hid; omega)
      (by show h.next < h.next + 1; omega) rfl rfl
    refine ⟨_, { c with perm := ⟨k, v, 0⟩ :: c.perm }, _, ?_, ?_, ⟨J, ?_, ?_, ?_, ?_⟩⟩
    · simp only [add, placeNew]
      rw [if_pos (by omega)]
      simp only [hz, if_true, decide_true]
      rfl
    · rw [Spec.Cache.pin, R.perm, find_ent, h3]; rfl
    · exact R.lru
    · show _ :: c.perm = _
      rw [R.perm]; rfl
    · exact R.cap
    · exact R.mask

theorem fresh_iff (now : Int) (e : Spec.Entry) : Spec.Cache.fresh now e = true ↔
    now ≤ e.expire ∧ e.expire ≤ now + 24219648000 := by
  unfold Spec.Cache.fresh
  rw [Bool.and_eq_true, decide_eq_true_iff, decide_eq_true_iff]
  omega

/-- Lookup refines the abstract lookup. -/
theorem get_look {m : Nat} {h : Hash} {c : Spec.Cache} {es ps : List Elem}
    (R : Rel hf m h c es ps) (hs : h.Short) (now : Int) (k : List UInt8) (ig : Bool) :
    (h.get hf now k ig 1).1 = (c.look now k ig).1 ∧
    ∃ es', Rel hf m (h.get hf now k ig 1).2 (c.look now k ig).2 es' ps := by
  have hg := R.inv.t.grep_eq k (hs _)
  rcases R.inv.find_cases k with ⟨x, hx, rfl, h1, h2, h3⟩ | ⟨x, hx, rfl, h1, h2, h3⟩ | ⟨h1, h2, h3⟩
  · rw [h1] at hg
    have hev := R.inv.evict x hx
    by_cases hf' : ig || Spec.Cache.fresh now (ent x)
    · have hcond : ¬ (True ∧ ig = false ∧ (x.expire < now ∨ now + 24219648000 < x.expire)
          ∧ x.expire ≠ 0) := by
        intro hh
        rw [hh.2.1, Bool.false_or, fresh_iff] at hf'
        have := hh.2.2.1
        simp only [ent] at hf'
        omega
      have hget : h.get hf now x.key ig 1 = (some x.value, h.filaFetch x.id) := by
        simp only [get, hg]
        rw [if_neg hcond, if_pos ⟨trivial, hev.1⟩]
      have hlook : c.look now x.key ig = (some x.value,
          { c with lru := ent x :: Spec.Cache.without c.lru x.key }) := by
        simp only [Spec.Cache.look, R.perm, find_ent, h3, R.lru, h2, Option.map_none,
          Option.map_some]
        rw [if_pos hf']; rfl
      rw [hget, hlook]
      refine ⟨rfl, x :: noId es x.id, R.inv.fetch hx, ?_, R.perm, ?_, ?_⟩
      · show ent x :: Spec.Cache.without c.lru x.key = _
        rw [R.lru, without_ent, noId_eq_without R.inv.keysE R.inv.idsE hx, List.map_cons]
      · show c.cap = (h.filaFetch x.id).max
        rw [R.cap]; unfold filaFetch; split_ifs <;> rfl
      · rw [← R.mask]; unfold filaFetch; split_ifs <;> rfl
    · have hcond : True ∧ ig = false ∧ (x.expire < now ∨ now + 24219648000 < x.expire)
          ∧ x.expire ≠ 0 := by
        rw [Bool.or_eq_true, fresh_iff] at hf'
        simp only [ent] at hf'
        refine ⟨trivial, ?_, by omega, by omega⟩
        cases ig
        · rfl
        · exact absurd (Or.inl rfl) hf'
      have hget : h.get hf now x.key ig 1 = (none, h) := by
        simp only [get, hg]
        rw [if_pos hcond]
      have hlook : c.look now x.key ig = (none, c) := by
        simp only [Spec.Cache.look, R.perm, find_ent, h3, R.lru, h2, Option.map_none,
          Option.map_some]
        rw [if_neg hf']
      rw [hget, hlook]
      exact ⟨rfl, es, R⟩
  · rw [h1] at hg
    have hpm := R.inv.perm x hx
    have hget : h.get hf now x.key ig 1 = (some x.value, h) := by
      simp [get, hg, hpm]
    have hlook : c.look now x.key ig = (some x.value, c) := by
      simp [Spec.Cache.look, R.perm, find_ent, h2, ent]
    rw [hget, hlook]
    exact ⟨rfl, es, R⟩
  · rw [h1] at hg
    have hget : h.get hf now k ig 1 = (none, h) := by simp [get, hg]
    have hlook : c.look now k ig = (none, c) := by
      simp [Spec.Cache.look, R.perm, R.lru, find_ent, h2, h3]
    rw [hget, hlook]
    exact ⟨rfl, es, R⟩

/-- The remaining time to live. -/
theorem getTtl_eq {m : Nat} {h : Hash} {c : Spec.Cache} {es ps : List Elem}
    (R : Rel hf m h c es ps) (hs : h.Short) (now : Int) (k : List UInt8) :
    h.getTtl hf now k = c.ttlLeft now k := by
  have hg := R.inv.t.grep_eq k (hs _)
  simp only [getTtl, Spec.Cache.ttlLeft, R.lru, R.perm, ← List.map_append, find_ent, hg]
  cases lfind (es ++ ps) k with
  | none => rfl
  | some e =>
    simp only [Option.map_some, ent]
    by_cases h1 : (e.expire - now) / 256 < 0 ∨ 31536000 < (e.expire - now) / 256
    · rw [if_pos h1, if_pos (by omega)]
    · rw [if_neg h1, if_neg (by omega)]

/-- Removal. -/
theorem zap_drop {m : Nat} {h : Hash} {c : Spec.Cache} {es ps : List Elem}
    (R : Rel hf m h c es ps) (hs : h.Short) (k : List UInt8) :
    (h.zap hf k 1).1 = (c.drop k).1 ∧ ∃ es', Rel hf m (h.zap hf k 1).2 (c.drop k).2 es' ps := by
  have hg := R.inv.t.grep_eq k (hs _)
  rcases R.inv.find_cases k with ⟨x, hx, rfl, h1, h2, h3⟩ | ⟨x, hx, rfl, h1, h2, h3⟩ | ⟨h1, h2, h3⟩
  · rw [h1] at hg
    have hz := R.inv.zap_evictable hx hg
    have hd : c.drop x.key = (1, { c with lru := Spec.Cache.without c.lru x.key }) := by
      simp [Spec.Cache.drop, R.perm, R.lru, find_ent, h2, h3]
    rw [hz, hd]
    refine ⟨rfl, _, R.inv.remove hx, ?_, R.perm, R.cap, R.mask⟩
    show Spec.Cache.without c.lru x.key = _
    rw [R.lru, without_ent, noId_eq_without R.inv.keysE R.inv.idsE hx]
  · rw [h1] at hg
    have hpm := R.inv.perm x hx
    have hz : h.zap hf x.key 1 = (-1, h) := by simp [Hash.zap, hg, hpm]
    have hd : c.drop x.key = (-1, c) := by simp [Spec.Cache.drop, R.perm, find_ent, h2]
    rw [hz, hd]; exact ⟨rfl, es, R⟩
  · rw [h1] at hg
    have hz : h.zap hf k 1 = (0, h) := by simp [Hash.zap, hg]
    have hd : c.drop k = (0, c) := by simp [Spec.Cache.drop, R.perm, R.lru, find_ent, h2, h3]
    rw [hz, hd]; exact ⟨rfl, es, R⟩

end Hash
end Dw
