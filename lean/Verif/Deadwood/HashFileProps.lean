import Verif.Deadwood.HashFileLemmas
import Mathlib.Tactic.SplitIfs
/-! # Saving and loading the cache (C19, C20) -/

namespace Dw
open Spec (Cache Entry)

/-- A saved association: key, value, expiry. -/
abbrev Rec := List UInt8 × List UInt8 × Int

/-- The association of an element. -/
def Elem.rec' (e : Elem) : Rec := (e.key, e.value, e.expire)

/-- The evictable associations of a cache, most recently used first; `none` if
the recency queue mentions a freed element. -/
def Hash.listing (h : Hash) : Option (List Rec) := h.fila.mapM (fun id => (h.findId id).map Elem.rec')

/-- The records completely contained in the first `m` bytes of the record area. -/
def complete : List Rec → Nat → List Rec
  | [], _ => []
  | r :: rs, m => if (encRec r).length ≤ m then r :: complete rs (m - (encRec r).length) else []

namespace Hash
variable {hf : List UInt8 → Nat}

/-- Loading invariant: the table holds exactly the queue's elements. -/
structure LInv (hf : List UInt8 → Nat) (h : Hash) (es : List Elem) : Prop where
  t : TInv hf h es
  fila : h.fila = es.map Elem.id

theorem LInv.listing {h : Hash} {es : List Elem} (L : LInv hf h es) :
    h.listing = some (es.map Elem.rec') := by
  have : ∀ l : List Elem, (∀ e ∈ l, e ∈ es) →
      (l.map Elem.id).mapM (fun id => (h.findId id).map Elem.rec') = some (l.map Elem.rec') := by
    intro l
    induction l with
    | nil => intro _; rfl
    | cons a l ih =>
      intro hl
      simp [L.t.findId (hl a (by simp)), ih (fun e he => hl e (by simp [he]))]
  rw [Hash.listing, L.fila]
  exact this es (fun _ h => h)

theorem grep_none {h : Hash} {l : List Elem} (I : TInv hf h l) {k : List UInt8}
    (hk : ∀ x ∈ l, x.key ≠ k) : h.grep hf k = none := by
  rw [grep, List.find?_eq_none]
  intro x hx
  have := hk x ((I.mem _ x).1 (List.mem_of_mem_take hx)).1
  simpa using this

theorem LInv.place {h : Hash} {es : List Elem} (L : LInv hf h es) {k v : List UInt8} {x : Int}
    {b : Bool} (hk : ∀ y ∈ es, y.key ≠ k) (hsz : es.length + 1 < h.max) :
    ∃ h', placeNew hf { h with next := h.next + 1 } ⟨h.next, k, v, x, b⟩ 1 = .ok h' ∧
      LInv hf h' (⟨h.next, k, v, x, b⟩ :: es) ∧ h'.max = h.max ∧ h'.mask = h.mask := by
  have hg := grep_none L.t.bump hk
  have hz : ({ h with next := h.next + 1 } : Hash).zap hf k 1 = (0, { h with next := h.next + 1 }) := by
    simp [Hash.zap, hg]
  have hT := L.t.bump.pushed (e := ⟨h.next, k, v, x, b⟩) hk
    (by intro y hy hid; have := L.t.fresh y hy; simp at hid; omega)
    (by show h.next < h.next + 1; omega)
  refine ⟨_, ?_, ⟨hT.withFila (h.next :: h.fila), ?_⟩, rfl, rfl⟩
  · simp only [placeNew, hz]
    rw [if_neg (by omega), if_pos True.intro, if_neg]
    · rfl
    · show ¬ h.max ≤ h.size + 1
      rw [L.t.size]; omega
  · show h.next :: h.fila = _
    rw [L.fila]; rfl

/-- Reading the first `m` bytes of a record area loads exactly the complete
records. -/
theorem LInv.load {junk : Nat → Bool} : ∀ (rs : List Rec) (fuel m : Nat) {h : Hash} {es : List Elem},
    LInv hf h es → rs.length < fuel → es.length + rs.length < h.max →
    ((es.map Elem.key).reverse ++ rs.map (·.1)).Nodup →
    (∀ r ∈ rs, GoodRec r.1 r.2.1 r.2.2) →
    ∃ h' es', readLoop hf junk fuel ⟨(rs.flatMap encRec).take m, false⟩ h = .ok h' ∧
      LInv hf h' es' ∧ es'.map Elem.rec' = (complete rs m).reverse ++ es.map Elem.rec' ∧
      h'.max = h.max ∧ h'.mask = h.mask ∧
      ∀ e ∈ es', e ∈ es ∨ e.immutable = junk e.id
  | [], fuel + 1, m, h, es, L, _, _, _, _ => by
    refine ⟨h, es, ?_, L, by simp [complete], rfl, rfl, fun e he => Or.inl he⟩
    have : (Stream.getElement ⟨[], false⟩).1 = none := by decide
    simp [readLoop, this]
  | r :: rs, fuel + 1, m, h, es, L, hfu, hmax, hnd, hg => by
    obtain ⟨k, v, x⟩ := r
    have g : GoodRec k v x := hg (k, v, x) (by simp)
    rw [List.flatMap_cons]
    by_cases hm : (encRec (k, v, x)).length ≤ m
    · have htake : (encRec (k, v, x) ++ rs.flatMap encRec).take m =
          encRec (k, v, x) ++ (rs.flatMap encRec).take (m - (encRec (k, v, x)).length) := by
        rw [List.take_append, List.take_of_length_le hm]
      rw [htake]
      have hk : ∀ y ∈ es, y.key ≠ k := by
        intro y hy hyk
        rw [List.map_cons, List.nodup_append] at hnd
        exact hnd.2.2 y.key (by simp; exact ⟨y, hy, rfl⟩) k (by simp) hyk
      obtain ⟨h1, hp, L1, hm1, hm2⟩ := L.place (v := v) (x := x) (b := junk h.next) hk
        (by simp at hmax; omega)
      obtain ⟨h2, es2, hr, L2, hes, hm3, hm4, hj⟩ := LInv.load (junk := junk) rs fuel
        (m - (encRec (k, v, x)).length) L1 (by simpa using hfu)
        (by rw [hm1]; simp at hmax ⊢; omega)
        (by
          rw [List.map_cons, List.reverse_cons, List.append_assoc]
          exact hnd)
        (fun r hr => hg r (by simp [hr]))
      refine ⟨h2, es2, ?_, L2, ?_, hm3.trans hm1, hm4.trans hm2, ?_⟩
      · rw [readLoop, if_neg (by simp)]
        simp only [Stream.getElement_ok g, hp]
        exact hr
      · rw [hes, complete, if_pos hm]; simp [Elem.rec']
      · intro e he
        rcases hj e he with h | h
        · rcases List.mem_cons.1 h with rfl | h
          · exact Or.inr rfl
          · exact Or.inl h
        · exact Or.inr h
    · refine ⟨h, es, ?_, L, by simp [complete, hm], rfl, rfl, fun e he => Or.inl he⟩
      rw [readLoop, if_neg (by simp)]
      simp only [Stream.getElement_short g _ (Nat.lt_of_not_le hm)]

/-- Bytes before the first record of a cache file. -/
def fileHead : List UInt8 := [0, 0x44, 0x57, 0x33, 0, 0, 0, 0]

theorem read_head (rest : List UInt8) :
    Stream.getInt 4 ⟨fileHead ++ rest, false⟩ = (0x00445733, ⟨[0, 0, 0, 0] ++ rest, false⟩) ∧
    (Stream.getInt 4 ⟨[0, 0, 0, 0] ++ rest, false⟩).2 = ⟨rest, false⟩ := by
  have h1 := Stream.getInt_be (n := 4) (x := 0x00445733) (by omega) (by decide) ([0, 0, 0, 0] ++ rest)
  have h2 := Stream.getInt_be (n := 4) (x := 0) (by omega) (by decide) rest
  have e1 : beBytes 4 0x00445733 = [0, 0x44, 0x57, 0x33] := by decide
  have e2 : beBytes 4 0 = [0, 0, 0, 0] := by decide
  rw [e1] at h1; rw [e2] at h2
  exact ⟨h1, by rw [h2]⟩

theorem init_max {cs : Nat} (h1 : 32 < cs) (h2 : cs < 16777218) :
    (Hash.init cs (readMax cs)).max = cs := by
  simp only [Hash.init, initElements, readMax]
  split_ifs <;> omega

theorem LInv.init (cs n : Nat) : LInv hf (Hash.init cs n) [] := ⟨TInv.init cs n, rfl⟩

/-- The writing loop writes the records of the queue. -/
theorem writeLoop_eq {h : Hash} (l : List Elem)
    (hl : ∀ e ∈ l, h.findId e.id = some e) (hg : ∀ e ∈ l, GoodRec e.key e.value e.expire) :
    h.writeLoop (l.map Elem.id) = .ok (l.flatMap (fun e => encRec e.rec')) := by
  induction l with
  | nil => rfl
  | cons a l ih =>
    have g := hg a (by simp)
    have hk := List.length_pos_iff.2 g.k0
    have hv := List.length_pos_iff.2 g.v0
    have hx := g.x2
    rw [List.map_cons, writeLoop, hl a (by simp), ih (fun e he => hl e (by simp [he]))
      (fun e he => hg e (by simp [he])), List.flatMap_cons]
    simp only [Res.ok_bind]
    rw [putElement, if_neg (by omega)]
    rfl

end Hash

/-- What a cache must satisfy to be saved faithfully: a well-formed cache
(`Inv`: what every history of cache calls maintains, see `Hash.Good.sim`) whose
expirable records have nonempty keys and values of at most 2^24 bytes, expire at
tick 2 or later, and fit the configured size. -/
structure Savable (hf : List UInt8 → Nat) (h : Hash) (es ps : List Elem) (cs : Nat) : Prop where
  inv : Hash.Inv hf h es ps
  recs : ∀ e ∈ es, GoodRec e.key e.value e.expire
  fits : es.length < cs
  lo : 32 < cs
  hi : cs < 16777218

theorem Savable.write {hf : List UInt8 → Nat} {h : Hash} {es ps : List Elem} {cs : Nat}
    (S : Savable hf h es ps cs) :
    h.writeHash = .ok (Hash.fileHead ++ es.reverse.flatMap (fun e => encRec e.rec')) := by
  have hlen : (h.fila.reverse).take 16777217 = es.reverse.map Elem.id := by
    rw [S.inv.fila, List.take_of_length_le, List.map_reverse]
    have := S.fits; have := S.hi
    simp; omega
  rw [Hash.writeHash, hlen, Hash.writeLoop_eq]
  · rfl
  · intro e he
    exact S.inv.t.findId (by simp at he; simp [he])
  · intro e he
    exact S.recs e (by simpa using he)

/-- C20 (first part), C19: the first `n ≥ 8` bytes of a saved cache load into a
cache with the configured capacity that holds exactly the expirable
associations completely written before the cut, in the same recency order.
`junk` is arbitrary: the uninitialised field does not matter here. -/
theorem load_truncated (hf hf' : List UInt8 → Nat) (junk : Nat → Bool) {h : Hash}
    {es ps : List Elem} {cs : Nat} (S : Savable hf h es ps cs) (n : Nat) (hn : 8 ≤ n) :
    ∃ file h', h.writeHash = .ok file ∧
      Hash.readHash hf' junk cs (file.take n) = .ok h' ∧
      h'.listing = some (complete (es.reverse.map Elem.rec') (n - 8)).reverse ∧
      h'.max = cs ∧
      ∃ es', Hash.LInv hf' h' es' ∧ ∀ e ∈ es', e.immutable = junk e.id := by
  have hmax := Hash.init_max S.lo S.hi
  have e1 : es.reverse.flatMap (fun e => encRec e.rec') = (es.reverse.map Elem.rec').flatMap encRec := by
    rw [List.flatMap_map]
  obtain ⟨h', es', hr, L', hes, hm, -, hj⟩ := Hash.LInv.load (hf := hf') (junk := junk)
    (es.reverse.map Elem.rec') 16777218 (n - 8) (Hash.LInv.init cs (Hash.readMax cs))
    (by simp; have := S.fits; have := S.hi; omega)
    (by rw [hmax]; simp; exact S.fits)
    (by
      have := S.inv.keysE
      simp only [List.map_nil, List.reverse_nil, List.nil_append, List.map_map]
      rw [List.map_reverse, List.nodup_reverse]
      exact this)
    (by
      intro r hr
      obtain ⟨e, he, rfl⟩ := List.mem_map.1 hr
      exact S.recs e (by simpa using he))
  refine ⟨_, h', S.write, ?_, ?_, hm.trans hmax, es', L', ?_⟩
  · have ht : (Hash.fileHead ++ es.reverse.flatMap (fun e => encRec e.rec')).take n =
        Hash.fileHead ++ ((es.reverse.map Elem.rec').flatMap encRec).take (n - 8) := by
      rw [List.take_append, List.take_of_length_le (by simp [Hash.fileHead]; omega), e1]
      rfl
    rw [ht, Hash.readHash]
    obtain ⟨r1, r2⟩ := Hash.read_head (((es.reverse.map Elem.rec').flatMap encRec).take (n - 8))
    simp only [r1, r2]
    rw [if_neg (by simp)]
    exact hr
  · rw [L'.listing, hes]; simp
  · intro e he
    rcases hj e he with h | h
    · simp at h
    · exact h

theorem complete_all (rs : List Rec) (m : Nat) (hm : (rs.flatMap encRec).length ≤ m) :
    complete rs m = rs := by
  induction rs generalizing m with
  | nil => rfl
  | cons r rs ih =>
    rw [List.flatMap_cons, List.length_append] at hm
    rw [complete, if_pos (by omega), ih _ (by omega)]

/-- The records loaded from a cut file are the oldest ones of the original,
i.e. a suffix of its recency order. -/
theorem complete_prefix (rs : List Rec) (m : Nat) : complete rs m <+: rs := by
  induction rs generalizing m with
  | nil => exact List.prefix_refl _
  | cons r rs ih =>
    rw [complete]
    split_ifs
    · exact List.cons_prefix_cons.2 ⟨rfl, ih _⟩
    · exact List.nil_prefix

/-- C19: loading a saved cache (with any hash function) gives a cache of the
configured capacity with the same expirable associations — keys, values and
expiry times — in the same recency order, and nothing else. -/
theorem save_load (hf hf' : List UInt8 → Nat) (junk : Nat → Bool) {h : Hash}
    {es ps : List Elem} {cs : Nat} (S : Savable hf h es ps cs) :
    ∃ file h', h.writeHash = .ok file ∧ Hash.readHash hf' junk cs file = .ok h' ∧
      h'.listing = h.listing ∧ h'.listing = some (es.map Elem.rec') ∧ h'.max = cs ∧
      h'.size = es.length := by
  have hw := S.write
  obtain ⟨file, h', h1, h2, h3, h4, es', h5, h6⟩ :=
    load_truncated hf hf' junk S
      (8 + (es.reverse.flatMap (fun e => encRec e.rec')).length) (by omega)
  have hf1 : file = Hash.fileHead ++ es.reverse.flatMap (fun e => encRec e.rec') := by
    rw [hw] at h1; exact (Res.ok.inj h1).symm
  have hlen : file.length = 8 + (es.reverse.flatMap (fun e => encRec e.rec')).length := by
    rw [hf1, List.length_append]; rfl
  rw [List.take_of_length_le (by omega)] at h2
  have hlist : h.listing = some (es.map Elem.rec') := by
    have : ∀ l : List Elem, (∀ e ∈ l, e ∈ es) →
        (l.map Elem.id).mapM (fun id => (h.findId id).map Elem.rec') = some (l.map Elem.rec') := by
      intro l
      induction l with
      | nil => intro _; rfl
      | cons a l ih =>
        intro hl
        simp [S.inv.t.findId (by simp [hl a (by simp)] : a ∈ es ++ ps),
          ih (fun e he => hl e (by simp [he]))]
    rw [Hash.listing, S.inv.fila]
    exact this es (fun _ h => h)
  have h3' : h'.listing = some (es.map Elem.rec') := by
    rw [h3, complete_all _ _ (by rw [List.flatMap_map]; omega), List.map_reverse, List.reverse_reverse]
  refine ⟨file, h', h1, h2, by rw [h3', hlist], h3', h4, ?_⟩
  rw [h5.listing] at h3'
  have := congrArg List.length (Option.some.inj h3')
  rw [h5.t.size]; simpa using this

/-! ## Any file at all -/

/-- Structural invariant that survives even over-long chains and junk. -/
structure SInv (hf : List UInt8 → Nat) (h : Hash) : Prop where
  buck : ∀ i e, e ∈ h.tbl i → h.bucket hf e.key = i
  good : ∀ i e, e ∈ h.tbl i → e.key ≠ [] ∧ e.value ≠ [] ∧ 2 ≤ e.expire
  inj : ∀ i j e e', e ∈ h.tbl i → e' ∈ h.tbl j → e.id = e'.id → e = e'
  fresh : ∀ i e, e ∈ h.tbl i → e.id < h.next
  live : ∀ id ∈ h.fila, ∃ i e, e ∈ h.tbl i ∧ e.id = id
  nodup : h.fila.Nodup

namespace SInv
variable {hf : List UInt8 → Nat} {h : Hash}

theorem bump (I : SInv hf h) : SInv hf { h with next := h.next + 1 } :=
  ⟨I.buck, I.good, I.inj, fun i e he => Nat.lt_succ_of_lt (I.fresh i e he), I.live, I.nodup⟩

theorem mem_unlink {e x : Elem} {i : Nat} (hx : x ∈ (h.unlink e).tbl i) :
    x ∈ h.tbl i := by
  simp only [Hash.unlink] at hx
  exact (List.mem_filter.1 hx).1

theorem remove (I : SInv hf h) (e : Elem) (fl : List Nat) (hfl : fl.Nodup)
    (hs : ∀ id ∈ fl, id ∈ h.fila ∧ id ≠ e.id) : SInv hf { h.unlink e with fila := fl } where
  buck i x hx := I.buck i x (mem_unlink hx)
  good i x hx := I.good i x (mem_unlink hx)
  inj i j x y hx hy := I.inj i j x y (mem_unlink hx) (mem_unlink hy)
  fresh i x hx := I.fresh i x (mem_unlink hx)
  live id hid := by
    obtain ⟨i, x, hx, hxi⟩ := I.live id (hs id hid).1
    refine ⟨i, x, ?_, hxi⟩
    simp only [Hash.unlink]
    rw [List.mem_filter]
    have := (hs id hid).2
    exact ⟨hx, by simp [hxi, this]⟩
  nodup := hfl

theorem findId (I : SInv hf h) {id : Nat} (hid : id ∈ h.fila) :
    ∃ i e, h.findId id = some e ∧ e ∈ h.tbl i ∧ e.id = id := by
  obtain ⟨i, e, he, hei⟩ := I.live id hid
  have hb : e ∈ h.tbl (h.bucket hf e.key) := by rw [I.buck i e he]; exact he
  have hlt : h.bucket hf e.key < h.mask + 1 := Nat.lt_succ_of_le Nat.and_le_right
  have hs : (h.findId id).isSome := by
    rw [Hash.findId, List.findSome?_isSome_iff]
    refine ⟨_, List.mem_range.2 hlt, ?_⟩
    rw [List.find?_isSome]
    exact ⟨e, hb, by simp [hei]⟩
  obtain ⟨x, hx⟩ := Option.isSome_iff_exists.1 hs
  obtain ⟨j, -, hxj⟩ := List.exists_of_findSome?_eq_some hx
  exact ⟨j, x, hx, List.mem_of_find?_eq_some hxj, by simpa using List.find?_some hxj⟩

theorem push (I : SInv hf h) {e : Elem} (hid : e.id < h.next)
    (hne : ∀ i x, x ∈ h.tbl i → x.id ≠ e.id) (hnf : e.id ∉ h.fila)
    (hg : e.key ≠ [] ∧ e.value ≠ [] ∧ 2 ≤ e.expire) (n : Nat) :
    SInv hf { h.push hf e with fila := e.id :: h.fila, size := n } := by
  have hm : ∀ i x, x ∈ (h.push hf e).tbl i → (x = e ∧ i = h.bucket hf e.key) ∨ x ∈ h.tbl i := by
    intro i x hx
    simp only [Hash.push] at hx
    split_ifs at hx with hb
    · rcases List.mem_cons.1 hx with rfl | hx
      · exact Or.inl ⟨rfl, hb⟩
      · exact Or.inr hx
    · exact Or.inr hx
  have hm' : ∀ i x, x ∈ h.tbl i → x ∈ (h.push hf e).tbl i := by
    intro i x hx
    simp only [Hash.push]
    split_ifs
    · exact List.mem_cons_of_mem _ hx
    · exact hx
  refine ⟨?_, ?_, ?_, ?_, ?_, ?_⟩
  · intro i x hx
    rcases hm i x hx with ⟨rfl, rfl⟩ | hx
    · rfl
    · exact I.buck i x hx
  · intro i x hx
    rcases hm i x hx with ⟨rfl, rfl⟩ | hx
    · exact hg
    · exact I.good i x hx
  · intro i j x y hx hy hxy
    rcases hm i x hx with ⟨rfl, rfl⟩ | hx <;> rcases hm j y hy with ⟨rfl, rfl⟩ | hy
    · rfl
    · exact absurd hxy.symm (hne j y hy)
    · rename_i hx'
      exact absurd hxy (hne i x hx')
    · exact I.inj i j x y hx hy hxy
  · intro i x hx
    rcases hm i x hx with ⟨rfl, rfl⟩ | hx
    · exact hid
    · exact I.fresh i x hx
  · intro id hid
    rcases List.mem_cons.1 hid with rfl | hid
    · exact ⟨h.bucket hf e.key, e, by simp [Hash.push], rfl⟩
    · obtain ⟨i, x, hx, hxi⟩ := I.live id hid
      exact ⟨i, x, hm' i x hx, hxi⟩
  · exact List.nodup_cons.2 ⟨hnf, I.nodup⟩

theorem evict (I : SInv hf h) (h0 : h.fila ≠ []) : ∃ h', h.evict = .ok h' ∧ SInv hf h' := by
  rcases hl : h.fila.getLast? with _ | id
  · simp at hl; exact absurd hl h0
  · have hmem : id ∈ h.fila := List.mem_of_getLast? hl
    obtain ⟨i, e, hf1, he, hei⟩ := I.findId hmem
    have hsplit : h.fila = h.fila.dropLast ++ [id] := by
      have hne : h.fila ≠ [] := by rintro h0; simp [h0] at hl
      rw [List.getLast?_eq_getLast_of_ne_nil hne] at hl
      rw [← Option.some.inj hl, List.dropLast_append_getLast hne]
    have hnd := I.nodup
    rw [hsplit, List.nodup_append] at hnd
    have hsub : ∀ j ∈ h.fila.dropLast, j ∈ h.fila ∧ j ≠ e.id := fun j hj =>
      ⟨List.dropLast_subset _ hj, by rw [hei]; exact hnd.2.2 j hj id (by simp)⟩
    by_cases him : e.immutable
    · refine ⟨{ h with fila := h.fila.dropLast }, by simp [Hash.evict, hl, hf1, him], ?_⟩
      exact ⟨I.buck, I.good, I.inj, I.fresh, fun j hj => I.live j (hsub j hj).1, hnd.1⟩
    · refine ⟨_, by simp [Hash.evict, hl, hf1, him]; rfl, I.remove e h.fila.dropLast hnd.1 hsub⟩

theorem place (I : SInv hf h) {k v : List UInt8} {x : Int} {b : Bool}
    (hg : k ≠ [] ∧ v ≠ [] ∧ 2 ≤ x) :
    Hash.placeNew hf { h with next := h.next + 1 } ⟨h.next, k, v, x, b⟩ 1 = .err ∨
    ∃ h', Hash.placeNew hf { h with next := h.next + 1 } ⟨h.next, k, v, x, b⟩ 1 = .ok h' ∧
      SInv hf h' := by
  have I0 := I.bump
  have key : ∀ (c : Int) (h1 : Hash), ({ h with next := h.next + 1 } : Hash).zap hf k 1 = (c, h1) →
      c ≠ -1 → SInv hf h1 → h1.next = h.next + 1 → (∀ i x, x ∈ h1.tbl i → x ∈ h.tbl i) →
      (∀ j ∈ h1.fila, j ∈ h.fila) →
      ∃ h', Hash.placeNew hf { h with next := h.next + 1 } ⟨h.next, k, v, x, b⟩ 1 = .ok h' ∧
        SInv hf h' := by
    intro c h1 hz hc I1 hn hs hfs
    have hp := I1.push (e := ⟨h.next, k, v, x, b⟩) (by rw [hn]; exact Nat.lt_succ_self _)
      (by
        intro i y hy
        have := I.fresh i y (hs i y hy)
        simp only; omega)
      (by
        intro hm
        obtain ⟨i, y, hy, hyi⟩ := I.live _ (hfs _ hm)
        have := I.fresh i y hy
        simp only at hyi; omega)
      hg (h1.size + 1)
    simp only [Hash.placeNew, hz]
    rw [if_neg hc, if_pos True.intro]
    split_ifs
    · exact hp.evict (by simp)
    · exact ⟨_, rfl, hp⟩
  rcases hgr : ({ h with next := h.next + 1 } : Hash).grep hf k with _ | e
  · right
    exact key 0 _ (by simp [Hash.zap, hgr]) (by omega) I0 rfl (fun _ _ h => h) (fun _ h => h)
  · by_cases him : e.immutable
    · left
      simp [Hash.placeNew, Hash.zap, hgr, him]
    · right
      have hnd : (h.fila.erase e.id).Nodup := I.nodup.erase _
      have hs : ∀ j ∈ h.fila.erase e.id, j ∈ h.fila ∧ j ≠ e.id := fun j hj => by
        rw [I.nodup.mem_erase_iff] at hj
        exact ⟨hj.2, hj.1⟩
      refine key 1 _ (by simp [Hash.zap, hgr, him]; rfl) (by omega) (I0.remove e _ hnd hs) rfl ?_
        (fun j hj => (hs j hj).1)
      intro i y hy
      exact mem_unlink (h := { h with next := h.next + 1 }) hy

theorem load (junk : Nat → Bool) : ∀ (fuel : Nat) (s : Stream) {h : Hash}, SInv hf h →
    ∃ h', Hash.readLoop hf junk fuel s h = .ok h' ∧ SInv hf h'
  | 0, _, h, I => ⟨h, rfl, I⟩
  | fuel + 1, s, h, I => by
    rw [Hash.readLoop]
    split_ifs with he
    · exact ⟨h, rfl, I⟩
    · rcases hg : s.getElement.1 with _ | ⟨k, v, x⟩
      · exact ⟨h, by simp only [hg], I⟩
      · have hgood : k ≠ [] ∧ v ≠ [] ∧ 2 ≤ x := by
          clear I
          simp only [Stream.getElement] at hg
          split at hg
          · split_ifs at hg with h1 h2
            simp only [Option.some.injEq, Prod.mk.injEq] at hg
            obtain ⟨rfl, rfl, rfl⟩ := hg
            refine ⟨?_, ?_, by omega⟩
            · rintro rfl; simp at h2
            · rintro rfl; simp at h2
          · simp at hg
        rcases I.place (b := junk h.next) hgood with hp | ⟨h', hp, I'⟩
        · exact ⟨h, by simp only [hg, hp], I⟩
        · simp only [hg, hp]; exact SInv.load junk fuel _ I'

theorem init (cs n : Nat) : SInv hf (Hash.init cs n) := by
  constructor <;> simp [Hash.init]

end SInv

/-- C20 (second part): whatever bytes the file holds and whatever the memory
allocator left behind, loading either rejects the file (wrong marker) or ends,
without undefined behaviour, with a cache whose entries all have a nonempty key,
a nonempty value and an expiry of at least 2, and whose recency queue names
each of its entries once and only entries that exist. -/
theorem load_any (hf : List UInt8 → Nat) (junk : Nat → Bool) (cs : Nat) (file : List UInt8) :
    Hash.readHash hf junk cs file = .err ∨
    ∃ h rs, Hash.readHash hf junk cs file = .ok h ∧ h.listing = some rs ∧
      (∀ r ∈ rs, r.1 ≠ [] ∧ r.2.1 ≠ [] ∧ 2 ≤ r.2.2) ∧
      (∀ i, ∀ e ∈ h.tbl i, e.key ≠ [] ∧ e.value ≠ [] ∧ 2 ≤ e.expire) ∧ h.fila.Nodup := by
  simp only [Hash.readHash]
  split_ifs with hm
  · exact Or.inl rfl
  · right
    obtain ⟨h, hr, I⟩ := SInv.load junk 16777218
      ((Stream.getInt 4 ⟨file, false⟩).2.getInt 4).2 (SInv.init (hf := hf) cs (Hash.readMax cs))
    have : ∀ l : List Nat, (∀ j ∈ l, j ∈ h.fila) →
        ∃ rs, l.mapM (fun id => (h.findId id).map Elem.rec') = some rs ∧
          ∀ r ∈ rs, r.1 ≠ [] ∧ r.2.1 ≠ [] ∧ 2 ≤ r.2.2 := by
      intro l
      induction l with
      | nil => intro _; exact ⟨[], rfl, by simp⟩
      | cons a l ih =>
        intro hl
        obtain ⟨rs, h1, h2⟩ := ih (fun j hj => hl j (by simp [hj]))
        obtain ⟨i, e, h3, h4, h5⟩ := I.findId (hl a (by simp))
        refine ⟨e.rec' :: rs, by simp [h3, h1], ?_⟩
        intro r hr
        rcases List.mem_cons.1 hr with rfl | hr
        · exact I.good i e h4
        · exact h2 r hr
    obtain ⟨rs, h1, h2⟩ := this h.fila (fun _ h => h)
    exact ⟨h, rs, hr, h1, h2, I.good, I.nodup⟩

end Dw
