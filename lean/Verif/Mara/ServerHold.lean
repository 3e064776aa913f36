import Verif.Mara.LinkExact
import Verif.Mara.ServerModel
import Verif.Mara.ReplyTurn
import Verif.Spec.Host
/-!
# Lemmas: what is in memory when the server starts
-/

namespace Mara
namespace Server

open Dw (Res)
open Spec
open Big (Key Ent enc base Inv Agrees Cell)
open Reply (Chain)

/-- The records in memory: which they are, the places of the records of a key, the places of the name
servers that follow them, and whether the server is the authority for them. -/
structure World where
  item : Nat → Rec
  own : Key → List Nat
  tail : Key → List Nat
  auth : Key → Bool

/-- The host a record names. -/
def World.host (W : World) (i : Nat) : Name := (W.item i).names.headD []

/-- What a record looks like in memory. -/
structure Looks (W : World) (v6 : Bool) (k : Key) (i : Nat) (p : Reply.Node) : Prop where
  query : p.query = enc k
  type : p.type = k.2
  auth : p.auth = W.auth k
  data : p.data = (W.item i).rdata
  ttl : p.ttl = (W.item i).ttl
  ip : p.ip = if k.2 = 2 ∨ k.2 = 15 then (W.own (encName (W.host i), 1)).head? else none
  ip6 : p.ip6 = if (k.2 = 2 ∨ k.2 = 15) ∧ v6 = true then (W.own (encName (W.host i), 28)).head? else none
  led : k.2 = 5 → ∀ t, t < 65536 → Reply.onList t p.list = (W.own (encName (W.host i), t)).head?
  onlist : ∀ t j, (t, some j) ∈ p.list → k.2 = 5 ∧ j ∈ W.own (encName (W.host i), t)

/-- The records are in memory as the zones have them. -/
structure Stands (W : World) (v6 : Bool) (h : Reply.Heap) (dict : List UInt8 → Option Cell) : Prop where
  disj : ∀ k k' i, i ∈ W.own k → i ∈ W.own k' → k = k'
  nodup : ∀ k, (W.own k).Nodup
  good : ∀ k, W.own k ≠ [] → Big.Good k
  key : ∀ k, W.own k ≠ [] → ∃ star n, LabelsOk n ∧ k.1 = base star n
  tail : ∀ k, W.tail k = [] ∨ (k.2 ≠ 2 ∧ ∃ z, LabelsOk z ∧ W.tail k = W.own (encName z, 2))
  chain : ∀ k, W.own k ≠ [] → Chain h (W.own k).head? (W.own k ++ W.tail k)
  looks : ∀ k, ∀ i ∈ W.own k, ∃ p, h[i]? = some p ∧ Looks W v6 k i p
  sound : ∀ i, (W.item i).Sound ∧ (W.item i).cls = be16 1
  item : ∀ star n t, LabelsOk n → ∀ i ∈ W.own (base star n, t),
    (W.item i).Sound ∧ (W.item i).name = n ∧ (W.item i).type = t ∧ (W.item i).cls = be16 1
  dict : ∀ k : Key, k.2 < 65536 → k.2 ≠ 255 → dict (enc k) = (W.own k).head?.map Cell.rr

theorem quad_iff {d : List UInt8} : Big.Quad d ↔ BeginsAsAddress d := by
  unfold Big.Quad BeginsAsAddress FourNumbers
  constructor
  · rintro ⟨ls, h1, h2, h3⟩
    exact ⟨ls, ⟨h1, h2⟩, h3⟩
  · rintro ⟨ls, ⟨h1, h2⟩, h3⟩
    exact ⟨ls, h1, h2, h3⟩

/-- The data of records that name a host. -/
theorem rdata_host {r : Rec} (h : r.Sound) (ht : r.type = 2 ∨ r.type = 5 ∨ r.type = 15) :
    r.rdata = r.lead ++ encName (r.names.headD []) ∧ NameOk (r.names.headD []) ∧ r.lead.length = if r.type = 15 then 2 else 0 := by
  have hf := h.ok.form
  have hn := h.names
  unfold Rec.rdata
  rcases ht with ht | ht | ht <;> rw [ht] at hf ⊢ <;> simp only [rdLayout, Option.getD_some, Prod.mk.injEq, List.length_eq_zero_iff] at hf <;>
    obtain ⟨h1, h2, h3⟩ := hf <;> obtain ⟨x, hx⟩ := List.length_eq_one_iff.1 h2 <;> rw [hx] at hn ⊢ <;> rw [h3] <;>
    refine ⟨by simp, hn x (by simp), by simp [h1]⟩

theorem hostOf_rdata {r : Rec} (h : r.Sound) (ht : r.type = 2 ∨ r.type = 5 ∨ r.type = 15) :
    Big.hostOf r.type r.rdata = encName (r.names.headD []) := by
  obtain ⟨h1, _, h3⟩ := rdata_host h ht
  unfold Big.hostOf
  rw [h1]
  split
  · rename_i h15
    rw [if_pos h15] at h3
    rw [← h3, List.drop_left]
  · rename_i h15
    rw [if_neg h15, List.length_eq_zero_iff] at h3
    rw [h3, List.nil_append]

/-- The time to live at a place. -/
def ttlAt (s : Big.Store) (j : Nat) : Nat := ((s.heap[j]?).map (·.ttl)).getD 0

theorem path_recs {s : Big.Store} {kq : List UInt8} {t : Nat} {a : Bool} {tl : Option Nat} : ∀ {l : List Nat} {rs : List Big.Rec},
    Big.Path s.heap kq t a l rs tl → l.map (fun i => (Big.dataAt s i, ttlAt s i)) = rs
  | [], _, h => absurd rfl h.ne
  | [i], [], h => h.elim
  | [i], [r], h => by
    have h : s.heap[i]? = some ⟨a, r.2, t, r.1, tl, true, kq⟩ := h
    simp [Big.dataAt, ttlAt, h]
  | [i], _ :: _ :: _, h => h.elim
  | _ :: _ :: _, [], h => h.elim
  | i :: j :: l, r :: rs, h => by
    rw [List.map_cons, path_recs h.2]
    have h : s.heap[i]? = some ⟨a, r.2, t, r.1, some j, true, kq⟩ := h.1
    simp [Big.dataAt, ttlAt, h]

section
variable {gs : List Given} {s : Big.Store} {A : Key → Option Ent} {own : Key → List Nat} {L : List UInt8 → List (Nat × Nat)}

theorem own_ent (inv : Inv s A own L) (ag : Agrees A gs) {star : Bool} {n : Name} {t : Nat} (hn : LabelsOk n) (h : own (base star n, t) ≠ []) :
    A (base star n, t) = some ⟨Given.mark gs star n t, (Given.sets gs star n t).map (·.2), (Given.homeOf gs star n t).map encName⟩ := by
  have h1 := ag.ent star n t hn
  unfold Big.entOf at h1
  split at h1
  · exact h1
  · exact absurd ((inv.none_iff _).1 h1) h

theorem own_sets (inv : Inv s A own L) (ag : Agrees A gs) {star : Bool} {n : Name} {t : Nat} (hn : LabelsOk n) :
    (own (base star n, t)).map (fun i => (Big.dataAt s i, ttlAt s i)) = (Given.sets gs star n t).map (·.2) := by
  by_cases h : own (base star n, t) = []
  · rw [h]
    have h1 := ag.ent star n t hn
    rw [(inv.none_iff _).2 h] at h1
    unfold Big.entOf at h1
    split at h1
    · cases h1
    · rename_i hany
      have : Given.sets gs star n t = [] := by
        apply List.eq_nil_iff_forall_not_mem.2
        intro x hx
        obtain ⟨g, hg, hat, _⟩ := Big.mem_sets.1 hx
        exact hany (List.any_eq_true.2 ⟨g, hg, hat⟩)
      rw [this]
      rfl
  · exact path_recs (inv.path _ _ (own_ent inv ag hn h))

/-- The data at a place is that of a record given. -/
theorem own_given (inv : Inv s A own L) (ag : Agrees A gs) {star : Bool} {n : Name} {t : Nat} (hn : LabelsOk n) {i : Nat}
    (hi : i ∈ own (base star n, t)) : ∃ g ∈ gs, g.star = star ∧ g.name = n ∧ g.type = t ∧ g.data = Big.dataAt s i ∧ g.ttl = ttlAt s i := by
  have h : (Big.dataAt s i, ttlAt s i) ∈ (Given.sets gs star n t).map (·.2) := by
    rw [← own_sets inv ag hn]
    exact List.mem_map_of_mem hi
  rw [List.mem_map] at h
  obtain ⟨x, hx, h2⟩ := h
  obtain ⟨g, hg, hat, _, rfl⟩ := Big.mem_sets.1 hx
  obtain ⟨a1, a2, a3⟩ := Big.at_iff.1 hat
  injection h2 with h3 h4
  exact ⟨g, hg, a1, a2, a3, h3, h4⟩

theorem own_key (inv : Inv s A own L) (ag : Agrees A gs) {k : Key} (h : own k ≠ []) : ∃ star n, LabelsOk n ∧ k.1 = base star n := by
  obtain ⟨e, he⟩ := Option.ne_none_iff_exists'.1 (fun h' => h ((inv.none_iff k).1 h') : A k ≠ none)
  exact ag.only k e he

/-- A record for every place. -/
theorem items (inv : Inv s A own L) (ag : Agrees A gs) (ht : Given.Tidy gs) : ∃ item : Nat → Rec,
    (∀ i, (item i).Sound ∧ (item i).cls = be16 1) ∧ ∀ i star n t, LabelsOk n →
    i ∈ own (base star n, t) → (item i).Sound ∧ (item i).name = n ∧ (item i).type = t ∧ (item i).cls = be16 1 ∧
      (item i).rdata = Big.dataAt s i ∧ (item i).ttl = ttlAt s i := by
  have key : ∀ i, ∃ r : Rec, (r.Sound ∧ r.cls = be16 1) ∧ ∀ star n t, LabelsOk n → i ∈ own (base star n, t) → r.Sound ∧ r.name = n ∧ r.type = t ∧ r.cls = be16 1 ∧
      r.rdata = Big.dataAt s i ∧ r.ttl = ttlAt s i := by
    intro i
    by_cases h : ∃ star n t, LabelsOk n ∧ i ∈ own (base star n, t)
    · obtain ⟨star, n, t, hn, hi⟩ := h
      obtain ⟨g, hg, g1, g2, g3, g4, g5⟩ := own_given inv ag hn hi
      obtain ⟨r, r1, r2, r3, r4, r5, r6⟩ := ht.send g hg
      refine ⟨r, ⟨r1, r4⟩, fun star' n' t' hn' hi' => ?_⟩
      have := inv.disj _ _ _ hi hi'
      injection this with e1 e2
      obtain ⟨_, e3⟩ := Big.base_inj hn hn' e1
      exact ⟨r1, by rw [r2, g2, e3], by rw [r3, g3, e2], r4, by rw [r6, g4], by rw [r5, g5]⟩
    · have hb : (⟨[], 10, be16 1, 0, [], [], []⟩ : Rec).Sound :=
        { ok := ⟨by simp, by simp [be16], by simp, by simp [Rec.rdata], rfl⟩
          name := ⟨by simp [LabelsOk], by simp [encName, encLabels]⟩
          names := by intro n hn; cases hn
          ttl := by simp
          a := by simp
          txt := by simp }
      exact ⟨⟨[], 10, be16 1, 0, [], [], []⟩, ⟨hb, rfl⟩, fun star n t hn hi => absurd ⟨star, n, t, hn, hi⟩ h⟩
  exact ⟨fun i => (key i).choose, fun i => (key i).choose_spec.1, fun i => (key i).choose_spec.2⟩

theorem hosts_of (inv : Inv s A own L) (ag : Agrees A gs) (ht : Given.Tidy gs) : Big.Hosts s own := by
  have none_of : ∀ {d : List UInt8} {u : Nat}, (∀ x ∈ gs, x.type = u → x.bytesOf ≠ d) → own (d, u) = [] := by
    intro d u h
    by_contra hne
    obtain ⟨star, n, hn, hd⟩ := own_key inv ag hne
    have hd : d = base star n := hd
    subst hd
    obtain ⟨i, hi⟩ := List.exists_mem_of_ne_nil _ hne
    obtain ⟨g, hg, g1, g2, g3, _⟩ := own_given inv ag hn hi
    refine h g hg g3 ?_
    unfold Given.bytesOf base
    rw [g1, g2]
  refine ⟨fun b j hj => ?_, fun b j hj => ?_, fun b j hj => ?_⟩ <;>
    obtain ⟨star, n, hn, hb⟩ := own_key inv ag (List.ne_nil_of_mem hj) <;> have hb : b = base star n := hb <;> subst hb <;>
    obtain ⟨g, hg, g1, g2, g3, g4, g5⟩ := own_given inv ag hn hj <;> rw [← g4]
  · rw [quad_iff]
    exact ht.mx g hg g3
  · rw [quad_iff, quad_iff]
    exact ht.ns g hg g3
  · exact ⟨none_of fun x hx h => ht.off g hg g3 x hx (.inl h), none_of fun x hx h => ht.off g hg g3 x hx (.inr h)⟩

/-- A name has few types. -/
theorem list_few (inv : Inv s A own L) (ag : Agrees A gs) (ht : Given.Tidy gs) {n : Name} (hn : LabelsOk n) : (L (encName n)).length ≤ 1001 := by
  refine Nat.le_trans ?_ (ht.few n)
  have hs : ((L (encName n)).map (·.1)) ⊆ (gs.filter fun g => decide (g.star = false ∧ g.name = n)).map (·.type) := by
    intro t h
    rw [List.mem_map] at h
    obtain ⟨⟨t', i⟩, hi, rfl⟩ := h
    have h1 := (inv.list _ _ _).1 hi
    have hi' : i ∈ own (base false n, t') := List.mem_of_mem_head? h1
    obtain ⟨g, hg, g1, g2, g3, _⟩ := own_given inv ag hn hi'
    rw [List.mem_map]
    exact ⟨g, List.mem_filter.2 ⟨hg, decide_eq_true ⟨g1, g2⟩⟩, g3⟩
  have := ((inv.types (encName n)).subperm hs).length_le
  simpa using this

theorem onList_eq (inv : Inv s A own L) (b : List UInt8) (hb : (L b).length ≤ 1001) (t : Nat) :
    Reply.onList t ((L b).map fun e => (e.1, some e.2)) = (own (b, t)).head? := by
  unfold Reply.onList
  rw [List.take_of_length_le (by simpa using hb), List.find?_map]
  cases h : (L b).find? ((fun x : Nat × Option Nat => x.1 == t) ∘ fun e => (e.1, some e.2)) with
  | none =>
    simp only [Option.map_none]
    rw [List.find?_eq_none] at h
    cases h' : (own (b, t)).head? with
    | none => rfl
    | some i => exact absurd (by simp) (h (t, i) ((inv.list b t i).2 h'))
  | some e =>
    simp only [Option.map_some]
    have h1 := List.find?_some h
    have h2 := List.mem_of_find?_eq_some h
    have h3 : e.1 = t := by simpa using h1
    have := (inv.list b e.1 e.2).1 h2
    rw [h3] at this
    rw [this]

theorem heap_get (f : Nat → Big.Link) (junk : Nat → Reply.Node) {i : Nat} {p : Big.Node} (hp : s.heap[i]? = some p) (hl : p.live = true) :
    (Big.Linked.heap ⟨s, f⟩ junk)[i]? = some (Big.Linked.node ⟨s, f⟩ i p) := by
  unfold Big.Linked.heap
  rw [List.getElem?_mapIdx, hp]
  simp [hl]

theorem run_chain (f : Nat → Big.Link) (junk : Nat → Reply.Node) : ∀ {l : List Nat} {o : Option Nat}, Big.Run s o l →
    Chain (Big.Linked.heap ⟨s, f⟩ junk) o l
  | [], none, _ => .nil
  | [], some _, h => h.elim
  | _ :: _, none, h => h.elim
  | j :: l, some i, h => by
    obtain ⟨rfl, p, hp, hl, hr⟩ := h
    exact .cons (heap_get f junk hp hl) (run_chain f junk hr)

/-- The records in memory. -/
def worldOf (item : Nat → Rec) (A : Key → Option Ent) (own : Key → List Nat) : World where
  item := item
  own := own
  tail k := match A k with
    | some e => Big.after own e
    | none => []
  auth k := match A k with
    | some e => e.auth
    | none => false

theorem stands (hl : Big.Loadable gs) (ht : Given.Tidy gs) (inv : Inv s A own L) (ag : Agrees A gs) {item : Nat → Rec}
    (hso : ∀ i, (item i).Sound ∧ (item i).cls = be16 1)
    (hit : ∀ i star n t, LabelsOk n → i ∈ own (base star n, t) → (item i).Sound ∧ (item i).name = n ∧ (item i).type = t ∧ (item i).cls = be16 1 ∧
      (item i).rdata = Big.dataAt s i ∧ (item i).ttl = ttlAt s i) (v6 : Bool) {f : Nat → Big.Link}
    (hf : ∀ k, ∀ j ∈ own k, f j = Big.linkOf v6 own L k.2 (Big.dataAt s j)) (junk : Nat → Reply.Node) :
    Stands (worldOf item A own) v6 (Big.Linked.heap ⟨s, f⟩ junk) s.dict where
  disj := inv.disj
  nodup := inv.nodup
  good := inv.good
  key k h := own_key inv ag h
  tail k := by
    unfold worldOf
    dsimp only
    cases hA : A k with
    | none => exact .inl rfl
    | some e =>
      dsimp only
      unfold Big.after
      cases hns : e.ns with
      | none => exact .inl rfl
      | some z =>
        obtain ⟨h1, h2⟩ := inv.ns k e z hA hns
        refine .inr ⟨h2, ?_⟩
        obtain ⟨star, n, hn, hk⟩ := ag.only k e hA
        obtain ⟨b, t⟩ := k
        have hk : b = base star n := hk
        subst hk
        have he := own_ent inv ag hn (by intro h'; rw [(inv.none_iff _).2 h'] at hA; cases hA)
        rw [hA] at he
        injection he with he
        rw [he] at hns
        cases hh : Given.homeOf gs star n t with
        | none => rw [hh] at hns; cases hns
        | some z' =>
          rw [hh] at hns
          injection hns with hns
          obtain ⟨x, hx, hxz, _⟩ := Big.homeOf_mem hh
          refine ⟨z', ?_, by rw [hns]⟩
          rw [← hxz]
          exact (hl.fit x hx).zone.1
  chain k h := by
    obtain ⟨e, he⟩ := Option.ne_none_iff_exists'.1 (fun h' => h ((inv.none_iff k).1 h') : A k ≠ none)
    unfold worldOf
    dsimp only
    rw [he]
    exact run_chain f junk (inv.run he)
  sound := hso
  item star n t hn i hi := by
    obtain ⟨h1, h2, h3, h4, _⟩ := hit i star n t hn hi
    exact ⟨h1, h2, h3, h4⟩
  dict := inv.dict
  looks := by
    intro k i hi
    have hi : i ∈ own k := hi
    obtain ⟨star, n, hn, hk⟩ := own_key inv ag (List.ne_nil_of_mem hi)
    obtain ⟨b, t⟩ := k
    have hk : b = base star n := hk
    subst hk
    have he := own_ent inv ag hn (List.ne_nil_of_mem hi)
    obtain ⟨p, hp, hl, p1, p2, p3⟩ := (inv.path _ _ he).node i hi
    obtain ⟨r1, r2, r3, r4, r5, r6⟩ := hit i star n t hn hi
    have hd : Big.dataAt s i = p.data := Big.dataAt_some hp
    have htl : ttlAt s i = p.ttl := by unfold ttlAt; rw [hp]; rfl
    have hlink := hf _ i hi
    rw [hd] at hlink r5
    rw [htl] at r6
    have hh : t = 2 ∨ t = 5 ∨ t = 15 → Big.hostOf t p.data = encName ((item i).names.headD []) := by
      intro h
      rw [← r5, ← r3]
      exact hostOf_rdata r1 (by rw [r3]; exact h)
    have hname : t = 2 ∨ t = 5 ∨ t = 15 → LabelsOk ((item i).names.headD []) := by
      intro h
      exact (rdata_host r1 (by rw [r3]; exact h)).2.1.1
    refine ⟨_, heap_get f junk hp hl, ?_, ?_, ?_, ?_, ?_, ?_, ?_, ?_, ?_⟩
    · exact p3
    · exact p1
    · show p.auth = _
      unfold worldOf
      dsimp only
      rw [he, p2]
    · exact r5.symm
    · exact r6.symm
    · show (f i).ip = _
      rw [hlink]
      unfold Big.linkOf
      dsimp only
      by_cases h : t = 2 ∨ t = 15
      · rw [if_pos (Or.symm h), if_pos h, hh (by omega)]
        rfl
      · rw [if_neg (fun h' => h (Or.symm h')), if_neg h]
        split <;> rfl
    · show (f i).ip6 = _
      rw [hlink]
      unfold Big.linkOf
      dsimp only
      by_cases h : t = 2 ∨ t = 15
      · rw [if_pos (Or.symm h), hh (by omega)]
        cases v6
        · rw [if_neg (c := (t = 2 ∨ t = 15) ∧ false = true) (by simp)]; rfl
        · rw [if_pos (c := (t = 2 ∨ t = 15) ∧ true = true) ⟨h, rfl⟩]; rfl
      · rw [if_neg (fun h' => h (Or.symm h')), if_neg (c := (t = 2 ∨ t = 15) ∧ v6 = true) (fun h' => h h'.1)]
        split <;> rfl
    · intro h5 u hu
      have h5 : t = 5 := h5
      show Reply.onList u (Big.Linked.listAt ⟨s, f⟩ (f i).list) = _
      rw [hlink]
      have hd5 := hh (by omega)
      unfold Big.linkOf
      dsimp only
      rw [if_neg (by omega), if_pos h5]
      have hd5 : p.data = encName ((item i).names.headD []) := by
        rw [← hd5]; unfold Big.hostOf; rw [if_neg (by omega)]
      have hfew := list_few inv ag ht (hname (by omega))
      show _ = (own (encName ((item i).names.headD []), u)).head?
      rw [hd5, ← onList_eq inv _ hfew]
      unfold Big.aliasOf
      dsimp only
      by_cases hL : L (encName ((item i).names.headD [])) = []
      · rw [if_pos hL, hL]; rfl
      · rw [if_neg hL]
        unfold Big.Linked.listAt
        dsimp only
        have := inv.any (encName ((item i).names.headD []))
        unfold enc at this
        rw [this, if_neg hL]
    · intro u j hj
      have hj : (u, some j) ∈ Big.Linked.listAt ⟨s, f⟩ (f i).list := hj
      rw [hlink] at hj
      unfold Big.linkOf at hj
      dsimp only at hj
      by_cases h : t = 15 ∨ t = 2
      · rw [if_pos h] at hj; cases hj
      · rw [if_neg h] at hj
        by_cases h5 : t = 5
        · rw [if_pos h5] at hj
          have hd5 := hh (by omega)
          have hd5 : p.data = encName ((item i).names.headD []) := by
            rw [← hd5]; unfold Big.hostOf; rw [if_neg (by omega)]
          rw [hd5] at hj
          unfold Big.aliasOf at hj
          dsimp only at hj
          by_cases hL : L (encName ((item i).names.headD [])) = []
          · rw [if_pos hL] at hj; cases hj
          · rw [if_neg hL] at hj
            unfold Big.Linked.listAt at hj
            dsimp only at hj
            have := inv.any (encName ((item i).names.headD []))
            unfold enc at this
            rw [this, if_neg hL] at hj
            simp only [List.mem_map, Prod.mk.injEq, Option.some.injEq] at hj
            obtain ⟨⟨a, b⟩, hab, h1, h2⟩ := hj
            simp only at h1 h2
            subst h1 h2
            exact ⟨h5, List.mem_of_mem_head? ((inv.list _ _ _).1 hab)⟩
        · rw [if_neg h5] at hj; cases hj

end

end Server
end Mara
