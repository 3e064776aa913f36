import Verif.Mara.BigHashSteps
/-!
# The main table against the records given to it: `add_rr_to_bighash`
-/

namespace Mara
namespace Big

open Dw (Res)
open Lookup (getRtype changeRtype u16)
open Spec

variable {s : Store} {A : Key → Option Ent} {own : Key → List Nat} {L : List UInt8 → List (Nat × Nat)}

/-- The state after a key has been removed and its first record given back. -/
theorem Inv.drop (inv : Inv s A own L) {k : Key} (hno : ∀ x e z, A x = some e → e.ns = some z → (z, 2) ≠ k)
    {i : Nat} (hi : (own k).head? = some i) {n : Node} {l' : List (Nat × Nat)}
    (hl' : l'.Sublist (L k.1)) (hl2 : ∀ t j, (t, j) ∈ l' ↔ (t, j) ∈ L k.1 ∧ t ≠ k.2) {s' : Store}
    (hheap : s'.heap = s.heap.set i n)
    (hdict : s'.dict = ((s.set (enc k) none).set (enc (k.1, 255)) (if l' = [] then none else some (.list l'))).dict) :
    Inv s' (upd A k none) (upd own k []) (upd L k.1 l') := by
  have hin : i ∈ own k := List.mem_of_mem_head? (by rw [hi]; rfl)
  have hg : Good k := inv.good k (List.ne_nil_of_mem hin)
  have hsm := hg.small
  have htail : ∀ x e, A x = some e → tailOf (upd own k []) e.ns = tailOf own e.ns := by
    intro x e he
    cases hz : e.ns with
    | none => rfl
    | some z => simp only [tailOf, Option.bind_some, upd_ne own _ (hno x e z he hz)]
  refine ⟨?_, ?_, ?_, ?_, ?_, ?_, ?_, ?_, ?_, ?_⟩
  · intro x
    by_cases hx : x = k
    · subst hx; simp [upd_same]
    · rw [upd_ne _ _ hx, upd_ne _ _ hx]; exact inv.none_iff x
  · intro x hne
    by_cases hx : x = k
    · subst hx; rw [upd_same] at hne; exact absurd rfl hne
    · rw [upd_ne _ _ hx] at hne; exact inv.good x hne
  · intro x hx1 hx2
    rw [hdict]
    have h255 : enc x ≠ enc (k.1, 255) := by
      intro h
      have := enc_inj hx1 (by simp) h
      exact hx2 (by rw [this])
    rw [set_dict_ne _ _ h255]
    by_cases hx : x = k
    · subst hx
      rw [set_dict_same, upd_same]; rfl
    · have : enc x ≠ enc k := fun h => hx (enc_inj hx1 (by omega) h)
      rw [set_dict_ne _ _ this, upd_ne _ _ hx]
      exact inv.dict x hx1 hx2
  · intro b
    rw [hdict]
    by_cases hb : b = k.1
    · subst hb
      rw [set_dict_same, upd_same]
    · have h1 : enc (b, 255) ≠ enc (k.1, 255) := by
        intro h
        have := enc_inj (by simp) (by simp) h
        exact hb (congrArg Prod.fst this)
      have h2 : enc (b, 255) ≠ enc k := by
        intro h
        have := enc_inj (by simp) (by omega) h
        exact hb (by rw [← this])
      rw [set_dict_ne _ _ h1, set_dict_ne _ _ h2, upd_ne _ _ hb]
      exact inv.any b
  · intro b t j
    by_cases hb : b = k.1
    · subst hb
      rw [upd_same, hl2]
      by_cases ht : t = k.2
      · subst ht
        rw [upd_same]
        simp
      · have hne : (k.1, t) ≠ k := by
          intro h
          exact ht (by rw [← h])
        rw [upd_ne _ _ hne, ← inv.list]
        simp [ht]
    · have hne : (b, t) ≠ k := by
        intro h
        exact hb (by rw [← h])
      rw [upd_ne _ _ hb, upd_ne _ _ hne]
      exact inv.list b t j
  · intro b
    by_cases hb : b = k.1
    · subst hb
      rw [upd_same]
      exact (inv.types k.1).sublist (hl'.map _)
    · rw [upd_ne _ _ hb]; exact inv.types b
  · intro x y j hx hy
    by_cases h1 : x = k
    · subst h1; rw [upd_same] at hx; cases hx
    · by_cases h2 : y = k
      · subst h2; rw [upd_same] at hy; cases hy
      · rw [upd_ne _ _ h1] at hx
        rw [upd_ne _ _ h2] at hy
        exact inv.disj x y j hx hy
  · intro x
    by_cases hx : x = k
    · subst hx; simp [upd_same]
    · rw [upd_ne _ _ hx]; exact inv.nodup x
  · intro x e he
    by_cases hx : x = k
    · subst hx; rw [upd_same] at he; cases he
    · rw [upd_ne _ _ hx] at he ⊢
      rw [htail x e he]
      refine (inv.path x e he).frame ?_
      intro j hj
      rw [hheap, List.getElem?_set_ne]
      intro hij
      subst hij
      exact hx (inv.disj _ _ _ hj hin)
  · intro x e z he hz
    by_cases hx : x = k
    · subst hx; rw [upd_same] at he; cases he
    · rw [upd_ne _ _ hx] at he
      have := inv.ns x e z he hz
      rw [upd_ne _ _ (hno x e z he hz)]
      exact this

theorem anyAdd_ok (inv : Inv s A own L) {k : Key} (hg : Good k) (i : Nat) {s1 : Store}
    (hd : s1.dict (enc (k.1, 255)) = s.dict (enc (k.1, 255))) :
    anyAdd s1 (enc k) i = .ok (true, s1.set (enc (k.1, 255)) (some (.list (L k.1 ++ [(k.2, i)])))) := by
  have hf := hg.fits
  have hl := enc_length k
  unfold anyAdd
  simp only [rtype_good hg, change_good hg (u := 255) (by decide)]
  rw [if_neg (by omega), hd, inv.any]
  by_cases h0 : L k.1 = []
  · rw [if_pos h0, h0]
    rfl
  · rw [if_neg h0]
    have := inv.short k.1
    simp only
    rw [if_neg (by omega)]

theorem putRr_ok (inv : Inv s A own L) {k : Key} (hg : Good k) (hA : A k = none) (r : Rec) (auth : Bool) :
    ∃ s', putRr s (enc k) r.1 r.2 auth = .ok (true, s') ∧
      s'.heap = s.heap ++ [⟨auth, r.2, k.2, r.1, none, true, enc k⟩] ∧
      s'.dict = ((s.set (enc k) (some (.rr s.heap.length))).set (enc (k.1, 255))
        (some (.list (L k.1 ++ [(k.2, s.heap.length)])))).dict := by
  have hsm := hg.small
  have hd : s.dict (enc k) = none := by
    rw [inv.dict k (by omega) hg.kind.1, (inv.none_iff k).1 hA]; rfl
  have hk255 : enc (k.1, 255) ≠ enc k := by
    intro h
    have := enc_inj (by simp) (by omega) h
    exact hg.kind.1 (by rw [← this])
  unfold putRr
  rw [rtype_good hg]
  simp only [hd, Option.isSome_none, Bool.false_eq_true, if_false]
  rw [anyAdd_ok (s1 := ({ s with heap := s.heap ++ [⟨auth, r.2, k.2, r.1, none, true, enc k⟩] } : Store).set (enc k)
    (some (.rr s.heap.length))) inv hg s.heap.length (set_dict_ne _ _ hk255), Res.ok_bind]
  simp only [Bool.true_eq_false, if_false]
  exact ⟨(({ s with heap := s.heap ++ [⟨auth, r.2, k.2, r.1, none, true, enc k⟩] } : Store).set (enc k)
    (some (.rr s.heap.length))).set (enc (k.1, 255)) (some (.list (L k.1 ++ [(k.2, s.heap.length)]))), rfl, rfl, rfl⟩

/-- The zone whose name servers follow a new record. -/
def nsOf (A : Key → Option Ent) (k : Key) (z : List UInt8) : Option (List UInt8) :=
  if k.2 ≠ 2 ∧ (A (z, 2)).isSome then some z else none

theorem putWithNs_ok (inv : Inv s A own L) {k : Key} (hg : Good k) (hA : A k = none) (r : Rec) (auth : Bool)
    {z : List UInt8} (hz : 1 ≤ z.length) :
    ∃ s' own' L', putWithNs s (enc k) r.1 r.2 (enc (z, 2)) auth = .ok (true, s') ∧
      Inv s' (upd A k (some ⟨auth, [r], nsOf A k z⟩)) own' L' := by
  have hsm := hg.small
  obtain ⟨s1, e1, e2, e3⟩ := putRr_ok inv hg hA r auth
  have hzt : getRtype (enc (z, 2)) = some 2 := getRtype_app z hz (by simp)
  have hk255 : enc k ≠ enc (k.1, 255) := by
    intro h
    have := enc_inj (by omega) (by simp) h
    exact hg.kind.1 (by rw [this])
  have hz255 : enc (z, 2) ≠ enc (k.1, 255) := by
    intro h
    have := enc_inj (by simp) (by simp) h
    exact absurd (congrArg Prod.snd this) (by simp)
  have hdk : s1.dict (enc k) = some (.rr s.heap.length) := by
    rw [e3, set_dict_ne _ _ hk255, set_dict_same]
  unfold putWithNs
  rw [e1, Res.ok_bind]
  simp only [Bool.true_eq_false, if_false]
  unfold addNs
  rw [rtype_good hg, hzt]
  simp only
  by_cases h2 : k.2 = 2
  · rw [if_pos h2]
    have hns : nsOf A k z = none := if_neg (by simp [h2])
    rw [hns]
    refine ⟨_, _, _, rfl, inv.put hg hA r auth none (fun z h => by cases h) e2 e3⟩
  · rw [if_neg h2, if_neg (by simp), hdk]
    have hzk : (z, 2) ≠ k := fun h => h2 (by rw [← h])
    have hdz : s1.dict (enc (z, 2)) = (own (z, 2)).head?.map Cell.rr := by
      rw [e3, set_dict_ne _ _ hz255, set_dict_ne _ _ (fun h => hzk (enc_inj (by simp) (by omega) h)), inv.dict _ (by simp) (by simp)]
    simp only [hdz]
    cases hh : (own (z, 2)).head? with
    | none =>
      have h0 : own (z, 2) = [] := List.head?_eq_none_iff.1 hh
      have hns : nsOf A k z = none := if_neg (by simp [(inv.none_iff _).2 h0])
      rw [hns]
      exact ⟨_, _, _, rfl, inv.put hg hA r auth none (fun z h => by cases h) e2 e3⟩
    | some j =>
      have h0 : own (z, 2) ≠ [] := by
        intro h0
        rw [h0] at hh
        cases hh
      have hAz : (A (z, 2)).isSome = true := by
        cases hAz : A (z, 2) with
        | none => exact absurd ((inv.none_iff _).1 hAz) h0
        | some _ => rfl
      have hns : nsOf A k z = some z := if_pos ⟨h2, hAz⟩
      rw [hns]
      have hnode : s1.heap[s.heap.length]? = some ⟨auth, r.2, k.2, r.1, none, true, enc k⟩ := by
        rw [e2, List.getElem?_append_right (by simp)]
        simp
      have hlast : lastOf s1 (s1.heap.length + 1) s.heap.length = .ok s.heap.length := by
        unfold lastOf
        rw [deref_some hnode rfl]
        rfl
      simp only [Option.map_some, hlast, Res.ok_bind, deref_some hnode rfl]
      refine ⟨_, _, _, rfl, inv.put hg hA r auth (some z) ?_ ?_ e3⟩
      · intro z' hz'
        injection hz' with hz'
        subst hz'
        exact ⟨h0, h2⟩
      · have ht : tailOf own (some z) = some j := hh
        rw [ht]
        simp only [e2]
        rw [List.set_append_right _ _ (by simp)]
        simp

theorem addRr_ok (inv : Inv s A own L) {k : Key} {e : Ent} (he : A k = some e) (r : Rec) :
    ∃ s' own', addRr s (enc k) r.1 r.2 e.auth = .ok (true, s') ∧
      Inv s' (upd A k (some { e with recs := insertRec k.2 e.recs r })) own' L := by
  have hpath := inv.path k e he
  have hg := inv.good k hpath.ne
  have hsm := hg.small
  obtain ⟨i, l, hl⟩ : ∃ i l, own k = i :: l := by
    cases h : own k with
    | nil => exact absurd h hpath.ne
    | cons i l => exact ⟨i, l, rfl⟩
  have hlen : (own k).length ≤ s.heap.length := nodup_bound (inv.nodup k) hpath.lt
  have hplace : ∃ p, place s (s.heap.length + 1) i = .ok p ∧
      ((k.2 ≠ 2 ∧ ∃ l0, own k = l0 ++ [p]) ∨ (k.2 = 2 ∧ ∃ l, own k = p :: l)) := by
    by_cases h2 : k.2 = 2
    · refine ⟨i, ?_, .inr ⟨h2, l, hl⟩⟩
      obtain ⟨n, hn, hnl, hnt, _⟩ := hpath.node i (by rw [hl]; exact List.mem_cons_self ..)
      unfold place
      rw [deref_some hn hnl, Res.ok_bind]
      cases hx : n.next with
      | none => rfl
      | some j =>
        have : ∃ m, s.heap[j]? = some m ∧ m.live = true ∧ m.type = 2 := by
          cases l with
          | nil =>
            rw [hl] at hpath
            cases hrs : e.recs with
            | nil => rw [hrs] at hpath; exact hpath.elim
            | cons r0 rs =>
              rw [hrs] at hpath
              cases rs with
              | cons _ _ => exact hpath.elim
              | nil =>
                have hpath : s.heap[i]? = some ⟨e.auth, r0.2, k.2, r0.1, tailOf own e.ns, true, enc k⟩ := hpath
                rw [hpath] at hn
                injection hn with hn
                subst hn
                exact inv.tail he j hx
          | cons j' l =>
            rw [hl] at hpath
            cases hrs : e.recs with
            | nil => rw [hrs] at hpath; exact hpath.elim
            | cons r0 rs =>
              rw [hrs] at hpath
              obtain ⟨h1, h3⟩ := hpath
              rw [h1] at hn
              injection hn with hn
              subst hn
              injection hx with hx
              subst hx
              obtain ⟨m, m1, m2, m3, _⟩ := h3.node _ (List.mem_cons_self ..)
              exact ⟨m, m1, m2, by rw [m3, h2]⟩
        obtain ⟨m, m1, m2, m3⟩ := this
        simp only [deref_some m1 m2, Res.ok_bind, m3, if_true]
    · rw [hl] at hpath hlen
      obtain ⟨l0, p, e1, e2⟩ := place_last h2 (inv.tail he) (fuel := s.heap.length + 1) hpath
        (by rw [List.length_cons] at hlen; omega)
      exact ⟨p, e2, .inl ⟨h2, l0, by rw [hl, e1]⟩⟩
  obtain ⟨p, hp1, hp2⟩ := hplace
  have hpin : p ∈ own k := by
    rcases hp2 with ⟨_, l0, h⟩ | ⟨_, l, h⟩ <;> rw [h] <;> simp
  obtain ⟨pn, hn, hnl, _, _⟩ := hpath.node p hpin
  have hd : s.dict (enc k) = some (.rr i) := by
    rw [inv.dict k (by omega) hg.kind.1, hl]; rfl
  unfold addRr
  rw [rtype_good hg, hd]
  obtain ⟨fn, hf1, hf2, _, _, hf3⟩ := hpath.node i (by rw [hl]; exact List.mem_cons_self ..)
  simp only [hp1, Res.ok_bind, deref_some hn hnl, deref_some hf1 hf2, hf3]
  obtain ⟨own', h⟩ := inv.insert he r hp2 hn (s' := { s with heap := s.heap.set p { pn with next := some s.heap.length } ++
        [⟨e.auth, r.2, k.2, r.1, pn.next, true, enc k⟩] }) rfl rfl
  exact ⟨_, own', rfl, h⟩

theorem anyZap_ok (inv : Inv s A own L) {k : Key} (hg : Good k) {i : Nat} (hi : (own k).head? = some i) {s1 : Store}
    (hd : s1.dict (enc (k.1, 255)) = s.dict (enc (k.1, 255))) :
    ∃ l', anyZap s1 (enc k) i = .ok (true, s1.set (enc (k.1, 255)) (if l' = [] then none else some (.list l'))) ∧
      l'.Sublist (L k.1) ∧ ∀ t j, (t, j) ∈ l' ↔ (t, j) ∈ L k.1 ∧ t ≠ k.2 := by
  have hf := hg.fits
  have hl := enc_length k
  have hmem : (k.2, i) ∈ L k.1 := (inv.list _ _ _).2 hi
  have hin : i ∈ own k := List.mem_of_mem_head? (by rw [hi]; rfl)
  have huniq : ∀ t, (t, i) ∈ L k.1 → t = k.2 := by
    intro t ht
    have h := (inv.list _ _ _).1 ht
    have : i ∈ own (k.1, t) := List.mem_of_mem_head? (by rw [h]; rfl)
    have := inv.disj _ _ _ this hin
    rw [← this]
  have hty := inv.types k.1
  have hshort := inv.short k.1
  unfold anyZap
  simp only [change_good hg (u := 255) (by decide)]
  rw [if_neg (by omega), hd, inv.any, if_neg (List.ne_nil_of_mem hmem)]
  cases hL : L k.1 with
  | nil => rw [hL] at hmem; cases hmem
  | cons e l =>
    rw [hL] at hmem huniq hty hshort
    rw [List.map_cons, List.nodup_cons] at hty
    simp only
    by_cases he : e.2 = i
    · rw [if_pos he]
      have hek : e.1 = k.2 := huniq e.1 (by rw [← he]; exact List.mem_cons_self ..)
      refine ⟨l, rfl, List.sublist_cons_self .., fun t j => ?_⟩
      rw [List.mem_cons]
      constructor
      · intro h
        refine ⟨.inr h, ?_⟩
        intro ht
        exact hty.1 (List.mem_map.2 ⟨_, h, by rw [hek]; exact ht⟩)
      · rintro ⟨h | h, ht⟩
        · exact absurd (by rw [← hek, ← h]) ht
        · exact h
    · rw [if_neg he]
      have hml : (k.2, i) ∈ l := by
        rcases List.mem_cons.1 hmem with h | h
        · exact absurd (by rw [← h]) he
        · exact h
      have htake : l.take 65000 = l := by
        refine List.take_of_length_le ?_
        rw [List.length_cons] at hshort
        omega
      have hany : (l.take 65000).any (·.2 == i) = true := by
        rw [htake, List.any_eq_true]
        exact ⟨_, hml, by simp⟩
      rw [if_pos hany]
      have hsub : (l.eraseP (·.2 == i)).Sublist l := List.eraseP_sublist
      refine ⟨e :: l.eraseP (·.2 == i), by simp, hsub.cons_cons e, fun t j => ?_⟩
      have hee : e.1 ≠ k.2 := by
        intro h
        exact hty.1 (List.mem_map.2 ⟨_, hml, h.symm⟩)
      have key : ∀ (l : List (Nat × Nat)), (l.map (·.1)).Nodup → (∀ t, (t, i) ∈ l → t = k.2) → (k.2, i) ∈ l →
          ∀ t j, (t, j) ∈ l.eraseP (·.2 == i) ↔ (t, j) ∈ l ∧ t ≠ k.2 := by
        intro l
        induction l with
        | nil => intro _ _ h; cases h
        | cons x l ih =>
          intro h1 h2 h3 t j
          rw [List.map_cons, List.nodup_cons] at h1
          rw [List.eraseP_cons]
          by_cases hx : x.2 = i
          · have hb : (x.2 == i) = true := by simpa using hx
            have hxk : x.1 = k.2 := h2 x.1 (by rw [← hx]; exact List.mem_cons_self ..)
            simp only [hb, cond_true, List.mem_cons]
            constructor
            · intro h
              refine ⟨.inr h, fun ht => h1.1 (List.mem_map.2 ⟨_, h, by rw [hxk]; exact ht⟩)⟩
            · rintro ⟨h | h, ht⟩
              · exact absurd (by rw [← hxk, ← h]) ht
              · exact h
          · have hb : (x.2 == i) = false := by simpa using hx
            have hml : (k.2, i) ∈ l := by
              rcases List.mem_cons.1 h3 with h | h
              · exact absurd (by rw [← h]) hx
              · exact h
            have hxk : x.1 ≠ k.2 := fun h => h1.1 (List.mem_map.2 ⟨_, hml, h.symm⟩)
            simp only [hb, cond_false, List.mem_cons]
            rw [ih h1.2 (fun t ht => h2 t (List.mem_cons_of_mem _ ht)) hml]
            constructor
            · rintro (h | h)
              · exact ⟨.inl h, by rw [show t = x.1 by rw [← h]]; exact hxk⟩
              · exact ⟨.inr h.1, h.2⟩
            · rintro ⟨h | h, ht⟩
              · exact .inl h
              · exact .inr ⟨h, ht⟩
      have hk := key l hty.2 (fun t ht => huniq t (List.mem_cons_of_mem _ ht)) hml t j
      rw [List.mem_cons, List.mem_cons, hk]
      constructor
      · rintro (h | h)
        · exact ⟨.inl h, by rw [show t = e.1 by rw [← h]]; exact hee⟩
        · exact ⟨.inr h.1, h.2⟩
      · rintro ⟨h | h, ht⟩
        · exact .inl h
        · exact .inr ⟨h, ht⟩

/-- What a record changes. -/
def absAdd (A : Key → Option Ent) (k : Key) (r : Rec) (z : List UInt8) (auth : Bool) : Key → Option Ent :=
  match A k with
  | none => upd A k (some ⟨auth, [r], nsOf A k z⟩)
  | some e =>
    if e.auth = auth then upd A k (some { e with recs := insertRec k.2 e.recs r })
    else if e.auth = false then upd A k (some ⟨auth, [r], nsOf A k z⟩)
    else A

theorem add_ok (inv : Inv s A own L) {k : Key} (hg : Good k) (r : Rec) {z : List UInt8} (hz : 1 ≤ z.length)
    {auth : Bool} (ha : authority (enc k) (enc (z, 2)) = some auth)
    (hno : k.2 = 2 → auth = true → ∀ x e z', A x = some e → e.ns = some z' → (z', 2) ≠ k) :
    ∃ s' own' L', add s (enc k) r.1 r.2 (enc (z, 2)) = .ok (true, s') ∧ Inv s' (absAdd A k r z auth) own' L' := by
  have hsm := hg.small
  have hl := enc_length k
  have hlz := enc_length (z, 2)
  have hp := hg.pos
  have hz' : 1 ≤ (z, 2).1.length := hz
  unfold add absAdd
  rw [if_neg (by omega), rtype_good hg]
  simp only
  rw [if_neg (by have := hg.kind; omega), ha]
  simp only
  rw [inv.dict k (by omega) hg.kind.1]
  cases hA : A k with
  | none =>
    rw [(inv.none_iff k).1 hA]
    obtain ⟨s', own', L', h1, h2⟩ := putWithNs_ok inv hg hA r auth hz
    exact ⟨s', own', L', h1, h2⟩
  | some e =>
    have hpath := inv.path k e hA
    obtain ⟨i, l, hown⟩ : ∃ i l, own k = i :: l := by
      cases h : own k with
      | nil => exact absurd h hpath.ne
      | cons i l => exact ⟨i, l, rfl⟩
    obtain ⟨n, hn, hnl, _, hna, _⟩ := hpath.node i (by rw [hown]; exact List.mem_cons_self ..)
    have hhead : (own k).head? = some i := by rw [hown]; rfl
    simp only [hhead, Option.map_some, deref_some hn hnl, Res.ok_bind, hna]
    by_cases h1 : e.auth = auth
    · rw [if_pos h1, if_pos h1]
      obtain ⟨s', own', h2, h3⟩ := addRr_ok inv hA r
      rw [h1] at h2
      exact ⟨s', own', L, h2, h3⟩
    · rw [if_neg h1, if_neg h1]
      by_cases h2 : e.auth = false
      · rw [if_pos h2, if_pos h2]
        have hat : auth = true := by
          cases auth with
          | true => rfl
          | false => exact absurd h2 h1
        have hno' : ∀ x e z', A x = some e → e.ns = some z' → (z', 2) ≠ k := by
          intro x e' z' hx hz'' hk
          exact hno (by rw [← hk]) hat x e' z' hx hz'' hk
        have hk255 : enc (k.1, 255) ≠ enc k := by
          intro h
          have := enc_inj (by simp) (by omega) h
          exact hg.kind.1 (by rw [← this])
        obtain ⟨l', z1, z2, z3⟩ := anyZap_ok (s1 := s.set (enc k) none) inv hg hhead (set_dict_ne _ _ hk255)
        rw [z1, Res.ok_bind]
        simp only [Bool.true_eq_false, if_false]
        have inv1 := inv.drop (s' := { (s.set (enc k) none).set (enc (k.1, 255)) (if l' = [] then none else some (.list l')) with
          heap := s.heap.set i ⟨e.auth, n.ttl, n.type, n.data, n.next, false, n.query⟩ }) hno' hhead z2 z3 rfl rfl
        obtain ⟨s', own', L', e1, e2⟩ := putWithNs_ok inv1 hg (upd_same ..) r auth hz
        refine ⟨s', own', L', e1, ?_⟩
        have : upd (upd A k none) k (some ⟨auth, [r], nsOf (upd A k none) k z⟩) = upd A k (some ⟨auth, [r], nsOf A k z⟩) := by
          have hns : nsOf (upd A k none) k z = nsOf A k z := by
            unfold nsOf
            by_cases hk2 : k.2 = 2
            · simp [hk2]
            · rw [upd_ne _ _ (fun h => hk2 (by rw [← h]))]
          rw [hns]
          funext x
          by_cases hx : x = k
          · subst hx; rw [upd_same, upd_same]
          · rw [upd_ne _ _ hx, upd_ne _ _ hx, upd_ne _ _ hx]
        rw [← this]
        exact e2
      · rw [if_neg h2, if_neg h2]
        exact ⟨s, own, L, rfl, inv⟩

end Big
end Mara
