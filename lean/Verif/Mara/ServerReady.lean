import Verif.Mara.ServerTurn
import Verif.Mara.StarSent
import Verif.Mara.LookupProps
/-!
# Lemmas: the server between two questions
-/

namespace Mara
namespace Server

open Dw (Res)
open Spec
open Big (Key enc base Cell)
open Reply (Chain Closed SameOn Heap Node toEnd)

/-- The key of a place. -/
def keyOf (x : Bool × Name × Nat) : List UInt8 := enc (base x.1 x.2.1, x.2.2)

/-- What is found in the zone, under other names. -/
def mapZone {ρ σ : Type} (f : ρ → σ) (z : Zone ρ) : Zone σ where
  rr n t := (z.rr n t).map fun v => (v.1, f v.2)
  star n t := (z.star n t).map f
  exists? := z.exists?
  starExists := z.starExists

def mapReply {ρ σ : Type} (f : ρ → σ) : Spec.Reply ρ → Spec.Reply σ
  | .records r => .records (f r)
  | .referral r => .referral (f r)
  | .wildcard r u => .wildcard (f r) u
  | .noData r => .noData (f r)
  | .nxDomain r => .nxDomain (f r)
  | .refused => .refused
  | .failure => .failure

theorem findSome_map {α β γ : Type} (g : α → Option β) (f : β → γ) : ∀ l : List α,
    (l.findSome? fun a => (g a).map f) = (l.findSome? g).map f
  | [] => rfl
  | a :: l => by
    rw [List.findSome?_cons, List.findSome?_cons, findSome_map g f l]
    cases g a <;> rfl

theorem mapZone_ns {ρ σ : Type} (f : ρ → σ) (z : Zone ρ) (n : Name) :
    (mapZone f z).closestNs n = (z.closestNs n).map fun v => (v.1, v.2.1, f v.2.2) := by
  unfold Zone.closestNs
  rw [← findSome_map]
  congr 1
  funext s
  unfold mapZone
  dsimp only
  cases z.rr s 2 <;> rfl

theorem mapZone_wild {ρ σ : Type} (f : ρ → σ) (z : Zone ρ) (n : Name) (t : Nat) :
    (mapZone f z).wildcardFor n t = (z.wildcardFor n t).map fun v => (f v.1, v.2) := by
  unfold Zone.wildcardFor
  have e : ((upward n.tail).findSome? fun s => ((mapZone f z).star s t).map (·, t)) =
      ((upward n.tail).findSome? fun s => (z.star s t).map (·, t)).map fun v => (f v.1, v.2) := by
    rw [← findSome_map]
    congr 1
    funext s
    unfold mapZone
    dsimp only
    cases z.star s t <;> rfl
  have e2 : ((mapZone f z).star n.tail 5).map (·, 5) = ((z.star n.tail 5).map (·, 5)).map fun v : ρ × Nat => (f v.1, v.2) := by
    unfold mapZone
    dsimp only
    cases z.star n.tail 5 <;> rfl
  rw [e, e2]
  cases (upward n.tail).findSome? fun s => (z.star s t).map (·, t) <;> rfl

theorem mapZone_reply {ρ σ : Type} (f : ρ → σ) (z : Zone ρ) (n : Name) (t : Nat) :
    (mapZone f z).reply n t = mapReply f (z.reply n t) := by
  unfold Zone.reply
  rw [mapZone_ns, mapZone_wild]
  have e1 : ((mapZone f z).rr n t).or ((mapZone f z).rr n 5) = ((z.rr n t).or (z.rr n 5)).map fun v => (v.1, f v.2) := by
    unfold mapZone
    dsimp only
    cases z.rr n t <;> rfl
  have e2 : (mapZone f z).exists? = z.exists? := rfl
  have e3 : (mapZone f z).covered n = z.covered n := rfl
  rw [e1, e2, e3]
  cases h1 : (z.rr n t).or (z.rr n 5) with
  | some v => rfl
  | none =>
    have hsoa : ∀ apex : Name, (mapZone f z).rr apex 6 = (z.rr apex 6).map fun v => (v.1, f v.2) := fun _ => rfl
    rcases h2 : z.closestNs n with _ | ⟨apex, a, r⟩
    · cases he : z.exists? n
      · cases hw : z.wildcardFor n t <;> simp [mapReply]
      · simp [mapReply]
    · cases a with
      | false => rfl
      | true =>
        cases he : z.exists? n
        · cases hw : z.wildcardFor n t
          · simp only [Option.map_none, Option.map_some, Bool.false_eq_true, if_false, hsoa]
            cases z.rr apex 6
            · rfl
            · simp only [Option.map_some, false_or]
              split <;> rfl
          · simp [mapReply]
        · simp only [Option.map_none, Option.map_some, if_true, hsoa]
          cases z.rr apex 6
          · rfl
          · simp only [Option.map_some, true_or, if_true]
            rfl

/-- What is said is about something that is there. -/
theorem places_reply (gs : List Given) (n : Name) (t : Nat) :
    match (Given.places gs).reply n t with
    | .records x => ∃ u, (u = t ∨ u = 5) ∧ x = (false, n, u) ∧ gs.any (Given.at? false n u) = true
    | .referral x => ∃ m, x = (false, m, 2) ∧ gs.any (Given.at? false m 2) = true ∧ Given.mark gs false m 2 = false
    | .wildcard x u => ∃ m, x = (true, m, u) ∧ (u = t ∨ u = 5) ∧ gs.any (Given.at? true m u) = true
    | .noData x => ∃ m, x = (false, m, 6) ∧ gs.any (Given.at? false m 6) = true
    | .nxDomain x => ∃ m, x = (false, m, 6) ∧ gs.any (Given.at? false m 6) = true
    | .refused => True
    | .failure => True := by
  have hrr : ∀ m u v, (Given.places gs).rr m u = some v → v = (Given.mark gs false m u, false, m, u) ∧ gs.any (Given.at? false m u) = true := by
    intro m u v h
    unfold Given.places at h
    dsimp only at h
    split at h
    · rename_i hc
      injection h with h
      exact ⟨h.symm, hc⟩
    · cases h
  have hst : ∀ m u v, (Given.places gs).star m u = some v → v = (true, m, u) ∧ gs.any (Given.at? true m u) = true := by
    intro m u v h
    unfold Given.places at h
    dsimp only at h
    split at h
    · rename_i hc
      injection h with h
      exact ⟨h.symm, hc⟩
    · cases h
  have hns : ∀ v, (Given.places gs).closestNs n = some v → v.2 = (Given.mark gs false v.1 2, false, v.1, 2) ∧ gs.any (Given.at? false v.1 2) = true := by
    intro v h
    unfold Zone.closestNs at h
    obtain ⟨s, _, hs⟩ := List.exists_of_findSome?_eq_some h
    rw [Option.map_eq_some_iff] at hs
    obtain ⟨w, hw, rfl⟩ := hs
    exact hrr _ _ _ hw
  have hw : ∀ v, (Given.places gs).wildcardFor n t = some v → (v.2 = t ∨ v.2 = 5) ∧ ∃ m, v.1 = (true, m, v.2) ∧ gs.any (Given.at? true m v.2) = true := by
    intro v h
    unfold Zone.wildcardFor at h
    rw [Option.or_eq_some_iff] at h
    rcases h with h | ⟨_, h⟩
    · obtain ⟨s, _, hs⟩ := List.exists_of_findSome?_eq_some h
      rw [Option.map_eq_some_iff] at hs
      obtain ⟨w, hw, rfl⟩ := hs
      exact ⟨.inl rfl, s, hst _ _ _ hw⟩
    · rw [Option.map_eq_some_iff] at h
      obtain ⟨w, hw, rfl⟩ := h
      exact ⟨.inr rfl, n.tail, hst _ _ _ hw⟩
  unfold Zone.reply
  cases h1 : ((Given.places gs).rr n t).or ((Given.places gs).rr n 5) with
  | some v =>
    obtain ⟨a, r⟩ := v
    simp only []
    rw [Option.or_eq_some_iff] at h1
    rcases h1 with h1 | ⟨_, h1⟩
    · obtain ⟨h2, h3⟩ := hrr _ _ _ h1
      injection h2 with _ h2
      exact ⟨t, .inl rfl, h2, h3⟩
    · obtain ⟨h2, h3⟩ := hrr _ _ _ h1
      injection h2 with _ h2
      exact ⟨5, .inr rfl, h2, h3⟩
  | none =>
    rcases h2 : (Given.places gs).closestNs n with _ | ⟨apex, a, r⟩
    · simp only []
      cases he : (if (Given.places gs).exists? n = true then none else (Given.places gs).wildcardFor n t) with
      | none => trivial
      | some v =>
        obtain ⟨r, u⟩ := v
        simp only []
        split at he
        · cases he
        · obtain ⟨h3, m, h4, h5⟩ := hw _ he
          exact ⟨m, h4, h3, h5⟩
    · obtain ⟨h3, h4⟩ := hns _ h2
      simp only [Prod.mk.injEq] at h3 h4
      obtain ⟨h3, h5⟩ := h3
      cases a with
      | false => exact ⟨apex, h5, h4, h3.symm⟩
      | true =>
        simp only []
        cases he : (if (Given.places gs).exists? n = true then none else (Given.places gs).wildcardFor n t) with
        | none =>
          simp only []
          cases h6 : (Given.places gs).rr apex 6 with
          | none => trivial
          | some v =>
            obtain ⟨b, soa⟩ := v
            obtain ⟨h7, h8⟩ := hrr _ _ _ h6
            injection h7 with _ h7
            simp only []
            by_cases hc : (Given.places gs).exists? n = true ∨ (Given.places gs).covered n = true
            · rw [if_pos hc]
              exact ⟨apex, h7, h8⟩
            · rw [if_neg hc]
              exact ⟨apex, h7, h8⟩
        | some v =>
          obtain ⟨r, u⟩ := v
          simp only []
          split at he
          · cases he
          · obtain ⟨h3, m, h4, h5⟩ := hw _ he
            exact ⟨m, h4, h3, h5⟩

section
variable {W : World} {v6 : Bool} {o : Order} {s0 s : Srv} {gs : List Given}

/-- The records in memory are those given. -/
structure Fits (W : World) (gs : List Given) : Prop where
  own : ∀ star n t, LabelsOk n → (W.own (base star n, t) ≠ [] ↔ gs.any (Given.at? star n t) = true)
  auth : ∀ star n t, LabelsOk n → W.own (base star n, t) ≠ [] → W.auth (base star n, t) = Given.mark gs star n t
  tail : ∀ star n t, LabelsOk n → W.own (base star n, t) ≠ [] → W.tail (base star n, t) = W.shelf.servers gs star n t

/-- The server between two questions, with the records in the order `o`; `s0` is the server as it was when
it started. -/
structure Ready (W : World) (v6 : Bool) (s0 : Srv) (o : Order) (s : Srv) : Prop where
  mask : ∃ hm, Mask W v6 o hm ∧ SameOn W.Plain hm s.heap
  same : ∀ i, ¬ W.Plain i → s.heap[i]? = s0.heap[i]?
  dict : ∀ n t, LabelsOk n → W.own (encName n, t) ≠ [] → s.dict (enc (encName n, t)) = (o n t).head?.map Cell.rr
  star : ∀ n t, LabelsOk n → s.dict (enc (base true n, t)) = s0.dict (enc (base true n, t))
  hash : s.hash = s0.hash

theorem ready_start (st : Stands W v6 s0.heap s0.dict) : Ready W v6 s0 (fun n t => W.own (encName n, t)) s0 where
  mask := ⟨_, st.mask, masked_same W s0.heap⟩
  same _ _ := rfl
  dict n t hn hne := by
    have hg := st.good _ hne
    exact st.dict (encName n, t) (by have := hg.small; dsimp only at this ⊢; omega) hg.kind.1
  star _ _ _ := rfl
  hash := rfl

theorem plain_auth (st : Stands W v6 s0.heap s0.dict) {hm : Heap} (m : Mask W v6 o hm) {h : Heap} (hs : SameOn W.Plain hm h) {i : Nat} (hi : W.Plain i) :
    (h[i]?).map (·.auth) = (s0.heap[i]?).map (·.auth) := by
  rw [← hs.at_ i hi]
  obtain ⟨n, t, hn, hi⟩ := hi
  obtain ⟨p, hp, lk⟩ := m.looks n t hn i hi
  obtain ⟨q, hq, lk'⟩ := st.looks _ i hi
  rw [hp, hq, Option.map_some, Option.map_some, lk.auth, lk'.auth]

theorem hash_rr (s : Srv) {k : List UInt8} {i : Nat} (h : s.dict k = some (.rr i)) :
    s.hash k = ((s.heap[i]?).map (·.auth)).map fun a => .rr a k := by
  unfold Srv.hash
  cases hx : s.heap[i]? <;> simp [h, hx]

/-- What `udpsuccess` does keeps the server ready. -/
theorem Ready.step (st : Stands W v6 s0.heap s0.dict) (r : Ready W v6 s0 o s) {n : Name} {u : Nat} (hn : LabelsOk n) (hne : W.own (encName n, u) ≠ [])
    {o' : Order} (ho : ∀ n' t', ¬(n' = n ∧ t' = u) → o' n' t' = o n' t') {hm' h' : Heap} (m' : Mask W v6 o' hm') (hs : SameOn W.Plain hm' h')
    (hout : ∀ i, ¬ W.Plain i → h'[i]? = s.heap[i]?) {head : Nat} (hh : (o' n u).head? = some head) :
    Ready W v6 s0 o' ⟨h', fun q => if q = enc (encName n, u) then some (.rr head) else s.dict q⟩ := by
  have hu : u < 65536 := by have := (st.good _ hne).small; dsimp only at this; omega
  have hauth : ∀ i : Nat, (h'[i]?).map (·.auth) = (s.heap[i]?).map (·.auth) := by
    intro i
    by_cases hi : W.Plain i
    · obtain ⟨hm, m, hsm⟩ := r.mask
      rw [plain_auth st m' hs hi, plain_auth st m hsm hi]
    · rw [hout i hi]
  have hheads : ∀ {o : Order} {hm : Heap}, Mask W v6 o hm → ∀ {h : Heap}, SameOn W.Plain hm h → ∀ {i : Nat}, (o n u).head? = some i →
      (h[i]?).map (·.auth) = some (W.auth (encName n, u)) := by
    intro o hm m h hs i hi
    have hi := (m.perm n u hn).mem_iff.1 (List.mem_of_mem_head? hi)
    obtain ⟨p, hp, lk⟩ := m.looks n u hn i hi
    rw [← hs.at_ i ⟨n, u, hn, hi⟩, hp, Option.map_some, lk.auth]
  refine ⟨⟨hm', m', hs⟩, fun i hi => ?_, fun n' t' hn' hne' => ?_, fun n' t' hn' => ?_, ?_⟩
  · rw [hout i hi, r.same i hi]
  · dsimp only
    have ht' : t' < 65536 := by have := (st.good _ hne').small; dsimp only at this; omega
    by_cases hk : n' = n ∧ t' = u
    · obtain ⟨rfl, rfl⟩ := hk
      rw [if_pos rfl, hh]
      rfl
    · rw [if_neg, ho n' t' hk]
      · exact r.dict n' t' hn' hne'
      · intro e
        have := Big.enc_inj ht' hu e
        injection this with e1 e2
        exact hk ⟨(Big.base_inj (a := false) (b := false) hn' hn e1).2, e2⟩
  · dsimp only
    rw [if_neg]
    · exact r.star n' t' hn'
    · intro e
      have e : (base true n' ++ Lookup.u16 t') = (base false n ++ Lookup.u16 u) := e
      obtain ⟨e1, _⟩ := List.append_inj' e (by simp [Lookup.u16])
      have := Big.base_inj hn' hn e1
      cases this.1
  · rw [← r.hash]
    funext q
    by_cases hq : q = enc (encName n, u)
    · subst hq
      have hd := r.dict n u hn hne
      obtain ⟨hm, m, hsm⟩ := r.mask
      obtain ⟨f, l, e⟩ := m.first hn hne
      rw [e] at hd
      rw [hash_rr s hd, hheads m hsm (by rw [e]; rfl)]
      rw [hash_rr (i := head) _ (by dsimp only; rw [if_pos rfl]), hheads m' hs hh]
    · unfold Srv.hash
      dsimp only
      rw [if_neg hq]
      rcases hd : s.dict q with _ | ⟨⟩ | ⟨i⟩
      · rfl
      · rename_i i
        have := hauth i
        cases h1 : h'[i]? <;> cases h2 : s.heap[i]? <;> rw [h1, h2] at this <;> simp [h1, h2] at this ⊢
        exact this
      · rfl

end

end Server
end Mara
