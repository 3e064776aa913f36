import Verif.Interop.CarryProps
import Verif.Spec.Portable
/-!
# From the authoritative server to the resolver: the records of the server
-/

namespace Interop
open Spec
open Dw.Dissect Dw.Incoming
open Mara.Server (Query Says Session)
open Mara.Big (Loadable)

/-- Of each name and type the order has the records of the shelf. -/
def Orders (sh : Shelf) (o : Order) : Prop := ∀ n t, (o n t).Perm (sh.own false n t)

theorem given_of {sh : Shelf} {gs : List Given} (has : sh.Has gs) {star : Bool} {n : Name} {t i : Nat} (hn : LabelsOk n)
    (hi : i ∈ sh.own star n t) : ∃ g ∈ gs, g.star = star ∧ g.name = n ∧ g.type = t ∧ (sh.item i).name = n ∧ (sh.item i).type = t ∧
      (sh.item i).rdata = g.data ∧ (sh.item i).ttl = g.ttl := by
  have hm : ((sh.item i).name, (sh.item i).type, (sh.item i).rdata, (sh.item i).ttl) ∈ (Given.sets gs star n t).map fun x => (n, x) := by
    rw [← has.recs star n t hn]
    exact List.mem_map.2 ⟨i, hi, rfl⟩
  obtain ⟨x, hx, e⟩ := List.mem_map.1 hm
  unfold Given.sets at hx
  obtain ⟨g, hg, rfl⟩ := List.mem_map.1 hx
  have hg' : g ∈ Given.kept gs star n t := by
    split at hg
    · rcases List.mem_append.1 hg with h | h
      · exact List.mem_of_mem_take h
      · exact List.mem_of_mem_drop (List.mem_reverse.1 h)
    · exact hg
  have hg2 : g ∈ gs.filter (Given.at? star n t) := by
    unfold Given.kept at hg'
    dsimp only at hg'
    split at hg'
    · exact List.mem_of_mem_filter hg'
    · exact hg'
  obtain ⟨h1, h2⟩ := List.mem_filter.1 hg2
  unfold Given.at? at h2
  obtain ⟨a, b, c⟩ := of_decide_eq_true h2
  simp only [Prod.mk.injEq] at e
  exact ⟨g, h1, a, b, c, e.1.symm, by rw [← e.2.1, c], e.2.2.1.symm, e.2.2.2.symm⟩

theorem light_item {sh : Shelf} {gs : List Given} (has : sh.Has gs) (port : ∀ g ∈ gs, g.Portable) {star : Bool} {n : Name} {t i : Nat}
    (hn : LabelsOk n) (hi : i ∈ sh.own star n t) : Light (sh.item i) := by
  obtain ⟨g, hg, -, h2, h3, h4, h5, h6, h7⟩ := given_of has hn hi
  obtain ⟨s1, s2⟩ := has.ok star n t hn i hi
  have p := port g hg
  exact ⟨s1, by rw [h4, ← h2]; exact p.name, p.names _ s1 (h5.trans h3.symm) h6, by rw [h7]; exact p.ttl,
    fun e => by rw [h6]; exact p.aaaa (by rw [h3, ← h5]; exact e), s2⟩

/-- A record of the server. -/
def Owned (sh : Shelf) (i : Nat) : Prop := ∃ star n t, LabelsOk n ∧ i ∈ sh.own star n t

theorem Owned.light {sh : Shelf} {gs : List Given} (has : sh.Has gs) (port : ∀ g ∈ gs, g.Portable) {i : Nat} (h : Owned sh i) :
    Light (sh.item i) := by
  obtain ⟨star, n, t, h1, h2⟩ := h
  exact light_item has port h1 h2

theorem owned_host {sh : Shelf} {gs : List Given} (has : sh.Has gs) {i : Nat} (h : Owned sh i) : LabelsOk (sh.host i) := by
  obtain ⟨star, n, t, h1, h2⟩ := h
  have := (has.ok star n t h1 i h2).1
  unfold Shelf.host
  cases hn : (sh.item i).names with
  | nil => intro l hl; cases hl
  | cons x l => exact (this.names x (by rw [hn]; simp)).1

theorem fromFirst_sub {sh : Shelf} {o : Order} {n : Name} {t j : Nat} (h : j ∈ sh.fromFirst o n t) : j ∈ o n t := by
  unfold Shelf.fromFirst at h
  split at h
  · cases h
  · exact (List.dropWhile_sublist _).subset h

theorem owned_hosts {sh : Shelf} {gs : List Given} (has : sh.Has gs) {o : Order} (ho : Orders sh o) {v6 : Bool} {i : Nat} (h : Owned sh i)
    {g : List Nat} (hg : g ∈ sh.hosts v6 o i) {j : Nat} (hj : j ∈ g) : Owned sh j := by
  have key : ∀ u, j ∈ sh.addresses o u i → Owned sh j := by
    intro u hu
    unfold Shelf.addresses at hu
    split at hu
    · exact ⟨false, _, u, owned_host has h, (ho _ _).mem_iff.1 (fromFirst_sub hu)⟩
    · cases hu
  unfold Shelf.hosts at hg
  split at hg
  · cases hg
  · rcases List.mem_cons.1 hg with rfl | hg
    · exact key 1 hj
    · split at hg
      · rw [List.mem_singleton] at hg
        subst hg
        exact key 28 hj
      · cases hg

theorem orders_next {sh : Shelf} {o : Order} (ho : Orders sh o) (lim : Limits) (n : Name) (u t : Nat) : Orders sh (o.next lim n u t) := by
  intro n' t'
  unfold Order.next
  split
  · unfold Order.turn
    split
    · rename_i h
      rw [h.1, h.2]
      refine List.Perm.trans ?_ (ho n u)
      cases o n u with
      | nil => exact .refl _
      | cons x l => unfold toBack; exact List.perm_append_singleton x l
    · exact ho _ _
  · exact ho _ _

/-- What has records has records on the shelf. -/
theorem own_some {sh : Shelf} {gs : List Given} (has : sh.Has gs) {star : Bool} {n : Name} {t : Nat} (hn : LabelsOk n)
    (h : gs.any (Given.at? star n t) = true) : sh.own star n t ≠ [] := by
  intro e
  have hm := has.recs star n t hn
  rw [e, List.map_nil] at hm
  have h1 := List.map_eq_nil_iff.1 hm.symm
  unfold Given.sets at h1
  have h2 : Given.kept gs star n t = [] := by
    rw [List.map_eq_nil_iff] at h1
    split at h1
    · rcases List.append_eq_nil_iff.1 h1 with ⟨a, -⟩
      rcases List.take_eq_nil_iff.1 a with a | a
      · cases a
      · exact a
    · exact h1
  obtain ⟨g, hg, hga⟩ := List.any_eq_true.1 h
  have hf : g ∈ gs.filter (Given.at? star n t) := List.mem_filter.2 ⟨hg, hga⟩
  unfold Given.kept at h2
  dsimp only at h2
  split at h2
  · rename_i ha
    obtain ⟨d, hd, hdd⟩ := List.any_eq_true.1 ha
    have : d ∈ (gs.filter (Given.at? star n t)).filter Given.decided := List.mem_filter.2 ⟨hd, hdd⟩
    rw [h2] at this
    cases this
  · rw [h2] at hf
    cases hf

theorem servers_owned {sh : Shelf} {gs : List Given} (hl : Loadable gs) {star : Bool} {n : Name} {t i : Nat} (h : i ∈ sh.servers gs star n t) : Owned sh i := by
  unfold Shelf.servers at h
  split at h
  · cases h
  · rename_i z hz
    refine ⟨false, z, 2, ?_, h⟩
    unfold Given.homeOf at hz
    dsimp only at hz
    split at hz
    · cases hz
    · rename_i g hg
      split at hz
      · injection hz with hz
        subst hz
        exact (hl.fit g (List.mem_of_find?_eq_some hg)).zone.1
      · cases hz

theorem sh_leads_owned {sh : Shelf} {gs : List Given} (has : sh.Has gs) {o : Order} (ho : Orders sh o) {t i : Nat} (h : Owned sh i) {j : Nat}
    (hj : j ∈ sh.leads o t i) : Owned sh j := by
  unfold Shelf.leads at hj
  split at hj
  · exact ⟨false, _, t, owned_host has h, (ho _ _).mem_iff.1 (fromFirst_sub (List.mem_of_mem_take hj))⟩
  · cases hj

/-- All that is shown are records of the server. -/
theorem shown_owned {sh : Shelf} {gs : List Given} (hl : Loadable gs) (has : sh.Has gs) {o : Order} (ho : Orders sh o) {lim : Limits} {n : Name} (hn : LabelsOk n)
    {u t a b : Nat} {an ns ar : List Nat} (h : (sh.source gs lim o n u t).Shown a b an ns ar) :
    (∀ i ∈ an, Owned sh i) ∧ (∀ i ∈ ns, Owned sh i) ∧ (∀ i ∈ ar, Owned sh i) := by
  have hans : ∀ i ∈ sh.answers gs o n u t, Owned sh i := by
    intro i hi
    unfold Shelf.answers at hi
    split at hi
    · rcases List.mem_append.1 hi with h | h
      · exact ⟨false, n, u, hn, (ho _ _).mem_iff.1 h⟩
      · exact servers_owned hl h
    · split at hi
      · cases hi
      · exact ⟨false, n, u, hn, (ho _ _).mem_iff.1 hi⟩
  have hoth : ∀ i ∈ sh.others gs o n u t, Owned sh i := by
    intro i hi
    unfold Shelf.others at hi
    split at hi
    · cases hi
    · split at hi
      · exact ⟨false, n, u, hn, (ho _ _).mem_iff.1 hi⟩
      · exact servers_owned hl hi
  have h1 := h.an
  have h2 := h.ns
  refine ⟨?_, ?_, ?_⟩
  · intro i hi
    rw [h1] at hi
    obtain ⟨x, hx, hi⟩ := List.mem_flatMap.1 hi
    have hx' := hans x (List.mem_of_mem_take hx)
    rcases List.mem_cons.1 hi with rfl | hi
    · exact hx'
    · exact sh_leads_owned has ho hx' hi
  · intro i hi
    rw [h2] at hi
    exact hoth i (List.mem_of_mem_take hi)
  · intro j hj
    obtain ⟨i, hi, g, hg, hjg⟩ := h.from_ j hj
    have hi' : Owned sh i := by
      rcases List.mem_append.1 hi with hi | hi
      · exact hans i (List.mem_of_mem_take hi)
      · exact hoth i (List.mem_of_mem_take hi)
    refine owned_hosts has ?_ hi' hg hjg
    split
    · exact ho
    · exact orders_next ho lim n u t

end Interop
