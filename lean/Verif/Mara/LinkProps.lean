import Verif.Mara.ServerStep
/-!
# C88: the pointers from records to the addresses of the hosts they name
-/

namespace Mara
namespace Server

open Dw (Res)
open Spec
open Big (Key enc base Cell)

/-- **C88.** After the zones have been read, in whatever order the names are visited, every record is in
memory as it was given; if it names a host (NS, MX) it has pointers to the first of the addresses of this
very host that were given, and none if there are none; if it is an alias it leads to the records of the
name it is an alias for, by their types; other records have no pointers. -/
theorem links_right {gs : List Given} (hl : Big.Loadable gs) (ht : Given.Tidy gs) (v6 : Bool) :
    ∃ s, Big.load gs Big.empty = .ok s ∧ ∃ sh : Shelf, sh.Has gs ∧
      ∀ ks, (∀ q, q ∈ ks ↔ (s.dict q).isSome = true) →
      ∃ l, Big.addAn v6 ks ⟨s, fun _ => {}⟩ = .ok l ∧ l.store = s ∧
      ∀ (junk : Nat → Reply.Node) (star : Bool) (n : Name) (t : Nat), LabelsOk n → ∀ i ∈ sh.own star n t,
        ∃ p, (l.heap junk)[i]? = some p ∧ p.data = (sh.item i).rdata ∧ p.ttl = (sh.item i).ttl ∧ p.type = t ∧
          p.ip = (if t = 2 ∨ t = 15 then (sh.own false (sh.host i) 1).head? else none) ∧
          p.ip6 = (if (t = 2 ∨ t = 15) ∧ v6 = true then (sh.own false (sh.host i) 28).head? else none) ∧
          (t = 5 → ∀ u, u < 65536 → Reply.onList u p.list = (sh.own false (sh.host i) u).head?) ∧
          (t ≠ 5 → ∀ u j, (u, some j) ∉ p.list) := by
  obtain ⟨s, A, own, L, h1, inv, ag⟩ := Big.load_inv gs hl
  obtain ⟨item, hso, hit⟩ := items inv ag ht
  refine ⟨s, h1, (worldOf item A own).shelf, shelf_has inv ag hit, fun ks hks => ?_⟩
  obtain ⟨f, hf, hlk⟩ := Big.addAn_eq inv (hosts_of inv ag ht) v6 hks
  refine ⟨_, hf, rfl, fun junk star n t hn i hi => ?_⟩
  have st := stands hl ht inv ag hso hit v6 hlk junk
  obtain ⟨p, hp, lk⟩ := st.looks (base star n, t) i hi
  exact ⟨p, hp, lk.data, lk.ttl, lk.type, lk.ip, lk.ip6, lk.led, fun hne u j hm => hne (lk.onlist u j hm).1⟩

/-! ## A zone -/

/-- The record as it is sent. -/
def exSend (g : Given) (lead : List UInt8) (names : List (List (List UInt8))) (tail : List UInt8) : Rec :=
  ⟨g.name, g.type, be16 1, g.ttl, lead, names, tail⟩

/-- Can it be sent like that? -/
def exCheck (g : Given) (lead : List UInt8) (names : List Name) (tail : List UInt8) : Bool :=
  let r := exSend g lead names tail
  let nameOk (n : Name) : Bool := decide (∀ l ∈ n, 1 ≤ l.length ∧ l.length ≤ 63) && decide ((encName n).length ≤ 255)
  decide (r.type < 65536 ∧ r.ttl < 4294967295 ∧ r.rdata.length < 65536 ∧
    (r.lead.length, r.names.length, r.tail.length) = (rdLayout r.type).getD (0, 0, r.tail.length) ∧ r.rdata = g.data ∧
    (r.type = 1 → tail.length = 4)) &&
  nameOk g.name && names.all nameOk && (g.type != 16 || match tail with | n :: rest => decide (n.toNat ≤ rest.length) | [] => false)

theorem sendable_of {g : Given} (lead : List UInt8) (names : List Name) (tail : List UInt8) (h : exCheck g lead names tail = true) : g.Sendable := by
  unfold exCheck at h
  simp only [Bool.and_eq_true, decide_eq_true_iff, List.all_eq_true, Bool.or_eq_true, bne_iff_ne] at h
  obtain ⟨⟨⟨⟨h1, h2, h3, h4, h5, h6⟩, h7⟩, h8⟩, h9⟩ := h
  refine ⟨exSend g lead names tail, ⟨⟨h1, rfl, by omega, h3, h4⟩, h7, fun n hn => h8 n hn, by omega, h6, fun h16 => ?_⟩, rfl, rfl, rfl, rfl, h5⟩
  have h16 : g.type = 16 := h16
  cases tail with
  | nil =>
    rcases h9 with h9 | h9
    · exact absurd h16 h9
    · cases h9
  | cons n rest =>
    rcases h9 with h9 | h9
    · exact absurd h16 h9
    · exact ⟨n, rest, rfl, by simpa using h9⟩

def exAt (star : Bool) (n : Name) (t : Nat) (d : List UInt8) : Given := ⟨star, n, t, d, 3600, [[99]]⟩

/-- The zone `c.` with a name server `n.c.`, addresses for it and for `a.c.`, a mail exchanger, an alias and a star
record. -/
def exHost : List Given :=
  [exAt false [[99]] 2 [1, 110, 1, 99, 0], exAt false [[99]] 6 ([1, 110, 1, 99, 0] ++ [1, 109, 1, 99, 0] ++ List.replicate 20 1),
   exAt false [[110], [99]] 1 [10, 0, 0, 9], exAt false [[97], [99]] 1 [10, 0, 0, 1], exAt false [[97], [99]] 1 [10, 0, 0, 2],
   exAt false [[99]] 15 [0, 10, 1, 97, 1, 99, 0], exAt false [[119], [99]] 5 [1, 97, 1, 99, 0], exAt true [[99]] 16 [2, 104, 105]]

theorem exHost_loadable : Big.Loadable exHost where
  fit g hg := by
    simp only [exHost, exAt, List.mem_cons, List.not_mem_nil, or_false] at hg
    rcases hg with rfl | rfl | rfl | rfl | rfl | rfl | rfl | rfl <;>
      exact ⟨⟨by unfold LabelsOk; decide, by decide⟩, ⟨by unfold LabelsOk; decide, by decide⟩, by decide,
        ⟨by decide, by decide, by decide, by decide⟩⟩
  nsFirst := by unfold exHost exAt; decide

/-- Bytes that begin with a length above three are no address. -/
theorem not_address {x : UInt8} {d : List UInt8} (h : 3 < x ∨ d = [] ∨ 57 < d.headD 0) : ¬ BeginsAsAddress (x :: d) := by
  rintro ⟨n, ⟨h1, h2⟩, h3⟩
  match n, h1 with
  | [a, b, c, e], _ =>
    obtain ⟨r, hr⟩ := h3
    obtain ⟨g1, g2, g3⟩ := h2 a (by simp)
    match a, g1, g2, g3 with
    | y :: a, _, g2, g3 =>
      have hy := g3 y (by simp)
      simp only [encName, encLabels, List.flatMap_cons, List.cons_append, List.append_assoc, List.cons.injEq] at hr
      obtain ⟨e1, e2⟩ := hr
      rcases h with h | h | h
      · rw [← e1] at h
        simp only [List.length_cons] at h g2
        have : a.length + 1 = 1 ∨ a.length + 1 = 2 ∨ a.length + 1 = 3 := by omega
        rcases this with e | e | e <;> rw [e] at h <;> revert h <;> decide
      · rw [h] at e2
        simp at e2
      · match d with
        | [] => simp at h
        | z :: d =>
          simp only [List.cons_append, List.cons.injEq] at e2
          rw [← e2.1] at h
          have := hy.2
          simp only [List.headD_cons] at h
          rw [UInt8.lt_iff_toNat_lt] at h
          rw [UInt8.le_iff_toNat_le] at this
          omega

theorem exHost_tidy : Given.Tidy exHost where
  send g hg := by
    simp only [exHost, List.mem_cons, List.not_mem_nil, or_false] at hg
    rcases hg with rfl | rfl | rfl | rfl | rfl | rfl | rfl | rfl
    · exact sendable_of [] [[[110], [99]]] [] (by decide +kernel)
    · exact sendable_of [] [[[110], [99]], [[109], [99]]] (List.replicate 20 1) (by decide +kernel)
    · exact sendable_of [] [] [10, 0, 0, 9] (by decide +kernel)
    · exact sendable_of [] [] [10, 0, 0, 1] (by decide +kernel)
    · exact sendable_of [] [] [10, 0, 0, 2] (by decide +kernel)
    · exact sendable_of [0, 10] [[[97], [99]]] [] (by decide +kernel)
    · exact sendable_of [] [[[97], [99]]] [] (by decide +kernel)
    · exact sendable_of [] [] [2, 104, 105] (by decide +kernel)
  mx g hg := by
    simp only [exHost, List.mem_cons, List.not_mem_nil, or_false] at hg
    rcases hg with rfl | rfl | rfl | rfl | rfl | rfl | rfl | rfl <;> intro h <;> first | exact absurd h (by decide) | exact not_address (.inr (.inr (by decide)))
  ns g hg := by
    simp only [exHost, List.mem_cons, List.not_mem_nil, or_false] at hg
    rcases hg with rfl | rfl | rfl | rfl | rfl | rfl | rfl | rfl <;> intro h <;> first | exact absurd h (by decide) | exact ⟨not_address (.inr (.inr (by decide))), not_address (.inr (.inr (by decide)))⟩
  off := by unfold exHost exAt Given.bytesOf; decide
  few n := by
    have := List.length_filter_le (fun g : Given => decide (g.star = false ∧ g.name = n)) exHost
    have e : exHost.length = 8 := rfl
    omega

example := links_right exHost_loadable exHost_tidy true

/-! ## What goes wrong -/

/-- The keys for the name `c.`, type `t`. -/
def exC (t : UInt8) : List UInt8 := [1, 99, 0, 0, t]

/-- The zone `c.` with the name server `a.c.`, addresses for `c.` and `a.c.`, and a mail exchanger. -/
def exOff : List Given :=
  [exAt false [[99]] 2 [1, 97, 1, 99, 0], exAt false [[99]] 1 [10, 0, 0, 1], exAt false [[97], [99]] 1 [10, 0, 0, 2],
   exAt false [[99]] 15 [0, 10, 1, 97, 1, 99, 0]]

/-- The addresses to which the pointers of the NS and the MX record of `c.` lead. -/
def exAddrs (ks : List (List UInt8)) : Option (List (Option (List UInt8))) :=
  match Big.load exOff Big.empty with
  | .ok s =>
    match Big.addAn false ks ⟨s, fun _ => {}⟩ with
    | .ok l => some (([2, 15] : List UInt8).map fun t =>
        match l.store.dict (exC t) with
        | some (.rr i) => ((l.links i).ip).map (Big.dataAt l.store)
        | _ => none)
    | _ => none
  | _ => none

/-- **C88, what goes wrong.** The name servers of a zone are at the end of the chain of its mail exchangers, and are
taken for mail exchangers: two bytes of their data are left out.  So the name server `a.c.` gets the address of
`c.` (10.0.0.1), if the mail exchangers are visited after the name servers; in the other order it
gets its own (10.0.0.2).  Which it is depends on the hash function. -/
theorem off_by_two :
    exAddrs [exC 2, exC 15] = some [some [10, 0, 0, 1], some [10, 0, 0, 2]] ∧
    exAddrs [exC 15, exC 2] = some [some [10, 0, 0, 2], some [10, 0, 0, 2]] := by
  decide +kernel

end Server
end Mara
