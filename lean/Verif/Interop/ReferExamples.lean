import Verif.Interop.KeptExamples
import Verif.Interop.Refer
/-!
# From the authoritative server to the resolver: delegations, examples
-/

namespace Interop
open Spec
open Dw (DwStr)
open Dw.Dissect Dw.Incoming
open Mara.Server
open Mara.Big (Loadable)

/-- The zone `c.` with a name server `n.c.`, and the zone `s.c.` below it that is delegated to `x.s.c.` and `y.s.c.`; there is an address of the
first of these. -/
def exSub : List Given :=
  [exAt false [[99]] 2 [1, 110, 1, 99, 0], exAt false [[99]] 6 ([1, 110, 1, 99, 0] ++ [1, 109, 1, 99, 0] ++ List.replicate 20 1),
   exAt false [[110], [99]] 1 [10, 0, 0, 9], exAt false [[115], [99]] 2 [1, 120, 1, 115, 1, 99, 0],
   exAt false [[115], [99]] 2 [1, 121, 1, 115, 1, 99, 0], exAt false [[120], [115], [99]] 1 [10, 0, 0, 7]]

theorem exSub_loadable : Loadable exSub where
  fit g hg := by
    simp only [exSub, exAt, List.mem_cons, List.not_mem_nil, or_false] at hg
    rcases hg with rfl | rfl | rfl | rfl | rfl | rfl <;>
      exact ⟨⟨by unfold LabelsOk; decide, by decide⟩, ⟨by unfold LabelsOk; decide, by decide⟩, by decide,
        ⟨by decide, by decide, by decide, by decide⟩⟩
  nsFirst := by unfold exSub exAt; decide

theorem exSub_tidy : Given.Tidy exSub where
  send g hg := by
    simp only [exSub, List.mem_cons, List.not_mem_nil, or_false] at hg
    rcases hg with rfl | rfl | rfl | rfl | rfl | rfl
    · exact sendable_of [] [[[110], [99]]] [] (by decide +kernel)
    · exact sendable_of [] [[[110], [99]], [[109], [99]]] (List.replicate 20 1) (by decide +kernel)
    · exact sendable_of [] [] [10, 0, 0, 9] (by decide +kernel)
    · exact sendable_of [] [[[120], [115], [99]]] [] (by decide +kernel)
    · exact sendable_of [] [[[121], [115], [99]]] [] (by decide +kernel)
    · exact sendable_of [] [] [10, 0, 0, 7] (by decide +kernel)
  mx g hg := by
    simp only [exSub, List.mem_cons, List.not_mem_nil, or_false] at hg
    rcases hg with rfl | rfl | rfl | rfl | rfl | rfl <;> intro h <;> exact absurd h (by decide)
  ns g hg := by
    simp only [exSub, List.mem_cons, List.not_mem_nil, or_false] at hg
    rcases hg with rfl | rfl | rfl | rfl | rfl | rfl <;> intro h <;> first | exact absurd h (by decide) | exact ⟨not_address (.inr (.inr (by decide))), not_address (.inr (.inr (by decide)))⟩
  off := by unfold exSub exAt Given.bytesOf; decide
  few n := by
    have := List.length_filter_le (fun g : Given => decide (g.star = false ∧ g.name = n)) exSub
    have e : exSub.length = 6 := rfl
    omega

theorem exSub_portable : ∀ g ∈ exSub, g.Portable := by
  intro g hg
  have : ∀ g ∈ exSub, g.name.length < 100 ∧ g.data.length ≤ 100 ∧ g.ttl < 2147483648 ∧ (g.type = 28 → 16 ≤ g.data.length) := by decide +kernel
  obtain ⟨a, b, c, d⟩ := this g hg
  exact portable_of a b c d

-- what there is for the address of `W.s.c.`
theorem exSub_reply : (Given.places exSub).reply (lowName [[87], [115], [99]]) 1 = .referral (false, [[115], [99]], 2) := by rfl

example := resolver_referred exSub_loadable exSub_tidy exSub_portable (by decide +kernel) false

-- the zone is below that of the servers asked, and the name is that of none of the name servers
example : exResolver.up = false ∧ Under [[115], [99]] exResolver.zone ∧ Askable [[87], [115], [99]] 1 ∧
    ∀ h ∈ [[[120], [115], [99]], [[121], [115], [99]]], ¬ SameName [[87], [115], [99]] h :=
  ⟨rfl, by decide, ⟨by unfold NameOk LabelsOk; decide, by decide, by decide, by decide⟩, by decide⟩

/-- The reply of the server to a question, and what the resolver makes of it. -/
def exRefer (ps : List (Name × Nat)) : List (Option (List UInt8 × Dw.Res Received)) :=
  (exAsk exSub ps).map fun r => r.map fun c => (c, cacheDnsReply exTimes false (fun _ => false) exResolver.ns false (c ++ [9, 9, 9]) c.length [])

/-- What is then kept, and whom to ask. -/
def exReferred (ps : List (Name × Nat)) : List (Option (List UInt8 × List UInt8 × Int × List UInt8)) :=
  (exRefer ps).map fun
    | some (_, .ok (.step ⟨[p], some l, none⟩)) => some (p.key, p.value, p.ttl, l)
    | _ => none

/-- **C110.** Asked for an address of `W.s.c.`, the resolver goes on with the two name servers of `s.c.`, the one with its address and the other
by its name. -/
theorem refer_run :
    let l := referral (encName [[115], [99]]) (referees [[99]] [[87], [115], [99]] [exRec [[115], [99]] 2 [[[120], [115], [99]]] [], exRec [[115], [99]] 2 [[[121], [115], [99]]] []] [exRec [[120], [115], [99]] 1 [] [10, 0, 0, 7]])
    exReferred [([[87], [115], [99]], 1)] = [some (encName [[115], [99]] ++ be16 65395, l, 3600, l)] := by
  decide +kernel

-- the list, written out
example : referral (encName [[115], [99]]) (referees [[99]] [[87], [115], [99]] [exRec [[115], [99]] 2 [[[120], [115], [99]]] [], exRec [[115], [99]] 2 [[[121], [115], [99]]] []] [exRec [[120], [115], [99]] 1 [] [10, 0, 0, 7]]) =
    [1, 115, 1, 99, 0, 1, 10, 0, 0, 7, 2, 0, 7, 1, 121, 1, 115, 1, 99, 0, 0, 5, 0, 10, 2, 16] := by
  decide +kernel

-- the reply is usable and has name servers
example : ((exRefer [([[87], [115], [99]], 1)]).map fun r => r.map fun (c, _) => (c.getD 2 0, c.getD 3 0, c.getD 9 0, c.getD 11 0)) = [some (129, 0, 2, 1)] := by
  decide +kernel

end Interop
