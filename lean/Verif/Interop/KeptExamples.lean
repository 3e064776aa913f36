import Verif.Interop.KeptProps
import Verif.Mara.ServerExamples
import Verif.Deadwood.IncomingExamples
/-!
# C106: examples
-/

namespace Interop
open Spec
open Dw (DwStr)
open Dw.Dissect Dw.Incoming
open Mara.Server (exCfg exAsk exNode exPacket exArrives)
open Mara.Server (exHost exHost_loadable exHost_tidy)

/-- The data of a record is longer than each of its names has labels. -/
theorem names_short {r : Rec} : ∀ x ∈ r.names, x.length < r.rdata.length := by
  have h1 : ∀ x : Name, x.length < (encName x).length := by
    intro x
    induction x with
    | nil => decide
    | cons l x ih =>
      unfold encName at ih ⊢
      rw [encLabels_cons]
      simp only [List.length_append, List.length_cons] at ih ⊢
      omega
  have h2 : ∀ (l : List Name), ∀ x ∈ l, (encName x).length ≤ (l.flatMap encName).length := by
    intro l
    induction l with
    | nil => intro x hx; cases hx
    | cons y l ih =>
      intro x hx
      rw [List.flatMap_cons, List.length_append]
      rcases List.mem_cons.1 hx with rfl | hx
      · omega
      · have := ih x hx; omega
  intro x hx
  have := h1 x
  have := h2 r.names x hx
  unfold Rec.rdata
  simp only [List.length_append]
  omega

theorem portable_of {g : Given} (h1 : g.name.length < 100) (h2 : g.data.length ≤ 100) (h3 : g.ttl < 2147483648) (h4 : g.type = 28 → 16 ≤ g.data.length) :
    g.Portable where
  name := h1
  names r _ _ hd x hx := by have := names_short x hx; rw [hd] at this; omega
  ttl := h3
  aaaa := h4

theorem exHost_portable : ∀ g ∈ exHost, g.Portable := by
  intro g hg
  have : ∀ g ∈ exHost, g.name.length < 100 ∧ g.data.length ≤ 100 ∧ g.ttl < 2147483648 ∧ (g.type = 28 → 16 ≤ g.data.length) := by decide +kernel
  obtain ⟨a, b, c, d⟩ := this g hg
  exact portable_of a b c d

/-- A resolver that has asked the server of `c.`. -/
def exResolver : Resolver where
  cfg := exTimes
  filter := false
  blocked := fun _ => false
  ns := DwStr.ofBytes (encName [[99]] ++ [1, 10, 0, 0, 9, 0, 3, 1, 16])
  zone := [[99]]
  up := false
  spare := [9, 9, 9]
  junk := []
  asked := ⟨DwStr.ofBytes_usable (by decide), by unfold NameOk LabelsOk; decide, ⟨_, DwStr.ofBytes_contents _⟩⟩
  printable := by decide
  room := by decide

/-- Questions for the addresses of `a.c.` and of `A.C.`, something that is no question, the texts of `x.c.` and the
addresses of `z.`. -/
example : ∃ s, Mara.Big.load exHost Mara.Big.empty = .ok s ∧ ∃ sh : Shelf, sh.Has exHost ∧
    ∀ ks, (∀ q, q ∈ ks ↔ (s.dict q).isSome = true) → ∃ l, Mara.Big.addAn false ks ⟨s, fun _ => {}⟩ = .ok l ∧
    ∃ rs s', Mara.Server.serve exCfg [exPacket [[97], [99]] 1, exPacket [[65], [67]] 1, Mara.Server.exReplied, exPacket [[120], [99]] 16, exPacket [[122]] 1]
      (Mara.Server.start l fun _ => exNode) = .ok (rs, s') ∧
      ∀ c, rs[1]? = some (some c) → Usable c → Reaches exHost sh (Mara.Server.limits exCfg.reply) exResolver ⟨7, true, [[65], [67]], 1, false⟩ c := by
  obtain ⟨s, h1, sh, h2, h3⟩ := resolver_keeps exHost_loadable exHost_tidy exHost_portable false
  refine ⟨s, h1, sh, h2, fun ks hks => ?_⟩
  obtain ⟨l, h4, h5⟩ := h3 ks hks
  obtain ⟨rs, s', h6, h7⟩ := h5 (fun _ => exNode) exCfg Mara.Lookup.exUsual (by decide) (by decide) (by decide) rfl _ _ exArrives
  exact ⟨l, h4, rs, s', h6, fun c hc use => h7 1 _ c rfl hc (by decide) ⟨by unfold NameOk LabelsOk; decide, by decide, by decide, by decide⟩ use _⟩

-- what there is for the questions
example : (Given.places exHost).reply (lowName [[65], [67]]) 1 = .records (false, [[97], [99]], 1) ∧
    (Given.places exHost).reply (lowName [[119], [67]]) 1 = .records (false, [[119], [99]], 5) ∧
    (Given.places exHost).reply (lowName [[120], [99]]) 16 = .wildcard (true, [[99]], 16) 16 ∧
    (Given.places exHost).reply (lowName [[97], [99]]) 16 = .noData (false, [[99]], 6) := ⟨by rfl, by rfl, by rfl, by rfl⟩

/-! ## Runs: the replies of the server, handed to the resolver -/

/-- The replies to questions, one after the other, and what the resolver makes of them. -/
def exRelay (ps : List (Name × Nat)) : List (Dw.Res Received) :=
  (exAsk exHost ps).map fun r => cacheDnsReply exTimes false (fun _ => false) exResolver.ns false (r.getD [] ++ [9, 9, 9]) (r.getD []).length []

/-- What is then kept. -/
def exKept (ps : List (Name × Nat)) : List (Option (List UInt8 × List UInt8 × Int)) :=
  (exRelay ps).map fun
    | .ok (.step ⟨[p], none, none⟩) => some (p.key, p.value, p.ttl)
    | _ => none

/-- The records of `exHost` as the resolver has them. -/
def exRec (n : Name) (t : Nat) (names : List Name) (tail : List UInt8) : Rec := ⟨n, t, [0, 1], 3600, [], names, tail⟩

/-- **C106.** Two questions for the addresses of `a.c.` (the records take turns), one for those of its alias `w.c.`, one for the texts of
`x.c.` (a star record), and one for texts that `a.c.` does not have; for `z.` the server refuses, and nothing is kept. -/
theorem relay_run : exKept [([[65], [67]], 1), ([[97], [99]], 1), ([[119], [99]], 1), ([[120], [99]], 16), ([[97], [99]], 16), ([[122]], 1)] =
    [some (encName [[97], [99]] ++ be16 1, (⟨[exRec [[97], [99]] 1 [] [10, 0, 0, 1], exRec [[97], [99]] 1 [] [10, 0, 0, 2]], [], [], 0⟩ : Answers).packed.enc, 3600),
     some (encName [[97], [99]] ++ be16 1, (⟨[exRec [[97], [99]] 1 [] [10, 0, 0, 2], exRec [[97], [99]] 1 [] [10, 0, 0, 1]], [], [], 0⟩ : Answers).packed.enc, 3600),
     some (encName [[119], [99]] ++ be16 1, (⟨[exRec [[119], [99]] 5 [[[97], [99]]] [], exRec [[97], [99]] 1 [] [10, 0, 0, 1], exRec [[97], [99]] 1 [] [10, 0, 0, 2]], [], [], 0⟩ : Answers).packed.enc, 3600),
     some (encName [[120], [99]] ++ be16 16, (⟨[exRec [[120], [99]] 16 [] [2, 104, 105]], [], [], 0⟩ : Answers).packed.enc, 3600),
     some (encName [[97], [99]] ++ be16 16, (⟨[], [exRec [[99]] 6 [[[110], [99]], [[109], [99]]] (List.replicate 20 1)], [], 2⟩ : Answers).packed.enc, 3600),
     none] := by
  decide +kernel

end Interop
