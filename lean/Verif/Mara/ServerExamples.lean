import Verif.Mara.LinkProps
import Verif.Mara.ServerProps
/-!
# C90, C91: examples, and what goes wrong
-/

namespace Mara
namespace Server

open Dw (Res)
open Spec
open Big (Key enc base Cell)

def exNode : Reply.Node := { query := [], data := [], ttl := 0, type := 0, auth := false, next := none }

def exCfg : Cfg := { rejected := exNode }

/-- A question (with the wish for recursion, from a client that gets short replies). -/
def exPacket (q : Name) (t : Nat) : Packet := ⟨Lookup.exQuery q t 1, false⟩

theorem exPoses {q : Name} {t : Nat} (h1 : LabelsOk q) (h2 : q ≠ []) (h3 : (encName q).length ≤ 253) (h4 : t < 250) (h5 : t ≠ 1 ∨ dottedQuad q = none) :
    Poses {} (exPacket q t) ⟨7, true, q, t, false⟩ where
  asks := Lookup.exAsks h1 h2 h3 h4
  plain := Lookup.exPlain h5
  head := ⟨Lookup.exHeader, [], ⟨rfl, rfl, rfl⟩, by simp [exPacket, Lookup.exQuery, Js.contents], rfl, rfl⟩
  long := rfl

/-- A packet that is a reply itself. -/
def exReplied : Packet := ⟨⟨12, 512, [0, 7, 128] ++ List.replicate 512 0⟩, false⟩

theorem exReplied_not : NotAsked {} exReplied := by
  refine ⟨.none, fun h => ?_, .inl rfl⟩
  unfold Lookup.procQuery
  rw [if_neg (by decide +kernel), if_neg (by decide +kernel)]
  rfl

/-- Questions for `a.c.`, twice, for `x.c.` and for `z.`, and a packet that is none. -/
theorem exArrives : List.Forall₂ (Arrives exCfg.look) [exPacket [[97], [99]] 1, exPacket [[65], [67]] 1, exReplied, exPacket [[120], [99]] 16, exPacket [[122]] 1]
    [some ⟨7, true, [[97], [99]], 1, false⟩, some ⟨7, true, [[65], [67]], 1, false⟩, none, some ⟨7, true, [[120], [99]], 16, false⟩, some ⟨7, true, [[122]], 1, false⟩] := by
  refine .cons (.inl ?_) (.cons (.inl ?_) (.cons exReplied_not (.cons (.inl ?_) (.cons (.inl ?_) .nil))))
  all_goals exact exPoses (by unfold LabelsOk; decide) (by decide) (by decide) (by decide) (by decide +kernel)

example : ∃ s, Big.load exHost Big.empty = .ok s ∧ ∃ sh : Shelf, sh.Has exHost ∧ ∀ ks, (∀ q, q ∈ ks ↔ (s.dict q).isSome = true) →
    ∃ l, Big.addAn false ks ⟨s, fun _ => {}⟩ = .ok l ∧ ∃ rs s', ∃ o' : Order,
      serve exCfg [exPacket [[97], [99]] 1, exPacket [[65], [67]] 1, exReplied, exPacket [[120], [99]] 16, exPacket [[122]] 1] (start l fun _ => exNode) = .ok (rs, s') ∧
      o' [[97], [99]] 6 = sh.own false [[97], [99]] 6 := by
  obtain ⟨s, h1, sh, h2, h3⟩ := server_session exHost_loadable exHost_tidy false
  refine ⟨s, h1, sh, h2, fun ks hks => ?_⟩
  obtain ⟨l, h4, h5⟩ := h3 ks hks
  obtain ⟨rs, s', o', h6, h7⟩ := h5 (fun _ => exNode) exCfg Lookup.exUsual (by decide) rfl _ _ exArrives
  refine ⟨l, h4, rs, s', o', h6, ?_⟩
  obtain ⟨_, j, h8, h9, _⟩ := session_turns h7 [[97], [99]] 6
  have : j = 0 := by
    have e : List.countP (takes exHost [[97], [99]] 6)
      [some ⟨7, true, [[97], [99]], 1, false⟩, some ⟨7, true, [[65], [67]], 1, false⟩, none, some ⟨7, true, [[120], [99]], 16, false⟩, some ⟨7, true, [[122]], 1, false⟩] = 0 := by
      decide +kernel
    rw [e] at h9
    omega
  rw [h8, this]
  rfl

-- two questions are answered with the addresses of `a.c.`
example : List.countP (takes exHost [[97], [99]] 1)
    [some ⟨7, true, [[97], [99]], 1, false⟩, some ⟨7, true, [[65], [67]], 1, false⟩, none, some ⟨7, true, [[120], [99]], 16, false⟩, some ⟨7, true, [[122]], 1, false⟩] = 2 := by
  decide +kernel

/-- The settings with `rfc8482`. -/
def exAllCfg : Cfg := { look := { any := fun _ => some true }, rejected := exNode }

/-- A question for all records of `Z.`, which is no name of the server. -/
theorem exPosesAll : PosesAll exAllCfg.look (exPacket [[90]] 255) ⟨7, true, [[90]], 255, false⟩ where
  live := ⟨by decide +kernel, by decide +kernel, by decide +kernel⟩
  labels := by unfold LabelsOk; decide
  fits := by decide
  type := rfl
  head := ⟨Lookup.exHeader, [], ⟨rfl, rfl, rfl⟩, by decide +kernel, rfl, rfl⟩
  long := rfl

example (s : Srv) : ∃ c, answer exAllCfg s (exPacket [[90]] 255).raw false = .ok (some c, s) ∧ (allMsg ⟨7, true, [[90]], 255, false⟩).Is c ∧ c.length ≤ 512 :=
  all_answered (by decide) (fun _ => rfl) exPosesAll s

-- two questions for all records
example : List.Forall₂ (Arrives exAllCfg.look) [exPacket [[90]] 255, exPacket [[90]] 255] [some ⟨7, true, [[90]], 255, false⟩, some ⟨7, true, [[90]], 255, false⟩] :=
  .cons (.inr ⟨exPosesAll, fun _ => rfl⟩) (.cons (.inr ⟨exPosesAll, fun _ => rfl⟩) .nil)

/-! ## Runs -/

/-- The server with these records. -/
def exSrv (gs : List Given) : Srv :=
  match Big.load gs Big.empty with
  | .ok s =>
    match Big.addAn false (gs.map fun g => enc (base g.star g.name, g.type)) ⟨s, fun _ => {}⟩ with
    | .ok l => start l fun _ => exNode
    | _ => ⟨[], fun _ => none⟩
  | _ => ⟨[], fun _ => none⟩

/-- What it says to questions one after the other. -/
def exAsk (gs : List Given) (ps : List (Name × Nat)) : List (Option (List UInt8)) :=
  match serve exCfg (ps.map fun p => exPacket p.1 p.2) (exSrv gs) with
  | .ok (rs, _) => rs
  | _ => []

/-- The headers of the replies. -/
def exHeads (gs : List Given) (ps : List (Name × Nat)) : List (List UInt8) := (exAsk gs ps).map fun r => (r.getD []).take 12

/-- **C91.** The first address changes from reply to reply. -/
theorem turns_run : exAsk exHost [([[97], [99]], 1), ([[97], [99]], 1), ([[97], [99]], 1)] =
    ([[1, 2], [2, 1], [1, 2]] : List (List UInt8)).map fun l => some ([0, 7, 133, 0, 0, 1, 0, 2, 0, 1, 0, 1, 1, 97, 1, 99, 0, 0, 1, 0, 1] ++
      l.flatMap (fun x => [192, 12, 0, 1, 0, 1, 0, 0, 14, 16, 0, 4, 10, 0, 0, x]) ++
      [192, 14, 0, 2, 0, 1, 0, 0, 14, 16, 0, 4, 1, 110, 192, 14, 192, 65, 0, 1, 0, 1, 0, 0, 14, 16, 0, 4, 10, 0, 0, 9]) := by
  decide +kernel

/-- **C91, what goes wrong.** Questions for one name do disturb what is said about another one: the alias `w.c.`
leads to two addresses; after one question for the addresses of `a.c.` itself, it leads to one. -/
theorem alias_loses : exHeads exHost [([[119], [99]], 1), ([[97], [99]], 1), ([[119], [99]], 1)] =
    [[0, 7, 133, 0, 0, 1, 0, 3, 0, 1, 0, 1], [0, 7, 133, 0, 0, 1, 0, 2, 0, 1, 0, 1], [0, 7, 133, 0, 0, 1, 0, 2, 0, 1, 0, 1]] := by
  decide +kernel

/-- **C90, what goes wrong.** The bit for the wish for recursion is not repeated for star records (`x.c.`,
TXT), as it is for others (`a.c.`). -/
theorem star_forgets_rd : exHeads exHost [([[97], [99]], 1), ([[120], [99]], 16)] =
    [[0, 7, 133, 0, 0, 1, 0, 2, 0, 1, 0, 1], [0, 7, 132, 0, 0, 1, 0, 1, 0, 1, 0, 1]] := by
  decide +kernel

/-- **C104, what goes wrong.** A server without any records refuses a question for an address; it answers a question for all
records of the same name with a record of the name, and says that it has the authority to do so. -/
theorem all_is_claimed :
    (match serve exAllCfg [exPacket [[122]] 1, exPacket [[122]] 255] (exSrv []) with | .ok (rs, _) => rs | _ => []) =
      [some [0, 7, 129, 5, 0, 0, 0, 0, 0, 0, 0, 0],
       some [0, 7, 133, 0, 0, 1, 0, 1, 0, 0, 0, 0, 1, 122, 0, 0, 255, 0, 1, 192, 12, 0, 13, 0, 1, 0, 0, 14, 16, 0, 9, 7, 82, 70, 67, 56, 52, 56, 50, 0]] := by
  decide +kernel

/-- A star record that is too long for 512 bytes. -/
def exLong : List Given := [exAt false [[99]] 2 [1, 110, 1, 99, 0], exAt true [[99]] 16 ((255 :: List.replicate 255 104) ++ (255 :: List.replicate 255 104))]

/-- **C90, what goes wrong.** The reply that is too long is a header only; its counts say that there are
a question, an answer and a name server. -/
theorem cut_lies : exAsk exLong [([[120], [99]], 16)] = [some [0, 7, 134, 0, 0, 1, 0, 1, 0, 1, 0, 0]] := by
  decide +kernel

/-- A star alias. -/
def exStarAlias : List Given := [exAt false [[99]] 2 [1, 110, 1, 99, 0], exAt true [[99]] 5 [1, 97, 1, 99, 0]]

/-- **C90, what goes wrong.** The question for the name servers of a name that has a star alias: the name server of the zone
is in the answer section, with the name asked for and as an alias.  A client learns that `x.c.` is an
alias for `n.c.`. -/
theorem star_ns_alias : exAsk exStarAlias [([[120], [99]], 2)] =
    [some [0, 7, 132, 0, 0, 1, 0, 2, 0, 0, 0, 0, 1, 120, 1, 99, 0, 0, 2, 0, 1,
      192, 12, 0, 5, 0, 1, 0, 0, 14, 16, 0, 4, 1, 97, 192, 14, 192, 12, 0, 5, 0, 1, 0, 0, 14, 16, 0, 4, 1, 110, 192, 14]] := by
  decide +kernel

end Server
end Mara
