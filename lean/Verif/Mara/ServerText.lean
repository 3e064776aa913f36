import Verif.Mara.ServerExamples
import Verif.Mara.Csv2Props
/-!
# C89: from the text of the zone files to the bytes of the replies
-/

namespace Mara
namespace Server

open Dw (Res)
open Spec

/-- **C89.** From the text of the zone files to the bytes of the replies: zone files in the usual form are
read, the records that they say are stored and get their pointers, and whatever questions come then,
one after the other, every reply is the one it has to be for the records that the text says. -/
theorem text_session {h : Host} (files : List UInt8 → Option (List UInt8)) {mode : Nat} (hser : h.serial < 2 ^ 32) (h0 : 0 ∉ h.ips)
    {l : List (Name × ZoneText.File)} (hl : ∀ x ∈ l, Csv2.ZoneText.Ok h mode x) (hd : (l.map Prod.fst).Nodup)
    (ht : Given.Tidy (Zf.allRecords h (Csv2.saidBy h l))) (v6 : Bool) :
    ∃ s, Csv2.bootText h files mode (l.map fun x => (x.1, x.2.text)) = .ok (some s) ∧
      ∃ sh : Shelf, sh.Has (Zf.allRecords h (Csv2.saidBy h l)) ∧
      ∀ ks, (∀ q, q ∈ ks ↔ (s.dict q).isSome = true) →
      ∃ l', Big.addAn v6 ks ⟨s, fun _ => {}⟩ = .ok l' ∧
      ∀ (junk : Nat → Reply.Node) (cfg : Cfg), Lookup.Usual cfg.look → cfg.reply.maxTotal ≤ 20 → cfg.reply.v6 = v6 →
      ∀ (ps : List Packet) (qs : List (Option Query)), List.Forall₂ (Arrives cfg.look) ps qs →
      ∃ rs s' o', serve cfg ps (start l' junk) = .ok (rs, s') ∧
        Session sh (Zf.allRecords h (Csv2.saidBy h l)) (limits cfg.reply) (fun n t => sh.own false n t) qs rs o' := by
  have hf : ∀ f ∈ Csv2.saidBy h l, Zf.FileOk h f := by
    intro f hf
    obtain ⟨x, hx, rfl⟩ := List.mem_map.mp hf
    exact (hl x hx).fileOk
  have hnd : ((Csv2.saidBy h l).map Prod.fst).Nodup := by simpa [Csv2.saidBy, Function.comp_def] using hd
  obtain ⟨s, h1, h2⟩ := server_session (Zf.files_loadable hf hnd) ht v6
  refine ⟨s, ?_, h2⟩
  rw [Csv2.bootText, Csv2.readTexts_eq files hser hl, Res.ok_bind]
  show (do let s ← Zf.boot (Zf.asRead h (Csv2.saidBy h l)) Big.empty; Res.ok (some s)) = _
  rw [Zf.boot_eq _ _ hf h0, h1]
  rfl

/-! ## The zone file of the example -/

def exSaid : List Given := Zf.allRecords Csv2.exHost (Csv2.saidBy Csv2.exHost [(Csv2.exZone, Csv2.exFile)])

theorem exSaid_eq : exSaid =
    [⟨false, Csv2.exZone, 2, encName (ascii "ns" :: Csv2.exZone), 86400, Csv2.exZone⟩,
     ⟨false, Csv2.exZone, 6, encName Csv2.exZone ++ encName (ascii "hostmaster" :: Csv2.exZone) ++ (exSaid.getD 1 ⟨false, [], 0, [], 0, []⟩).data.drop 37, 86400, Csv2.exZone⟩,
     ⟨false, ascii "www" :: Csv2.exSub, 28, [32, 1, 13, 184, 0, 0, 0, 0, 0, 0, 0, 0, 0, 0, 0, 1], 7200, Csv2.exZone⟩,
     ⟨true, Csv2.exSub, 16, [3, 97, 32, 98, 3, 99, 255, 39], 60, Csv2.exZone⟩,
     ⟨false, ascii "mail" :: Csv2.exZone, 1, [10, 0, 0, 1], 60, Csv2.exZone⟩] := by
  rfl

theorem exSaid_tidy : Given.Tidy exSaid := by
  rw [exSaid_eq]
  refine ⟨?_, ?_, ?_, ?_, ?_⟩
  · intro g hg
    simp only [List.mem_cons, List.not_mem_nil, or_false] at hg
    rcases hg with rfl | rfl | rfl | rfl | rfl
    · exact sendable_of [] [ascii "ns" :: Csv2.exZone] [] (by decide +kernel)
    · exact sendable_of [] [Csv2.exZone, ascii "hostmaster" :: Csv2.exZone] ((exSaid.getD 1 ⟨false, [], 0, [], 0, []⟩).data.drop 37) (by decide +kernel)
    · exact sendable_of [] [] [32, 1, 13, 184, 0, 0, 0, 0, 0, 0, 0, 0, 0, 0, 0, 1] (by decide +kernel)
    · exact sendable_of [] [] [3, 97, 32, 98, 3, 99, 255, 39] (by decide +kernel)
    · exact sendable_of [] [] [10, 0, 0, 1] (by decide +kernel)
  · intro g hg
    simp only [List.mem_cons, List.not_mem_nil, or_false] at hg
    rcases hg with rfl | rfl | rfl | rfl | rfl <;> intro h <;> exact absurd h (by decide)
  · intro g hg
    simp only [List.mem_cons, List.not_mem_nil, or_false] at hg
    rcases hg with rfl | rfl | rfl | rfl | rfl <;> intro h <;> first
      | exact absurd h (by decide)
      | exact ⟨not_address (x := 2) (d := (encName (ascii "ns" :: Csv2.exZone)).tail) (.inr (.inr (by decide +kernel))),
          not_address (x := 115) (d := ((encName (ascii "ns" :: Csv2.exZone)).drop 3)) (.inl (by decide))⟩
  · intro g hg
    simp only [List.mem_cons, List.not_mem_nil, or_false] at hg
    rcases hg with rfl | rfl | rfl | rfl | rfl <;> intro h <;> first
      | exact absurd h (by decide)
      | skip
    intro x hx
    simp only [List.mem_cons, List.not_mem_nil, or_false] at hx
    rcases hx with rfl | rfl | rfl | rfl | rfl <;> intro h <;> first
      | exact absurd h (by decide)
      | exact (by decide +kernel)
  · intro n
    refine le_trans (List.length_filter_le _ _) (by decide)

example : ∃ s, Csv2.bootText Csv2.exHost (fun _ => none) 2 [(Csv2.exZone, Csv2.exFile.text)] = .ok (some s) ∧
    ∃ sh : Shelf, sh.Has exSaid ∧ ∀ ks, (∀ q, q ∈ ks ↔ (s.dict q).isSome = true) →
      ∃ l, Big.addAn true ks ⟨s, fun _ => {}⟩ = .ok l ∧ ∃ rs s' o',
        serve { exCfg with reply := { v6 := true } } [exPacket [ascii "Mail", ascii "example", ascii "com"] 1] (start l fun _ => exNode) = .ok (rs, s') ∧
        Session sh exSaid (limits { v6 := true }) (fun n t => sh.own false n t)
          [some ⟨7, true, [ascii "Mail", ascii "example", ascii "com"], 1, false⟩] rs o' := by
  obtain ⟨s, h1, sh, h2, h3⟩ := text_session (fun _ => none) (by decide) (by decide) Csv2.exText_ok (by simp) exSaid_tidy true
  refine ⟨s, h1, sh, h2, fun ks hks => ?_⟩
  obtain ⟨l, h4, h5⟩ := h3 ks hks
  obtain ⟨rs, s', o', h6, h7⟩ := h5 (fun _ => exNode) { exCfg with reply := { v6 := true } } Lookup.exUsual (by decide) rfl
    [exPacket [ascii "Mail", ascii "example", ascii "com"] 1] [some ⟨7, true, [ascii "Mail", ascii "example", ascii "com"], 1, false⟩]
    (.cons (.inl (exPoses (q := [ascii "Mail", ascii "example", ascii "com"]) (t := 1) (by unfold LabelsOk; decide +kernel) (by decide) (by decide +kernel) (by decide) (by decide +kernel))) .nil)
  exact ⟨l, h4, rs, s', o', h6, h7⟩

end Server
end Mara
