import Verif.Mara.AnyServer
import Verif.Mara.ServerExamples
/-!
# C114: whatever packets arrive, the authoritative server goes on answering as it has to
-/

namespace Mara
namespace Server

open Dw (Res)
open Spec
open Big (Key enc base Cell)
open Lookup (Usual)

/-- Packets one after the other, whatever is in them: what is sent back, and the order of the records before and after.  What is a question
gets the reply it has to get for the order at that time; what else is sent, and in how many bytes, is left open. -/
inductive Life (cfg : Lookup.Cfg) (sh : Shelf) (gs : List Given) (lim : Limits) : Order → List Packet → List (Option (List UInt8)) → Order → Prop
  | nil {o} : Life cfg sh gs lim o [] [] o
  | cons {o p r o1 ps rs o2} :
      (∀ k, Poses cfg p k → ∃ c, r = some c ∧ Says sh gs lim o k c o1) →
      (∀ k, PosesAll cfg p k → ∃ c, r = some c ∧ (allMsg k).Is c ∧ c.length ≤ 512 ∧ o1 = o) →
      Moved lim o o1 → Life cfg sh gs lim o1 ps rs o2 → Life cfg sh gs lim o (p :: ps) (r :: rs) o2

/-- A packet is one question at most. -/
theorem poses_unique {cfg : Lookup.Cfg} {p : Packet} {k k' : Query} (h : Poses cfg p k) (h' : Poses cfg p k') : k = k' := by
  obtain ⟨e1, e2, e3, _, _⟩ := h.read
  obtain ⟨f1, f2, f3, _, _⟩ := h'.read
  rw [e3] at f3
  obtain ⟨en, et⟩ := Big.encName_inj h.asks.labels h'.asks.labels f3
  have et := Comp.be16_inj h.asks.type h'.asks.type et
  have el := h.long.symm.trans h'.long
  obtain ⟨id, rd, name, type, long⟩ := k
  obtain ⟨id', rd', name', type', long'⟩ := k'
  dsimp only at e1 e2 f1 f2 en et el
  rw [← e1, ← e2, ← f1, ← f2, en, et, el]

theorem Says.moved {sh : Shelf} {gs : List Given} {lim : Limits} {o o' : Order} {k : Query} {c : List UInt8} (h : Says sh gs lim o k c o') : Moved lim o o' := by
  cases h with
  | records => exact .inr ⟨_, _, _, rfl⟩
  | tooLong _ _ _ h =>
    rcases h with h | h
    · exact .inl h
    · exact .inr ⟨_, _, _, h⟩
  | star => exact .inl rfl
  | denial => exact .inl rfl
  | refused => exact .inl rfl
  | failure => exact .inl rfl

/-- **C114.** The server is given records that can be stored and sent, and sets its pointers.  Then whatever packets arrive - any bytes at
all, any number of them -, none of them makes it do anything undefined or stops it, and every question among them gets the reply it
has to get for the records given and the order they are in by then. -/
theorem server_any {gs : List Given} (hl : Big.Loadable gs) (ht : Given.Tidy gs) (v6 : Bool) :
    ∃ s, Big.load gs Big.empty = .ok s ∧ ∃ sh : Shelf, sh.Has gs ∧
      ∀ ks, (∀ q, q ∈ ks ↔ (s.dict q).isSome = true) →
      ∃ l, Big.addAn v6 ks ⟨s, fun _ => {}⟩ = .ok l ∧
      ∀ (junk : Nat → Reply.Node) (cfg : Cfg), Usual cfg.look → (∀ q, cfg.look.egg q = none) → Rfc8482 cfg.look →
      cfg.look.rejectAaaa = false → cfg.look.rejectPtr = false → cfg.reply.maxTotal ≤ 20 → cfg.reply.v6 = v6 →
      ∀ ps : List Packet, (∀ p ∈ ps, Js.Ok p.raw) →
      ∃ rs s' o', serve cfg ps (start l junk) = .ok (rs, s') ∧ Life cfg.look sh gs (limits cfg.reply) (fun n t => sh.own false n t) ps rs o' := by
  obtain ⟨s, A, own, L, h1, inv, ag⟩ := Big.load_inv gs hl
  obtain ⟨item, hso, hit⟩ := items inv ag ht
  refine ⟨s, h1, (worldOf item A own).shelf, shelf_has inv ag hit, fun ks hks => ?_⟩
  obtain ⟨f, hf, hlk⟩ := Big.addAn_eq inv (hosts_of inv ag ht) v6 hks
  refine ⟨_, hf, fun junk cfg hu hegg h8 ha hpt hcfg hv => ?_⟩
  have st : Stands (worldOf item A own) v6 (start ⟨s, f⟩ junk).heap (start ⟨s, f⟩ junk).dict := stands hl ht inv ag hso hit v6 hlk junk
  have fi := fits_world inv ag item
  have hs := stores_hash hl inv ag (s0 := start ⟨s, f⟩ junk) rfl st fi
  have hlong : Big.Long s := Big.Long.load (s := Big.empty) (fun _ _ => rfl) h1
  have ho : Lookup.Only (start ⟨s, f⟩ junk).hash := by
    intro l v hv
    refine Big.dict_only inv ag hlong (l := l) fun e => ?_
    have e' : (start ⟨s, f⟩ junk).dict l = none := e
    unfold Srv.hash at hv
    rw [e'] at hv
    cases hv
  have key : ∀ (ps : List Packet) (o : Order) (s1 : Srv), (∀ p ∈ ps, Js.Ok p.raw) → Ready (worldOf item A own) v6 (start ⟨s, f⟩ junk) o s1 →
      ∃ rs s' o', serve cfg ps s1 = .ok (rs, s') ∧ Life cfg.look (worldOf item A own).shelf gs (limits cfg.reply) o ps rs o' := by
    intro ps
    induction ps with
    | nil => exact fun o s1 _ _ => ⟨[], s1, o, rfl, .nil⟩
    | cons p ps ih =>
      intro o s1 hps r
      have hone : ∃ c s2 o2, answer cfg s1 p.raw p.long = .ok (c, s2) ∧ Ready (worldOf item A own) v6 (start ⟨s, f⟩ junk) o2 s2 ∧
          (∀ k, Poses cfg.look p k → ∃ d, c = some d ∧ Says (worldOf item A own).shelf gs (limits cfg.reply) o k d o2) ∧
          (∀ k, PosesAll cfg.look p k → ∃ d, c = some d ∧ (allMsg k).Is d ∧ d.length ≤ 512 ∧ o2 = o) ∧ Moved (limits cfg.reply) o o2 := by
        by_cases hP : ∃ k, Poses cfg.look p k
        · obtain ⟨k, hk⟩ := hP
          obtain ⟨c, s2, o2, h5, h6, h7⟩ := r.asked st fi hl hs hu hcfg hv hk
          refine ⟨some c, s2, o2, h5, h6, fun k' hk' => ⟨c, rfl, poses_unique hk hk' ▸ h7⟩, fun k' hk' => ?_, h7.moved⟩
          exfalso
          obtain ⟨_, _, e3, _, _⟩ := hk.read
          obtain ⟨_, _, f3⟩ := hk'.read
          rw [e3] at f3
          have := Comp.be16_inj hk.asks.type (by omega) (Big.encName_inj hk.asks.labels hk'.labels f3).2
          have := hk.asks.kind
          omega
        · by_cases hA : ∃ k, PosesAll cfg.look p k
          · obtain ⟨k, hk⟩ := hA
            obtain ⟨c, h5, h6, h7⟩ := all_answered (by have := hu.dos; omega) h8 hk s1
            refine ⟨some c, s1, o, h5, r, fun k' hk' => absurd ⟨k', hk'⟩ hP, fun k' hk' => ?_, .inl rfl⟩
            obtain ⟨c', h5', h6', h7'⟩ := all_answered (by have := hu.dos; omega) h8 hk' s1
            rw [h5] at h5'
            cases h5'
            exact ⟨c, rfl, h6', h7', rfl⟩
          · obtain ⟨c, s2, o2, h5, h6, h7⟩ := r.any st fi hl ho hs hu hegg h8 ha hpt hcfg hv (hps p (List.mem_cons_self ..))
            exact ⟨c, s2, o2, h5, h6, fun k hk => absurd ⟨k, hk⟩ hP, fun k hk => absurd ⟨k, hk⟩ hA, h7⟩
      obtain ⟨c, s2, o2, h5, h6, h7, h8', h9⟩ := hone
      obtain ⟨rs, s', o', h3, h4⟩ := ih o2 s2 (fun p hp => hps p (List.mem_cons_of_mem _ hp)) h6
      refine ⟨c :: rs, s', o', ?_, .cons h7 h8' h9 h4⟩
      unfold serve
      rw [h5, Res.ok_bind]
      simp only [h3, Res.ok_bind]
  exact fun ps hps => key ps _ _ hps (ready_start st)

/-- **C114.** Whatever was sent to the server, the records of each name are all there, in the order at the start, turned some
times. -/
theorem life_turns {cfg : Lookup.Cfg} {sh : Shelf} {gs : List Given} {lim : Limits} {o o' : Order} {ps : List Packet} {rs : List (Option (List UInt8))}
    (h : Life cfg sh gs lim o ps rs o') (n : Name) (u : Nat) :
    ps.length = rs.length ∧ (lim.addrs ≠ 1 ∨ u = 2 → o' n u = o n u) ∧ ∃ j, j ≤ ps.length ∧ o' n u = toBack^[j] (o n u) := by
  induction h with
  | nil => exact ⟨rfl, fun _ => rfl, 0, by simp, rfl⟩
  | @cons o p r o1 ps rs o2 _ _ hm _ ih =>
    obtain ⟨h1, h2, j, h3, h4⟩ := ih
    have hone : (lim.addrs ≠ 1 ∨ u = 2 → o1 n u = o n u) ∧ (o1 n u = o n u ∨ o1 n u = toBack (o n u)) := by
      rcases hm with rfl | ⟨n', u', t, rfl⟩
      · exact ⟨fun _ => rfl, .inl rfl⟩
      · rw [next_turn]
        split
        · rename_i hc
          refine ⟨fun hx => ?_, .inr rfl⟩
          exfalso
          rcases hx with hx | hx
          · exact hx hc.1
          · exact hc.2.2.1 (hc.2.2.2.2 ▸ hx)
        · exact ⟨fun _ => rfl, .inl rfl⟩
    refine ⟨by simp [h1], fun hx => (h2 hx).trans (hone.1 hx), ?_⟩
    rcases hone.2 with e | e
    · exact ⟨j, by simp; omega, by rw [h4, e]⟩
    · exact ⟨j + 1, by simp; omega, by rw [h4, e, Function.iterate_succ_apply]⟩

/-! ## Examples -/

/-- A packet with these bytes. -/
def rawPacket (l : List UInt8) : Packet := ⟨⟨l.length, 512, l ++ List.replicate (515 - l.length) 0⟩, false⟩

/-- A question whose name is a pointer to itself; one whose name ends with a star; one for the type CAA of the root; two bytes; no bytes;
and then a question for `a.c.` -/
def oddPackets : List Packet := [rawPacket [0, 7, 1, 0, 0, 1, 0, 0, 0, 0, 0, 0, 192, 12, 0, 1, 0, 1], rawPacket [0, 7, 1, 0, 0, 1, 0, 0, 0, 0, 0, 0, 1, 97, 95, 0, 1, 0, 1],
  rawPacket [0, 7, 1, 0, 0, 1, 0, 0, 0, 0, 0, 0, 0, 1, 1, 0, 1], rawPacket [0, 7], rawPacket [], exPacket [[97], [99]] 1]

theorem oddPackets_ok : ∀ p ∈ oddPackets, Js.Ok p.raw := by
  have : ∀ p ∈ oddPackets, p.raw.buf.length = p.raw.max + 3 ∧ p.raw.count ≤ p.raw.max ∧ p.raw.max ≤ 100000 := by decide +kernel
  intro p hp
  obtain ⟨h1, h2, h3⟩ := this p hp
  exact ⟨by omega, by omega, by omega⟩

example : ∃ s, Big.load exHost Big.empty = .ok s ∧ ∃ sh : Shelf, sh.Has exHost ∧ ∀ ks, (∀ q, q ∈ ks ↔ (s.dict q).isSome = true) →
    ∃ l, Big.addAn false ks ⟨s, fun _ => {}⟩ = .ok l ∧ ∃ rs s', ∃ o' : Order, serve exAllCfg oddPackets (start l fun _ => exNode) = .ok (rs, s') ∧
      rs.length = 6 ∧ o' [[99]] 2 = sh.own false [[99]] 2 := by
  obtain ⟨s, h1, sh, h2, h3⟩ := server_any exHost_loadable exHost_tidy false
  refine ⟨s, h1, sh, h2, fun ks hks => ?_⟩
  obtain ⟨l, h4, h5⟩ := h3 ks hks
  obtain ⟨rs, s', o', h6, h7⟩ := h5 (fun _ => exNode) exAllCfg ⟨⟨rfl, rfl, rfl⟩, by decide⟩ (fun _ => rfl) (fun _ => rfl) rfl rfl (by decide) rfl _ oddPackets_ok
  obtain ⟨e1, e2, _⟩ := life_turns h7 [[99]] 2
  exact ⟨l, h4, rs, s', o', h6, e1.symm, e2 (.inr rfl)⟩

/-- What the server says to them: it fails for the first and the third, refuses the second, does not know what the fourth is, says nothing
to the fifth, and answers the last one. -/
theorem odd_run : (match serve exAllCfg oddPackets (exSrv exHost) with
    | .ok (rs, _) => rs.map fun r => r.map (List.take 4)
    | _ => []) = [some [0, 7, 129, 2], some [0, 7, 129, 5], some [0, 7, 129, 2], some [0, 7, 128, 4], none, some [0, 7, 133, 0]] := by
  decide +kernel

end Server
end Mara
