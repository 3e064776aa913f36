import Verif.Mara.ServerAll
import Mathlib.Logic.Function.Iterate
import Mathlib.Data.List.Forall2
/-!
# The authoritative server, one packet after the other
-/

namespace Mara
namespace Server

open Dw (Res)
open Spec
open Big (Key enc base Cell)
open Lookup (Asks Usual queryBytes Ordinary)

/-- The packet is not a question the server looks at, whatever records it has: it gets no reply, or one
that says that there is an error. -/
def NotAsked (cfg : Lookup.Cfg) (p : Packet) : Prop :=
  ∃ out, (∀ h : Lookup.Hash (List UInt8), Lookup.procQuery cfg h p.raw = .ok out) ∧ (out = .none ∨ ∃ code echo, out = .error code echo)

/-- Questions one after the other: what the server says to them, and the order of its records before and
after.  What is no question leaves the order as it is. -/
inductive Session (sh : Shelf) (gs : List Given) (lim : Limits) : Order → List (Option Query) → List (Option (List UInt8)) → Order → Prop
  | nil {o} : Session sh gs lim o [] [] o
  | asked {o k c o1 ks rs o2} : k.type ≠ 255 → Says sh gs lim o k c o1 → Session sh gs lim o1 ks rs o2 → Session sh gs lim o (some k :: ks) (some c :: rs) o2
  /-- a question for all records -/
  | all {o k c ks rs o2} : k.type = 255 → (allMsg k).Is c → c.length ≤ 512 → Session sh gs lim o ks rs o2 → Session sh gs lim o (some k :: ks) (some c :: rs) o2
  | other {o r ks rs o2} : Session sh gs lim o ks rs o2 → Session sh gs lim o (none :: ks) (r :: rs) o2

/-- The packet is this question, or none. -/
def Arrives (cfg : Lookup.Cfg) (p : Packet) : Option Query → Prop
  | some k => Poses cfg p k ∨ PosesAll cfg p k ∧ Rfc8482 cfg
  | none => NotAsked cfg p

/-- What is no question leaves the server as it is. -/
theorem notAsked_keep {cfg : Cfg} {p : Packet} (h : NotAsked cfg.look p) (s : Srv) : ∃ r, answer cfg s p.raw p.long = .ok (r, s) := by
  obtain ⟨out, h1, h2⟩ := h
  unfold answer
  rw [h1, Res.ok_bind]
  rcases h2 with rfl | ⟨code, echo, rfl⟩
  · exact ⟨_, rfl⟩
  · simp only []
    split
    · exact ⟨_, rfl⟩
    · exact ⟨_, rfl⟩

/-- **C90.** The server is given records that can be stored and sent; it sets its pointers in whatever order
it finds the names.  Then whatever questions come, one after the other, every reply is the one it has to
be for the records given and the order they are in at that time; nothing that is not a record of the
server is ever looked at, and no question has undefined behaviour. -/
theorem server_session {gs : List Given} (hl : Big.Loadable gs) (ht : Given.Tidy gs) (v6 : Bool) :
    ∃ s, Big.load gs Big.empty = .ok s ∧ ∃ sh : Shelf, sh.Has gs ∧
      ∀ ks, (∀ q, q ∈ ks ↔ (s.dict q).isSome = true) →
      ∃ l, Big.addAn v6 ks ⟨s, fun _ => {}⟩ = .ok l ∧
      ∀ (junk : Nat → Reply.Node) (cfg : Cfg), Usual cfg.look → cfg.reply.maxTotal ≤ 20 → cfg.reply.v6 = v6 →
      ∀ (ps : List Packet) (qs : List (Option Query)), List.Forall₂ (Arrives cfg.look) ps qs →
      ∃ rs s' o', serve cfg ps (start l junk) = .ok (rs, s') ∧ Session sh gs (limits cfg.reply) (fun n t => sh.own false n t) qs rs o' := by
  obtain ⟨s, A, own, L, h1, inv, ag⟩ := Big.load_inv gs hl
  obtain ⟨item, hso, hit⟩ := items inv ag ht
  refine ⟨s, h1, (worldOf item A own).shelf, shelf_has inv ag hit, fun ks hks => ?_⟩
  obtain ⟨f, hf, hlk⟩ := Big.addAn_eq inv (hosts_of inv ag ht) v6 hks
  refine ⟨_, hf, fun junk cfg hu hcfg hv => ?_⟩
  have st : Stands (worldOf item A own) v6 (start ⟨s, f⟩ junk).heap (start ⟨s, f⟩ junk).dict := stands hl ht inv ag hso hit v6 hlk junk
  have fi := fits_world inv ag item
  have hs := stores_hash hl inv ag (s0 := start ⟨s, f⟩ junk) rfl st fi
  have key : ∀ (ps : List Packet) (qs : List (Option Query)) (o : Order) (s1 : Srv), List.Forall₂ (Arrives cfg.look) ps qs →
      Ready (worldOf item A own) v6 (start ⟨s, f⟩ junk) o s1 →
      ∃ rs s' o', serve cfg ps s1 = .ok (rs, s') ∧ Session (worldOf item A own).shelf gs (limits cfg.reply) o qs rs o' := by
    intro ps
    induction ps with
    | nil =>
      intro qs o s1 hps _
      cases hps
      exact ⟨[], s1, o, rfl, .nil⟩
    | cons p ps ih =>
      intro qs o s1 hps r
      cases hps with
      | @cons _ q _ qs hq hps =>
        cases q with
        | none =>
          obtain ⟨c, hc⟩ := notAsked_keep hq s1
          obtain ⟨rs, s', o', h3, h4⟩ := ih qs o s1 hps r
          refine ⟨c :: rs, s', o', ?_, .other h4⟩
          unfold serve
          rw [hc, Res.ok_bind]
          simp only [h3, Res.ok_bind]
        | some k =>
          rcases hq with hq | ⟨hq, h8⟩
          · obtain ⟨c, s2, o2, h5, h6, h7⟩ := r.asked st fi hl hs hu hcfg hv hq
            obtain ⟨rs, s', o', h3, h4⟩ := ih qs o2 s2 hps h6
            refine ⟨some c :: rs, s', o', ?_, .asked (by have := hq.asks.kind; omega) h7 h4⟩
            unfold serve
            rw [h5, Res.ok_bind]
            simp only [h3, Res.ok_bind]
          · obtain ⟨c, h5, h6, h7⟩ := all_answered (by have := hu.dos; omega) h8 hq s1
            obtain ⟨rs, s', o', h3, h4⟩ := ih qs o s1 hps r
            refine ⟨some c :: rs, s', o', ?_, .all hq.type h6 h7 h4⟩
            unfold serve
            rw [h5, Res.ok_bind]
            simp only [h3, Res.ok_bind]
  intro ps qs hps
  exact key ps qs _ _ hps (ready_start st)

/-- The question is answered with the records of `n` of type `u`, and is not for name servers or for all records. -/
def takes (gs : List Given) (n : Name) (u : Nat) : Option Query → Bool
  | none => false
  | some k => decide ((Given.places gs).reply (lowName k.name) k.type = .records (false, n, u) ∧ k.type ≠ 2 ∧ k.type ≠ 255)

theorem next_turn {lim : Limits} {o : Order} {n : Name} {u t : Nat} (n' : Name) (u' : Nat) :
    o.next lim n u t n' u' = if lim.addrs = 1 ∧ t ≠ 2 ∧ u ≠ 2 ∧ n' = n ∧ u' = u then toBack (o n' u') else o n' u' := by
  unfold Order.next
  by_cases h : lim.addrs = 1 ∧ t ≠ 2 ∧ u ≠ 2
  · rw [if_pos h]
    unfold Order.turn
    by_cases h' : n' = n ∧ u' = u
    · rw [if_pos h', if_pos ⟨h.1, h.2.1, h.2.2, h'⟩, h'.1, h'.2]
    · rw [if_neg h', if_neg fun hh => h' hh.2.2.2]
  · rw [if_neg h, if_neg fun hh => h ⟨hh.1, hh.2.1, hh.2.2.1⟩]

/-- **C91.** The records of a name and type take turns: with a limit of one address, after any questions
the order is the one at the start, turned once for every question that was answered with these records
(at most; exactly, if no reply was a server failure).  Questions for other names or types, and what is no question,
do not change it.  Name servers stay in their order. -/
theorem session_turns {sh : Shelf} {gs : List Given} {lim : Limits} {o o' : Order} {qs : List (Option Query)} {rs : List (Option (List UInt8))}
    (h : Session sh gs lim o qs rs o') (n : Name) (u : Nat) :
    (lim.addrs ≠ 1 ∨ u = 2 → o' n u = o n u) ∧
    ∃ j, o' n u = toBack^[j] (o n u) ∧ j ≤ qs.countP (takes gs n u) ∧
      (lim.addrs = 1 → u ≠ 2 → (∀ x ∈ qs.zip rs, ∀ k c, x = (some k, some c) → c ≠ serverFailure k.id k.rd) → j = qs.countP (takes gs n u)) := by
  induction h with
  | nil => exact ⟨fun _ => rfl, 0, rfl, by simp, by simp⟩
  | @other o r ks rs o2 hs ih =>
    obtain ⟨h0, j, h1, h2, h3⟩ := ih
    refine ⟨h0, j, h1, by rw [List.countP_cons_of_neg (by simp [takes])]; exact h2, fun ha hu hx => ?_⟩
    rw [List.countP_cons_of_neg (by simp [takes])]
    exact h3 ha hu fun x hx' k c e => hx x (by rw [List.zip_cons_cons]; exact List.mem_cons_of_mem _ hx') k c e
  | @all o k c ks rs o2 h255 _ _ hs ih =>
    obtain ⟨h0, j, h1, h2, h3⟩ := ih
    have hno : ¬takes gs n u (some k) = true := by
      unfold takes
      rw [decide_eq_true_iff]
      exact fun h => h.2.2 h255
    refine ⟨h0, j, h1, by rw [List.countP_cons_of_neg hno]; exact h2, fun ha hu hx => ?_⟩
    rw [List.countP_cons_of_neg hno]
    exact h3 ha hu fun x hx' k c e => hx x (by rw [List.zip_cons_cons]; exact List.mem_cons_of_mem _ hx') k c e
  | @asked o k c o1 ks rs o2 hk255 hsay hs ih =>
    obtain ⟨h0, j, h1, h2, h3⟩ := ih
    -- one question
    have hone : (lim.addrs ≠ 1 ∨ u = 2 → o1 n u = o n u) ∧
        ((o1 n u = o n u ∧ (lim.addrs = 1 → u ≠ 2 → c ≠ serverFailure k.id k.rd → takes gs n u (some k) = false)) ∨
          (o1 n u = toBack (o n u) ∧ takes gs n u (some k) = true)) := by
      have hnext : ∀ {m : Name} {v : Nat} {aa : Bool},
          ((Given.places gs).reply (lowName k.name) k.type = .records (false, m, v) ∧ aa = true ∨
            (Given.places gs).reply (lowName k.name) k.type = .referral (false, m, v) ∧ aa = false) →
          (lim.addrs ≠ 1 ∨ u = 2 → o.next lim m v k.type n u = o n u) ∧
          ((o.next lim m v k.type n u = o n u ∧ (lim.addrs = 1 → u ≠ 2 → c ≠ serverFailure k.id k.rd → takes gs n u (some k) = false)) ∨
            (o.next lim m v k.type n u = toBack (o n u) ∧ takes gs n u (some k) = true)) := by
        intro m v aa hrep
        rw [next_turn]
        refine ⟨fun hno => if_neg (by rintro ⟨a, _, c, _, e⟩; omega), ?_⟩
        by_cases hc : lim.addrs = 1 ∧ k.type ≠ 2 ∧ v ≠ 2 ∧ n = m ∧ u = v
        · rw [if_pos hc]
          refine .inr ⟨rfl, ?_⟩
          obtain ⟨_, c2, c3, rfl, rfl⟩ := hc
          unfold takes
          rw [decide_eq_true_iff]
          refine ⟨?_, c2, hk255⟩
          rcases hrep with ⟨h, _⟩ | ⟨h, _⟩
          · exact h
          · have := places_reply gs (lowName k.name) k.type
            rw [h] at this
            obtain ⟨m', e, _⟩ := this
            injection e with _ e
            injection e with _ e
            exact absurd e c3
        · rw [if_neg hc]
          refine .inl ⟨rfl, fun ha hu _ => ?_⟩
          unfold takes
          rw [decide_eq_false_iff_not]
          rintro ⟨h4, h5, _⟩
          rcases hrep with ⟨h, _⟩ | ⟨h, _⟩
          · rw [h] at h4
            injection h4 with h4
            injection h4 with _ h4
            injection h4 with e1 e2
            exact hc ⟨ha, h5, by rw [e2]; exact hu, e1.symm, e2.symm⟩
          · rw [h] at h4
            cases h4
      have hsame : (∀ m v, (Given.places gs).reply (lowName k.name) k.type ≠ .records (false, m, v)) → takes gs n u (some k) = false := by
        intro hno
        unfold takes
        rw [decide_eq_false_iff_not]
        rintro ⟨h4, _⟩
        exact hno _ _ h4
      cases hsay with
      | records hrep _ _ _ => exact hnext hrep
      | tooLong hrep _ _ ho =>
        rcases ho with rfl | rfl
        · exact ⟨fun _ => rfl, .inl ⟨rfl, fun _ _ hc => absurd rfl hc⟩⟩
        · exact hnext hrep
      | star hrep _ => exact ⟨fun _ => rfl, .inl ⟨rfl, fun _ _ _ => hsame (by rw [hrep]; simp)⟩⟩
      | denial hrep _ _ =>
        refine ⟨fun _ => rfl, .inl ⟨rfl, fun _ _ _ => hsame ?_⟩⟩
        rcases hrep with ⟨h, _⟩ | ⟨h, _⟩ <;> rw [h] <;> simp
      | refused hrep => exact ⟨fun _ => rfl, .inl ⟨rfl, fun _ _ _ => hsame (by rw [hrep]; simp)⟩⟩
      | failure hrep => exact ⟨fun _ => rfl, .inl ⟨rfl, fun _ _ _ => hsame (by rw [hrep]; simp)⟩⟩
    obtain ⟨hk, hor⟩ := hone
    refine ⟨fun hno => (h0 hno).trans (hk hno), ?_⟩
    rcases hor with ⟨e, hf⟩ | ⟨e, hf⟩
    · refine ⟨j, by rw [h1, e], ?_, fun ha hu hx => ?_⟩
      · rw [List.countP_cons]
        omega
      · have hcf := hx (some k, some c) (by simp) k c rfl
        rw [List.countP_cons_of_neg (by rw [hf ha hu hcf]; simp)]
        exact h3 ha hu fun x hx' k' c' e' => hx x (by rw [List.zip_cons_cons]; exact List.mem_cons_of_mem _ hx') k' c' e'
    · refine ⟨j + 1, by rw [h1, e]; rfl, ?_, fun ha hu hx => ?_⟩
      · rw [List.countP_cons_of_pos hf]
        omega
      · rw [List.countP_cons_of_pos hf, h3 ha hu fun x hx' k' c' e' => hx x (by rw [List.zip_cons_cons]; exact List.mem_cons_of_mem _ hx') k' c' e']

end Server
end Mara
