import Verif.Deadwood.AnyTrust
import Verif.Deadwood.TrustExamples
/-!
# Properties: who is believed, whatever the packets are
-/

namespace Dw
namespace Trust
open DwStr Spec Dissect Incoming

/-! ### C113: nobody speaks for others, whatever is sent -/

/-- C113.  Over any sequence of events with any packets (but see below): whatever the cache has as the servers of a zone is configured, or
came in reply to a question for a name in that zone from servers that may speak for a zone above; whatever it has as the aliases of a name or
as an answer came in reply to a question for that name from servers that may speak for it, or is made of the two.  Missing: packets with the
question for a name of 256 bytes; packets of which the number of authority records, as the code finds it when it has written the packet out,
is above fifteen (`kept_outside`); and packets judged while nobody was left to ask (`trust_broken`). -/
theorem any_chain_partial {cfg : Cfg} {conf : Conf} (hconf : ConfOk conf)
    (hgt : cfg.glueType < 65536 ∧ cfg.glueType ≠ 65394 ∧ cfg.glueType ≠ 65395) {junk : List UInt8} {evs : List Ev} (hev : ∀ e ∈ evs, e.Ok)
    {s : State} (h : run cfg junk (State.init conf) evs = .ok s) (hread : ∀ x ∈ s.heard, IsRead x.2) (hjudge : [0, 16] ∉ s.judged)
    {z : List (List UInt8)} (hz : Spec.NameOk z) {t : Nat} (ht : t < 65536) {value : List UInt8}
    (hg : get s.cache (encName z ++ be16 t) = some value) :
    (t = 65395 → (z = [] ∧ value = [0, 16]) ∨ Vouched conf s.heard z value) ∧
    (t = 65394 → ∃ u, Spoken conf s.heard z u) ∧
    (t ≠ 65394 → t ≠ 65395 → Worded conf s.heard (Joins cfg) z t value) := by
  have I := run_inv (B := anyBelief cfg conf) hgt hev (init_inv hconf fun h => .configured h) h hread hjudge
  obtain ⟨e, he, hk, rfl⟩ := get_mem hg
  obtain ⟨z', t', h1, h2, h3, h4, h5, h6⟩ := I.cache e he
  obtain ⟨rfl, rfl⟩ := key_inj h1 hz h2 ht (h3.symm.trans hk)
  exact ⟨fun h => (h4 h).imp id Judge.trusted, h5, fun a b => h6 b a⟩

/-- C113.  Whoever is asked was taken from a list of servers that may speak for a zone the name is in (unless nobody is left to ask),
whatever packets came before; with the same exceptions. -/
theorem any_asked_partial {cfg : Cfg} {conf : Conf} (hconf : ConfOk conf)
    (hgt : cfg.glueType < 65536 ∧ cfg.glueType ≠ 65394 ∧ cfg.glueType ≠ 65395) {junk : List UInt8} {evs : List Ev} (hev : ∀ e ∈ evs, e.Ok)
    {s : State} (h : run cfg junk (State.init conf) evs = .ok s) (hread : ∀ x ∈ s.heard, IsRead x.2) (hjudge : [0, 16] ∉ s.judged)
    {b : Nat} {sl : Slot} (hb : s.slots b = some sl) {k : Sock} (hk : sl.sock = some k)
    {q : List (List UInt8)} (hq : Spec.NameOk q) {t : Nat} (ht : t < 65536) (hsq : sl.query = encName q ++ be16 t)
    (hleft : sl.ns ≠ some [0, 16]) :
    ∃ zone, Vouched conf s.heard zone k.list ∧ Below q zone := by
  have I := run_inv (B := anyBelief cfg conf) hgt hev (init_inv hconf fun h => .configured h) h hread hjudge
  have hsl := I.slots b sl hb
  cases hn : sl.ns with
  | none => rw [hsl.has hn] at hk; cases hk
  | some l =>
    rcases hsl.sock k hk q t ⟨hq, ht, hsq⟩ l hn with e | ⟨z, z0, -, h2, h3, h4⟩
    · rw [hn, e] at hleft; exact absurd rfl hleft
    · exact ⟨z0, h3, below_trans h2 h4⟩

/-- Servers that may speak for no zone which `z` is in. -/
def Strangers (conf : Conf) (heard : Log) (z : List (List UInt8)) : Prop :=
  ∀ zone l c, (l, c) ∈ heard → Vouched conf heard zone l → ¬ Below z zone

/-- C113.  Whatever servers send that may not speak for a zone which the name is in, nothing comes of it for the name: the cache has no
answer and no aliases for it, and no servers but those configured. -/
theorem strangers_partial {cfg : Cfg} {conf : Conf} (hconf : ConfOk conf)
    (hgt : cfg.glueType < 65536 ∧ cfg.glueType ≠ 65394 ∧ cfg.glueType ≠ 65395) {junk : List UInt8} {evs : List Ev} (hev : ∀ e ∈ evs, e.Ok)
    {s : State} (h : run cfg junk (State.init conf) evs = .ok s) (hread : ∀ x ∈ s.heard, IsRead x.2) (hjudge : [0, 16] ∉ s.judged)
    {z : List (List UInt8)} (hz : Spec.NameOk z) (hne : z ≠ []) (hstr : Strangers conf s.heard z) {t : Nat} (ht : t < 65536)
    {value : List UInt8} (hg : get s.cache (encName z ++ be16 t) = some value) : t = 65395 ∧ (z, value) ∈ conf := by
  obtain ⟨h1, h2, h3⟩ := any_chain_partial hconf hgt hev h hread hjudge hz ht hg
  have hno : ∀ u, ¬ Spoken conf s.heard z u := by
    rintro u ⟨zone, l, c, n, a, b, d, -⟩
    exact hstr zone l c d a b
  by_cases e : t = 65395
  · refine ⟨e, ?_⟩
    rcases h1 e with ⟨a, -⟩ | h1
    · exact absurd a hne
    · cases h1 with
      | configured h => exact h
      | referred by_ said _ _ may => exact absurd may.1.1 (hstr _ _ _ said by_)
  · by_cases e' : t = 65394
    · obtain ⟨u, hu⟩ := h2 e'
      exact absurd hu (hno u)
    · exfalso
      cases h3 e' e with
      | told h => exact hno _ h
      | joined al _ _ => exact hno _ al

/-! ### Examples -/

theorem tEvs_read {s : State} (hh : s.heard = [(tEvil, tAnswerPacket), (tRoot, tReferPacket)]) : ∀ x ∈ s.heard, IsRead x.2 := by
  rw [hh]
  intro x hx
  simp only [List.mem_cons, List.not_mem_nil, or_false] at hx
  rcases hx with rfl | rfl
  exacts [tAnswer_msg.read, tRefer_msg.read]

/-- The servers of v.c and the answer, as before. -/
example : ∃ s, run tCfg [] (State.init [([], tRoot)]) tEvs = .ok s ∧
    Vouched [([], tRoot)] s.heard tV tEvil ∧ Worded [([], tRoot)] s.heard (Joins tCfg) tQ 1 tKept := by
  obtain ⟨s, h, hc, hh, hj⟩ := tEvs_run
  have hb : [0, 16] ∉ s.judged := by rw [hj]; decide
  refine ⟨s, h, ?_, ?_⟩
  · have := (any_chain_partial tConf_ok (by decide) tEvs_ok h (tEvs_read hh) hb (z := tV) ⟨by unfold LabelsOk; decide, by decide⟩
      (t := 65395) (by decide) (value := tEvil) (by rw [hc]; decide)).1 rfl
    rcases this with h | h
    · exact absurd h.1 (by decide)
    · exact h
  · exact (any_chain_partial tConf_ok (by decide) tEvs_ok h (tEvs_read hh) hb (z := tQ) ⟨by unfold LabelsOk; decide, by decide⟩
      (t := 1) (by decide) (value := tKept) (by rw [hc]; decide +kernel)).2.2 (by decide) (by decide)

set_option maxRecDepth 100000 in
example : ∃ s sl k, run tCfg [] (State.init [([], tRoot)]) (tEvs.take 3) = .ok s ∧ s.slots 0 = some sl ∧ sl.sock = some k ∧
    k.ip = [6, 6, 6, 6] ∧ ∃ zone, Vouched [([], tRoot)] s.heard zone k.list ∧ Below tQ zone := by
  obtain ⟨s, h, hc, hh, hj⟩ := view_some (r := run tCfg [] (State.init [([], tRoot)]) (tEvs.take 3))
    (c := [⟨encName tV ++ be16 65395, tEvil, false⟩, ⟨encName [] ++ be16 65395, tRoot, true⟩])
    (h := [(tRoot, tReferPacket)]) (j := [tRoot]) (by decide +kernel)
  have hs : tSock (run tCfg [] (State.init [([], tRoot)]) (tEvs.take 3)) = some (tAsk, some tEvil, [6, 6, 6, 6], tEvil) := by decide +kernel
  rw [h] at hs
  obtain ⟨sl, k, h1, h2, h3, h4, h5, h6⟩ := sock_some hs
  refine ⟨s, sl, k, h, h1, h2, h5, ?_⟩
  refine any_asked_partial tConf_ok (by decide) (fun e he => tEvs_ok e (List.mem_of_mem_take he)) h ?_ (by rw [hj]; decide) h1 h2
    (q := tQ) ⟨by unfold LabelsOk; decide, by decide⟩ (t := 1) (by decide) h3 (by rw [h4]; decide)
  rw [hh]
  intro x hx
  rw [List.mem_singleton.1 hx]
  exact tRefer_msg.read

/-- One client waits; a server of v.c replies that c is served by its own server. -/
def tTry : List Ev := [.start 0 tAsk, .send 0 tWire, .receive 0 (tFill tGrabPacket) 53 [(tWire, 1)]]

/-- A server of c. -/
def tC : List UInt8 := referral (encName [[99]]) [[1, 8, 8, 8, 8]]

def tTwo : Conf := [([[99]], tC), (tV, tEvil)]

set_option maxRecDepth 100000 in
theorem tTry_run : ∃ s, run tCfg [] (State.init tTwo) tTry = .ok s ∧
    s.cache = [⟨encName [] ++ be16 65395, [0, 16], false⟩, ⟨encName [[99]] ++ be16 65395, tC, true⟩, ⟨encName tV ++ be16 65395, tEvil, true⟩] ∧
    s.heard = [(tEvil, tGrabPacket)] ∧ s.judged = [tEvil] :=
  view_some (by decide +kernel)

theorem tTry_vouched {heard : Log} (hh : ∀ x ∈ heard, x.1 = tEvil) {z : List (List UInt8)} {l : List UInt8}
    (h : Vouched tTwo heard z l) : (z = [[99]] ∧ l = tC) ∨ Below z tV := by
  induction h with
  | configured h =>
    simp only [tTwo, List.mem_cons, Prod.mk.injEq, List.not_mem_nil, or_false] at h
    rcases h with ⟨rfl, rfl⟩ | ⟨rfl, rfl⟩
    · exact .inl ⟨rfl, rfl⟩
    · exact .inr (below_refl _)
  | referred _ said _ _ may ih =>
    rcases ih with ⟨-, e⟩ | ih
    · have := hh _ said
      simp only at this
      rw [e] at this
      exact absurd this (by decide)
    · exact .inr (below_trans may.1.1 ih)

/-- The servers of c are still those configured. -/
example : ∃ s, run tCfg [] (State.init tTwo) tTry = .ok s ∧ s.heard ≠ [] ∧
    get s.cache (encName [[99]] ++ be16 65395) = some tC ∧ ([[99]], tC) ∈ tTwo := by
  obtain ⟨s, h, hc, hh, hj⟩ := tTry_run
  have hg : get s.cache (encName [[99]] ++ be16 65395) = some tC := by rw [hc]; decide
  have hall : ∀ x ∈ s.heard, x = (tEvil, tGrabPacket) := by
    rw [hh]; intro x hx; exact List.mem_singleton.1 hx
  refine ⟨s, h, by rw [hh]; simp, hg, (strangers_partial (conf := tTwo) ?_ (by decide) ?_ h ?_ (by rw [hj]; decide)
    (z := [[99]]) ⟨by unfold LabelsOk; decide, by decide⟩ (by decide) ?_ (t := 65395) (by decide) hg).2⟩
  · intro c hc
    simp only [tTwo, List.mem_cons, List.not_mem_nil, or_false] at hc
    rcases hc with rfl | rfl
    · exact ⟨⟨by unfold LabelsOk; decide, by decide⟩, ⟨[1, 8, 8, 8, 8, 0, 3, 1, 16], by decide⟩, by decide⟩
    · exact ⟨⟨by unfold LabelsOk; decide, by decide⟩, ⟨[1, 6, 6, 6, 6, 0, 5, 1, 16], by decide⟩, by decide⟩
  · intro e he
    simp only [tTry, List.mem_cons, List.not_mem_nil, or_false] at he
    rcases he with rfl | rfl | rfl
    · exact tAsk_ordinary
    · trivial
    · show (tFill tGrabPacket).length = 520
      decide +kernel
  · intro x hx
    rw [hall x hx]
    exact tGrab_msg.read
  · intro zone l c hm hv hb
    have e : l = tEvil := congrArg Prod.fst (hall _ hm)
    rcases tTry_vouched (fun x hx => congrArg Prod.fst (hall x hx)) hv with ⟨-, e'⟩ | hv
    · rw [e] at e'
      exact absurd e' (by decide)
    · have l1 := below_length hv
      have l2 := below_length hb
      simp [tV] at l1 l2
      omega

end Trust
end Dw
