import Verif.Deadwood.FromCacheProps
/-!
# Answering from the cache: the theorems at work

One cache of eight entries, a name on the block list, an answer of two addresses, and clients.
-/

namespace Dw
namespace FromCache
open Spec Cachespec Reply
open Spec (Cache Entry)

/-- The question a client writes: `A.` -/
def exName : List (List UInt8) := [[65]]

/-- The address record of `a.` -/
def exRec (x : UInt8) : Rec := ⟨[[97]], 1, [0, 1], 3600, [], [], [10, 0, 0, x]⟩

/-- The answer: two addresses. -/
def exP : Answers := ⟨[exRec 1, exRec 2], [], [], 0⟩

def exCfg : Cfg := ⟨1, 1, 1, 0, []⟩

/-- A hash function. -/
def exHf (k : List UInt8) : Nat := k.length

/-- The name `x.` is on the block list. -/
def exMarks : List (List UInt8 × List UInt8) := [(keyOf [[120]] 1, [0, 0, 0, 0, 0, 0, 0, 24])]

/-- The header of a query with the ID `id`. -/
def exHead (id : Fin 65536) : Header := ⟨id, false, 0, false, false, true, false, false, false, false, 0, 1, 0, 0, 0⟩

/-- A client asks, with this ID. -/
def exAsk (id : Fin 65536) (qn : List (List UInt8)) (t : Nat) : Ask :=
  ⟨asked qn t, id, true, false, none, some ((exHead id).enc ++ (encName qn ++ (be16 t ++ [0, 1] ++ ([] ++ []))),
    12 + (encName qn).length + 4 + 0)⟩

theorem ex_well (id : Fin 65536) {qn : List (List UInt8)} (h1 : LabelsOk qn) (h2 : (encName qn).length ≤ 255) {t : Nat}
    (h3 : t < 65536) : WellAsked (exAsk id qn t) qn t :=
  ⟨h1, h2, h3, id.isLt, rfl, by
    rintro pkt len ⟨⟩
    exact ⟨exHead id, _, rfl, by omega, by simp [SR.enc_length, be16_length]; omega⟩⟩

theorem exA : LabelsOk exName := by intro l hl; simp [exName] at hl; subst hl; decide

theorem exX : LabelsOk [[88]] := by intro l hl; simp at hl; subst hl; decide

theorem exP_plain : Plain exCfg exName 1 exP := by
  have a1 : DwStr.NameOk [[97]] :=
    ⟨by intro l hl; simp at hl; subst hl; decide, by decide, DwStr.noRepeat_of_nodup (by decide)⟩
  refine ⟨⟨by decide, ?_, by decide, by decide⟩, by decide, by decide⟩
  intro r hr
  simp only [exP, Answers.all, List.append_nil, List.mem_cons, List.not_mem_nil, or_false] at hr
  rcases hr with rfl | rfl
  · exact ⟨⟨by decide, by decide, by decide, by decide, by decide⟩, a1, by intro n hn; simp [exRec] at hn⟩
  · exact ⟨⟨by decide, by decide, by decide, by decide, by decide⟩, a1, by intro n hn; simp [exRec] at hn⟩

/-- Something else is put there, and the question is asked once. -/
def exMid : List Event := [.op (.put 1000 (keyOf [[98]] 1) exP.packed.enc 60), .ask 2000 (exAsk 5 exName 1)]

theorem exMid_fit : ∀ ev ∈ [] ++ exMid, Fit ev := by
  intro ev hev
  simp only [exMid, List.nil_append, List.mem_cons, List.not_mem_nil, or_false] at hev
  rcases hev with rfl | rfl
  · refine ⟨by simp [CalmOp], ?_⟩
    rintro _ _ _ _ ⟨⟩
    exact storable_enc exP_plain.ok.packed (by decide)
  · exact ⟨by omega, exName, 1, ex_well 5 exA (by decide) (by decide)⟩

theorem exMarks_ok : ∀ x ∈ exMarks, Storable x.2 := by
  intro x hx
  simp only [exMarks, List.mem_singleton] at hx
  subst hx
  exact ⟨by decide, Or.inr (Or.inl ⟨24, rfl, by decide⟩)⟩

/-- C92 at work: an answer with a lifetime of an hour, given again after 35 seconds, for the second time. -/
example : ∃ h0 os h, Started exHf 0 8 exMarks h0 ∧ ∃ (bytes : List UInt8) (m : Msg),
    session exHf exCfg ([] ++ .op (.put 0 (keyOf exName 1) exP.packed.enc 3600) :: (exMid ++ [.ask 9000 (exAsk 7 exName 1)])) h0 =
      .ok (os ++ [⟨1, some (.udp bytes)⟩], h) ∧ m.Is bytes ∧
    Carries m 7 exName 1 (exP.given true true 2 3564) := by
  obtain ⟨h0, S⟩ := started_exists exHf 0 8 exMarks (by decide) exMarks_ok
  obtain ⟨os, o, h, e, g⟩ := kept_answer_is_given S exCfg (pre := []) (mid := exMid) (t0 := 0) (ttl := 3600) (now := 9000)
    (p := exP) exMid_fit (by omega) (by omega) (by omega) (ex_well 7 exA (by decide) (by decide : 1 < 65536)) rfl rfl (by decide)
    exP_plain (by decide) (by
      intro ev hev
      simp only [exMid, List.mem_cons, List.not_mem_nil, or_false] at hev
      rcases hev with rfl | rfl
      · show touches _ _ = false
        decide
      · intro _; omega) (by omega) (by omega) (by omega)
  rcases g with ⟨-, g⟩ | ⟨bytes, m, rfl, g1, g2⟩
  · exact absurd g (by decide)
  · exact ⟨h0, os, h, S, bytes, m, e, g1, g2⟩

/-- The addresses have changed places twice, and the time to live is what is left. -/
example : exP.given true true 2 3564 =
    ⟨[{ exRec 1 with ttl := 3564 }, { exRec 2 with ttl := 3564 }], [], [], 0⟩ ∧
    exP.given true true 1 3564 = ⟨[{ exRec 2 with ttl := 3564 }, { exRec 1 with ttl := 3564 }], [], [], 0⟩ := by decide

/-- C93 at work: after the hour. -/
example : ∃ h0 os o h, Started exHf 0 8 exMarks h0 ∧
    session exHf exCfg ([] ++ .op (.put 0 (keyOf exName 1) exP.packed.enc 3600) :: (exMid ++ [.ask 921601 (exAsk 7 exName 1)])) h0 =
      .ok (os ++ [o], h) ∧ o.sent = none := by
  obtain ⟨h0, S⟩ := started_exists exHf 0 8 exMarks (by decide) exMarks_ok
  obtain ⟨os, o, h, e, g⟩ := expired_is_not_given S exCfg (pre := []) (mid := exMid) (t0 := 0) (ttl := 3600) (now := 921601)
    exMid_fit (by omega) (by omega) (storable_enc exP_plain.ok.packed (by decide)) (ex_well 7 exA (by decide) (by decide : 1 < 65536))
    (by decide) (by
      intro o ho
      simp only [exMid, List.mem_cons, List.not_mem_nil, or_false, Event.op.injEq, reduceCtorEq] at ho
      subst ho
      decide) (by omega) rfl (by decide)
  exact ⟨h0, os, o, h, S, e, g⟩

/-- C94 at work: the same name, but another type. -/
example : ∃ h0 os o h, Started exHf 0 8 exMarks h0 ∧
    session exHf exCfg (exMid ++ [.ask 9000 (exAsk 7 exName 16)]) h0 = .ok (os ++ [o], h) ∧ o.sent = none := by
  obtain ⟨h0, S⟩ := started_exists exHf 0 8 exMarks (by decide) exMarks_ok
  obtain ⟨os, o, h, e, g⟩ := never_kept_never_given S exCfg (evs := exMid) (now := 9000) exMid_fit (by omega)
    (ex_well 7 exA (by decide) (by decide : 16 < 65536)) (by decide) (by decide) (by omega)
  exact ⟨h0, os, o, h, S, e, g⟩

/-- C95 at work. -/
example : ∃ h0 os h o h', Started exHf 0 8 exMarks h0 ∧ session exHf exCfg exMid h0 = .ok (os, h) ∧
    session exHf exCfg [.ask 9000 (exAsk 7 exName 1)] h = .ok ([o], h') ∧
    ∀ (now' : Int) (b : Bool), (h'.get exHf now' (keyOf [[98]] 1) b 1).1 = (h.get exHf now' (keyOf [[98]] 1) b 1).1 := by
  obtain ⟨h0, S⟩ := started_exists exHf 0 8 exMarks (by decide) exMarks_ok
  obtain ⟨os, h, e⟩ := session_never_fails S exCfg exMid_fit
  obtain ⟨o, h', e', g⟩ := ask_leaves_others S exCfg exMid_fit e (now := 9000) (by omega) (ex_well 7 exA (by decide) (by decide : 1 < 65536))
  exact ⟨h0, os, h, o, h', S, e, e', g _ (by decide)⟩

/-- C96 at work: the IPv6 address of a name on the block list. -/
example : ∃ h0 os h, Started exHf 0 8 exMarks h0 ∧
    session exHf exCfg (exMid ++ [.ask 9000 (exAsk 7 [[88]] 28)]) h0 = .ok (os ++
      [⟨1, some (.synth (((exHead 7).refusal.enc ++ encName [[88]] ++ (be16 28 ++ [0, 1]) ++ soaNone).map some))⟩], h) := by
  obtain ⟨h0, S⟩ := started_exists exHf 0 8 exMarks (by decide) exMarks_ok
  obtain ⟨os, h, e⟩ := blocked_name_is_refused S exCfg exMid_fit (now := 9000) (by omega)
    (ex_well 7 exX (by decide) (by decide : 28 < 65536)) (Or.inr rfl) rfl rfl (by
      intro l hl c hc; simp at hl; subst hl; simp at hc; subst hc; decide)
    ⟨_, List.mem_singleton_self _, by decide⟩ (by
      intro x hx _
      simp only [exMarks, List.mem_singleton] at hx
      subst hx; rfl) (exHead 7) 0 1 [] [] rfl
  exact ⟨h0, os, h, S, e⟩

/-- What the clients of such a session get, byte for byte: first the second address, then the first. -/
def exRun : Res (List Outcome) :=
  ((Hash.init 0 8).run exHf (exMarks.map fun x => HOp.pin 0 x.1 x.2)).bind fun x =>
  (session exHf exCfg [.op (.put 0 (keyOf exName 1) exP.packed.enc 3600), .ask 2000 (exAsk 5 exName 1),
    .ask 9000 (exAsk 7 exName 1), .ask 9000 (exAsk 7 exName 15), .ask 921601 (exAsk 7 exName 1)] x.2).bind fun y => .ok y.1

set_option maxRecDepth 100000 in
example : exRun = .ok [⟨1, some (.udp ([0, 5, 129, 128, 0, 1, 0, 2, 0, 0, 0, 0] ++ [1, 65, 0, 0, 1, 0, 1] ++
      [192, 12, 0, 1, 0, 1, 0, 0, 14, 8, 0, 4, 10, 0, 0, 2] ++ [192, 12, 0, 1, 0, 1, 0, 0, 14, 8, 0, 4, 10, 0, 0, 1]))⟩,
    ⟨1, some (.udp ([0, 7, 129, 128, 0, 1, 0, 2, 0, 0, 0, 0] ++ [1, 65, 0, 0, 1, 0, 1] ++
      [192, 12, 0, 1, 0, 1, 0, 0, 13, 236, 0, 4, 10, 0, 0, 1] ++ [192, 12, 0, 1, 0, 1, 0, 0, 13, 236, 0, 4, 10, 0, 0, 2]))⟩,
    ⟨1, none⟩, ⟨-1, none⟩] := by decide +kernel

end FromCache
end Dw
