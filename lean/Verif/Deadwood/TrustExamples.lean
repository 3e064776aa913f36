import Verif.Deadwood.TrustProps
/-!
# Examples: whom to believe
-/

namespace Dw
namespace Trust
open DwStr Spec Dissect Incoming

/-- x.v.c -/
def tQ : List (List UInt8) := [[120], [118], [99]]

/-- v.c -/
def tV : List (List UInt8) := [[118], [99]]

/-- A server of the root, and one of v.c. -/
def tRoot : List UInt8 := referral (encName []) [[1, 9, 9, 9, 9]]
def tEvil : List UInt8 := referral (encName tV) [[1, 6, 6, 6, 6]]

def tCfg : Cfg := ⟨exTimes, true, fun _ => false, false, 1⟩

def tWire : Wire := ⟨7, [([], 0)], 1, true⟩

def tFill (p : List UInt8) : List UInt8 := p ++ List.replicate (520 - p.length) 0

/-- To the question for the address of x.v.c: v.c has the server v.c, whose address is 6.6.6.6. -/
def tRefer : Msg :=
  ⟨[0, 7, 0x84, 0], tQ, 1, 1, [], [⟨tV, 2, [0, 1], 300, [], [tV], []⟩], [⟨tV, 1, [0, 1], 120, [], [], [6, 6, 6, 6]⟩]⟩

def tReferPacket : List UInt8 :=
  [0, 7, 0x84, 0, 0, 1, 0, 0, 0, 1, 0, 1, 1, 120, 1, 118, 1, 99, 0, 0, 1, 0, 1,
   0xc0, 14, 0, 2, 0, 1, 0, 0, 1, 44, 0, 2, 0xc0, 14,
   0xc0, 14, 0, 1, 0, 1, 0, 0, 0, 120, 0, 4, 6, 6, 6, 6]

/-- The address of x.v.c is 1.2.3.4. -/
def tAnswer : Msg :=
  ⟨[0, 7, 0x84, 0], tQ, 1, 1, [⟨tQ, 1, [0, 1], 300, [], [], [1, 2, 3, 4]⟩], [], []⟩

def tAnswerPacket : List UInt8 :=
  [0, 7, 0x84, 0, 0, 1, 0, 1, 0, 0, 0, 0, 1, 120, 1, 118, 1, 99, 0, 0, 1, 0, 1,
   0xc0, 12, 0, 1, 0, 1, 0, 0, 1, 44, 0, 4, 1, 2, 3, 4]

/-- c has the server v.c, whose address is 6.6.6.6. -/
def tGrab : Msg :=
  ⟨[0, 7, 0x84, 0], tQ, 1, 1, [], [⟨[[99]], 2, [0, 1], 300, [], [tV], []⟩], [⟨tV, 1, [0, 1], 120, [], [], [6, 6, 6, 6]⟩]⟩

def tGrabPacket : List UInt8 :=
  [0, 7, 0x84, 0, 0, 1, 0, 0, 0, 1, 0, 1, 1, 120, 1, 118, 1, 99, 0, 0, 1, 0, 1,
   0xc0, 16, 0, 2, 0, 1, 0, 0, 1, 44, 0, 2, 0xc0, 14,
   0xc0, 14, 0, 1, 0, 1, 0, 0, 0, 120, 0, 4, 6, 6, 6, 6]

def tAsk : List UInt8 := encName tQ ++ be16 1

/-- The root server refers to that of v.c, which answers. -/
def tEvs : List Ev :=
  [.start 0 tAsk, .send 0 tWire, .receive 0 (tFill tReferPacket) 53 [(tWire, 1)], .receive 0 (tFill tAnswerPacket) 39 []]

def tView (r : Res State) : Option (List Entry × Log × List (List UInt8)) :=
  match r with
  | .ok s => some (s.cache, s.heard, s.judged)
  | _ => none

/-- Two clients wait; the server of v.c speaks for c. -/
def tBad : List Ev :=
  [.start 0 tAsk, .merge 0, .send 0 tWire, .receive 0 (tFill tGrabPacket) 53 [(tWire, 1), (tWire, 1)]]

/-- Two clients wait; the root server refers to that of v.c. -/
def tLost : List Ev :=
  [.start 0 tAsk, .merge 0, .send 0 tWire, .receive 0 (tFill tReferPacket) 53 [(tWire, 1), (tWire, 1)]]


theorem tRefer_from : tRefer.From tReferPacket where
  front := ⟨tReferPacket.drop 23, by decide⟩
  recs := by
    refine .cons (e := 37) ⟨25, 37, ⟨3, by decide, .asked (x := 0xc0) (y := 14) (a := [[120]]) (b := tV) (by decide) (by decide) (by decide) (by decide) rfl⟩,
        .pointer (x := 0xc0) (by decide) (by decide), ?_, by decide, by decide, ?_, ?_, ?_, by decide⟩
      (.cons (e := 53) ⟨39, 49, ⟨3, by decide, .asked (x := 0xc0) (y := 14) (a := [[120]]) (b := tV) (by decide) (by decide) (by decide) (by decide) rfl⟩,
        .pointer (x := 0xc0) (by decide) (by decide), ?_, by decide, by decide, ?_, .nil, ?_, by decide⟩ .nil)
    · unfold BytesAt; decide
    · unfold BytesAt; decide
    · exact .cons ⟨3, by decide, .asked (x := 0xc0) (y := 14) (a := [[120]]) (b := tV) (by decide) (by decide) (by decide) (by decide) rfl⟩
        (.pointer (x := 0xc0) (by decide) (by decide)) .nil
    · unfold BytesAt; decide
    · unfold BytesAt; decide
    · unfold BytesAt; decide
    · unfold BytesAt; decide

theorem tGrab_from : tGrab.From tGrabPacket where
  front := ⟨tGrabPacket.drop 23, by decide⟩
  recs := by
    refine .cons (e := 37) ⟨25, 37, ⟨2, by decide, .asked (x := 0xc0) (y := 16) (a := [[120], [118]]) (b := [[99]]) (by decide) (by decide) (by decide) (by decide) rfl⟩,
        .pointer (x := 0xc0) (by decide) (by decide), ?_, by decide, by decide, ?_, ?_, ?_, by decide⟩
      (.cons (e := 53) ⟨39, 49, ⟨3, by decide, .asked (x := 0xc0) (y := 14) (a := [[120]]) (b := tV) (by decide) (by decide) (by decide) (by decide) rfl⟩,
        .pointer (x := 0xc0) (by decide) (by decide), ?_, by decide, by decide, ?_, .nil, ?_, by decide⟩ .nil)
    · unfold BytesAt; decide
    · unfold BytesAt; decide
    · exact .cons ⟨3, by decide, .asked (x := 0xc0) (y := 14) (a := [[120]]) (b := tV) (by decide) (by decide) (by decide) (by decide) rfl⟩
        (.pointer (x := 0xc0) (by decide) (by decide)) .nil
    · unfold BytesAt; decide
    · unfold BytesAt; decide
    · unfold BytesAt; decide
    · unfold BytesAt; decide

theorem tAnswer_from : tAnswer.From tAnswerPacket where
  front := ⟨tAnswerPacket.drop 23, by decide⟩
  recs := by
    refine .cons (e := 39) ⟨25, 35, ⟨4, by decide, .asked (x := 0xc0) (y := 12) (a := []) (b := tQ) (by decide) (by decide) (by decide) (by decide) rfl⟩,
        .pointer (x := 0xc0) (by decide) (by decide), ?_, by decide, by decide, ?_, .nil, ?_, by decide⟩ .nil
    · unfold BytesAt; decide
    · unfold BytesAt; decide
    · unfold BytesAt; decide

theorem tRefer_plain : tRefer.Plain where
  head := rfl
  qname := ⟨by unfold LabelsOk; decide, by decide⟩
  printable := by decide
  qtype := by decide
  recs r hr := plain_of (List.all_eq_true.1 (show tRefer.all.all plainB = true by decide) r hr)
  a := by decide
  aaaa := by decide
  some := by decide
  size := by decide

theorem tGrab_plain : tGrab.Plain where
  head := rfl
  qname := ⟨by unfold LabelsOk; decide, by decide⟩
  printable := by decide
  qtype := by decide
  recs r hr := plain_of (List.all_eq_true.1 (show tGrab.all.all plainB = true by decide) r hr)
  a := by decide
  aaaa := by decide
  some := by decide
  size := by decide

theorem tAnswer_plain : tAnswer.Plain where
  head := rfl
  qname := ⟨by unfold LabelsOk; decide, by decide⟩
  printable := by decide
  qtype := by decide
  recs r hr := plain_of (List.all_eq_true.1 (show tAnswer.all.all plainB = true by decide) r hr)
  a := by decide
  aaaa := by decide
  some := by decide
  size := by decide

theorem tRefer_msg : IsMsg tReferPacket := ⟨by decide, tRefer, tRefer_plain, tRefer_from, by decide⟩
theorem tGrab_msg : IsMsg tGrabPacket := ⟨by decide, tGrab, tGrab_plain, tGrab_from, by decide⟩
theorem tAnswer_msg : IsMsg tAnswerPacket := ⟨by decide, tAnswer, tAnswer_plain, tAnswer_from, by decide⟩

theorem tAsk_ordinary : Ordinary tAsk := by
  intro n t ht h
  obtain ⟨-, h⟩ := List.append_inj' (show encName tQ ++ be16 1 = n ++ be16 t from h) rfl
  have := be16_inj (by decide) ht h
  omega

theorem view_some {r : Res State} {c : List Entry} {h : Log} {j : List (List UInt8)} (hv : tView r = some (c, h, j)) :
    ∃ s, r = .ok s ∧ s.cache = c ∧ s.heard = h ∧ s.judged = j := by
  cases r with
  | ok s => simp only [tView, Option.some.injEq, Prod.mk.injEq] at hv; exact ⟨s, rfl, hv⟩
  | err => cases hv
  | ub => cases hv

def tKept : List UInt8 := (⟨tAnswer.an, [], [], 0⟩ : Answers).packed.enc

set_option maxRecDepth 100000 in
/-- What is in the cache after the root server referred to that of v.c and this has answered. -/
theorem tEvs_run : ∃ s, run tCfg [] (State.init [([], tRoot)]) tEvs = .ok s ∧
    s.cache = [⟨tAsk, tKept, false⟩, ⟨encName tV ++ be16 65395, tEvil, false⟩, ⟨encName [] ++ be16 65395, tRoot, true⟩] ∧
    s.heard = [(tEvil, tAnswerPacket), (tRoot, tReferPacket)] ∧ s.judged = [tEvil, tRoot] :=
  view_some (by decide +kernel)

theorem tEvs_ok : ∀ e ∈ tEvs, e.Ok := by
  intro e he
  simp only [tEvs, List.mem_cons, List.not_mem_nil, or_false] at he
  rcases he with rfl | rfl | rfl | rfl
  · exact tAsk_ordinary
  · trivial
  · show (tFill tReferPacket).length = 520
    decide +kernel
  · show (tFill tAnswerPacket).length = 520
    decide +kernel

theorem tConf_ok : ConfOk [([], tRoot)] := by
  intro c hc
  simp only [List.mem_singleton] at hc
  subst hc
  exact ⟨⟨by simp [LabelsOk], by decide⟩, ⟨_, rfl⟩, by decide⟩

/-- Both the servers of v.c and the answer have been heard from those who may say so. -/
example : ∃ s, run tCfg [] (State.init [([], tRoot)]) tEvs = .ok s ∧
    Trusted [([], tRoot)] s.heard tV tEvil ∧ Answered [([], tRoot)] s.heard (Joins tCfg) tQ 1 tKept := by
  obtain ⟨s, h, hc, hh, hj⟩ := tEvs_run
  have hm : ∀ x ∈ s.heard, IsMsg x.2 := by
    rw [hh]
    intro x hx
    simp only [List.mem_cons, List.not_mem_nil, or_false] at hx
    rcases hx with rfl | rfl
    exacts [tAnswer_msg, tRefer_msg]
  have hb : [0, 16] ∉ s.judged := by rw [hj]; decide
  refine ⟨s, h, ?_, ?_⟩
  · have := (trust_chain_partial tConf_ok (by decide) tEvs_ok h hm hb (z := tV) ⟨by unfold LabelsOk; decide, by decide⟩
      (t := 65395) (by decide) (value := tEvil) (by rw [hc]; decide)).1 rfl
    rcases this with h | h
    · exact absurd h.1 (by decide)
    · exact h
  · exact (trust_chain_partial tConf_ok (by decide) tEvs_ok h hm hb (z := tQ) ⟨by unfold LabelsOk; decide, by decide⟩
      (t := 1) (by decide) (value := tKept) (by rw [hc]; decide +kernel)).2.2 (by decide) (by decide)

set_option maxRecDepth 100000 in
theorem tBad_run : ∃ s, run tCfg [] (State.init [([], tRoot), (tV, tEvil)]) tBad = .ok s ∧
    s.cache = [⟨encName [[99]] ++ be16 65395, referral (encName [[99]]) [[1, 6, 6, 6, 6]], false⟩,
      ⟨encName [] ++ be16 65395, tRoot, true⟩, ⟨encName tV ++ be16 65395, tEvil, true⟩] ∧
    s.heard = [(tEvil, tGrabPacket), (tEvil, tGrabPacket)] ∧ s.judged = [[0, 16], tEvil] :=
  view_some (by decide +kernel)

/-- The servers of v.c have nobody's word for c. -/
theorem tBad_trusted {heard : Log} (hh : ∀ x ∈ heard, x.1 = tEvil) {z : List (List UInt8)} {l : List UInt8}
    (h : Trusted [([], tRoot), (tV, tEvil)] heard z l) : (z = [] ∧ l = tRoot) ∨ Below z tV := by
  induction h with
  | configured h =>
    simp only [List.mem_cons, Prod.mk.injEq, List.not_mem_nil, or_false] at h
    rcases h with ⟨rfl, rfl⟩ | ⟨rfl, rfl⟩
    · exact .inl ⟨rfl, rfl⟩
    · exact .inr (below_refl _)
  | referred _ said _ _ may _ ih =>
    rcases ih with ⟨-, e⟩ | ih
    · have := hh _ said
      simp only at this
      rw [e] at this
      exact absurd this (by decide)
    · exact .inr (below_trans may.1.1 ih)

/-- Finding (C109).  Two clients wait for the same answer, and a server of v.c replies that c is served by its own server: that is what the
cache then has as the servers of c, although nobody who may speak for c has said so. -/
theorem trust_broken : ∃ (cfg : Cfg) (conf : Conf) (evs : List Ev) (s : State) (z : List (List UInt8)) (l : List UInt8),
    ConfOk conf ∧ (cfg.glueType < 65536 ∧ cfg.glueType ≠ 65394 ∧ cfg.glueType ≠ 65395) ∧ (∀ e ∈ evs, e.Ok) ∧
    run cfg [] (State.init conf) evs = .ok s ∧ (∀ x ∈ s.heard, IsMsg x.2) ∧ Spec.NameOk z ∧ z ≠ [] ∧
    get s.cache (encName z ++ be16 65395) = some l ∧ ¬ Trusted conf s.heard z l := by
  obtain ⟨s, h, hc, hh, hj⟩ := tBad_run
  refine ⟨tCfg, [([], tRoot), (tV, tEvil)], tBad, s, [[99]], referral (encName [[99]]) [[1, 6, 6, 6, 6]], ?_, by decide, ?_, h, ?_,
    ⟨by unfold LabelsOk; decide, by decide⟩, by decide, by rw [hc]; decide, ?_⟩
  · intro c hc
    simp only [List.mem_cons, List.not_mem_nil, or_false] at hc
    rcases hc with rfl | rfl
    · exact ⟨⟨by simp [LabelsOk], by decide⟩, ⟨_, rfl⟩, by decide⟩
    · exact ⟨⟨by unfold LabelsOk; decide, by decide⟩, ⟨[1, 6, 6, 6, 6, 0, 5, 1, 16], by decide⟩, by decide⟩
  · intro e he
    simp only [tBad, List.mem_cons, List.not_mem_nil, or_false] at he
    rcases he with rfl | rfl | rfl | rfl
    · exact tAsk_ordinary
    · trivial
    · trivial
    · show (tFill tGrabPacket).length = 520
      decide +kernel
  · rw [hh]
    intro x hx
    simp only [List.mem_cons, List.not_mem_nil, or_false, or_self] at hx
    subst hx
    exact tGrab_msg
  · intro ht
    rcases tBad_trusted (by rw [hh]; intro x hx; simp only [List.mem_cons, List.not_mem_nil, or_false, or_self] at hx; rw [hx]) ht with ⟨e, -⟩ | e
    · exact absurd e (by decide)
    · exact absurd e (by decide)

/-! ### Whoever is asked -/

def tSock (r : Res State) : Option (List UInt8 × Option (List UInt8) × List UInt8 × List UInt8) :=
  match r with
  | .ok s => (s.slots 0).bind fun sl => sl.sock.map fun k => (sl.query, sl.ns, k.ip, k.list)
  | _ => none

theorem sock_some {s : State} {q i l : List UInt8} {n : Option (List UInt8)} (h : tSock (.ok s) = some (q, n, i, l)) :
    ∃ sl k, s.slots 0 = some sl ∧ sl.sock = some k ∧ sl.query = q ∧ sl.ns = n ∧ k.ip = i ∧ k.list = l := by
  simp only [tSock, Option.bind_eq_some_iff, Option.map_eq_some_iff, Prod.mk.injEq] at h
  obtain ⟨sl, h1, k, h2, h3⟩ := h
  exact ⟨sl, k, h1, h2, h3⟩

set_option maxRecDepth 100000 in
/-- After the root server referred to that of v.c, this is asked, at 6.6.6.6; it may speak for x.v.c. -/
example : ∃ s sl k, run tCfg [] (State.init [([], tRoot)]) (tEvs.take 3) = .ok s ∧ s.slots 0 = some sl ∧ sl.sock = some k ∧
    k.ip = [6, 6, 6, 6] ∧ ∃ zone, Trusted [([], tRoot)] s.heard zone k.list ∧ Below tQ zone := by
  obtain ⟨s, h, hc, hh, hj⟩ := view_some (r := run tCfg [] (State.init [([], tRoot)]) (tEvs.take 3))
    (c := [⟨encName tV ++ be16 65395, tEvil, false⟩, ⟨encName [] ++ be16 65395, tRoot, true⟩])
    (h := [(tRoot, tReferPacket)]) (j := [tRoot]) (by decide +kernel)
  have hs : tSock (run tCfg [] (State.init [([], tRoot)]) (tEvs.take 3)) = some (tAsk, some tEvil, [6, 6, 6, 6], tEvil) := by decide +kernel
  rw [h] at hs
  obtain ⟨sl, k, h1, h2, h3, h4, h5, h6⟩ := sock_some hs
  refine ⟨s, sl, k, h, h1, h2, h5, ?_⟩
  refine asked_chain_partial tConf_ok (by decide) (fun e he => tEvs_ok e (List.mem_of_mem_take he)) h ?_ (by rw [hj]; decide) h1 h2
    (q := tQ) ⟨by unfold LabelsOk; decide, by decide⟩ (t := 1) (by decide) h3 (by rw [h4]; decide)
  rw [hh]
  intro x hx
  rw [List.mem_singleton.1 hx]
  exact tRefer_msg

/-! ### Several clients -/

/-- x.v.c is asked for, from the servers of v.c. -/
def tSlot : Slot := ⟨tAsk, some ⟨7, [6, 6, 6, 6], tEvil⟩, some tEvil, false, some 0, none, 1, .client⟩

set_option maxRecDepth 100000 in
theorem tAnswer_step : cacheDnsReply tCfg.times tCfg.filter tCfg.blocked (Remote.dstr tEvil) false (tFill tAnswerPacket) 39 [] =
    .ok (.step ⟨[⟨tAsk, tKept, 300⟩], none, none⟩) := by decide +kernel

/-- The answer for five clients. -/
example : ∃ s', passes tCfg 0 tEvil 39 [] 5 ((State.init []).set 0 (some tSlot)) (tFill tAnswerPacket) [] = .ok s' ∧
    s'.cache = [⟨tAsk, tKept, false⟩] ∧ s'.slots = ((State.init []).set 0 (some tSlot)).slots := by
  obtain ⟨s', h1, h2, h3⟩ := clients_answer (cfg := tCfg) (s := (State.init []).set 0 (some tSlot)) (b := 0) (sl := tSlot) (from_ := tEvil)
    (a := tFill tAnswerPacket) (l := tEvil) (junk := []) (count := 39) (f := 0x84) (m := 1) (p := ⟨tAsk, tKept, 300⟩)
    (by rfl) rfl (by rfl) (by rfl) (by decide) tAnswer_step 4 []
  exact ⟨s', h1, h2, h3⟩

def tOne : Answers := ⟨[], [exNs exD exX, exNs exD exBank], [exA exX [1, 2, 3, 4]], 0⟩

theorem tOne_reply : Reply (ofBytes tOne.packed.enc) tOne :=
  reply_of _ (by decide +kernel) (by decide +kernel) (by decide) (by decide) (by decide +kernel)

/-- The servers of a.e have been referred to; the same reply judged as theirs. -/
example : ∃ t, cacheReply exTimes (Remote.dstr (referral (encName exD) [[1, 1, 2, 3, 4]])) false exQuery (ofBytes tOne.packed.enc) 60 [] =
    .ok ⟨[⟨encName [] ++ be16 65395, [0, 16], t⟩], some [0, 16], none⟩ :=
  referral_spent exTimes (z := exD) ⟨by unfold LabelsOk; decide, by decide⟩ (by decide) exQuery_asks tOne_reply (by decide) rfl
    (r := exNs exD exX) (rest := [exNs exD exBank]) rfl rfl (by decide) (by decide) (by decide) (x := [1, 1, 2, 3, 4, 0, 5, 1, 16])
    (by decide) (by decide) 60 []

def tUp : Answers := ⟨[], [exNs [[101]] exX], [exA exX [1, 2, 3, 4]], 0⟩

theorem tUp_reply : Reply (ofBytes tUp.packed.enc) tUp :=
  reply_of _ (by decide +kernel) (by decide +kernel) (by decide) (by decide) (by decide +kernel)

/-- The servers of a.e say who serves e. -/
example : ∃ l t z t', cacheReply exTimes (Remote.dstr (referral (encName exD) [[1, 1, 2, 3, 4]])) false exQuery (ofBytes tUp.packed.enc) 60 [] =
      .ok ⟨[⟨encName [] ++ be16 65395, l, t⟩], some l, none⟩ ∧ ¬ MayDelegate exD exW z ∧
    cacheReply exTimes (Remote.dstr l) false exQuery (ofBytes tUp.packed.enc) 60 [] =
      .ok ⟨[⟨encName z ++ be16 65395, referral (encName z) [[1, 1, 2, 3, 4]], t'⟩], some (referral (encName z) [[1, 1, 2, 3, 4]]), none⟩ :=
  refused_then_believed exTimes (bs := exD)
    ⟨Remote.dstr_usable (by decide), ⟨by unfold LabelsOk; decide, by decide⟩, ⟨[1, 1, 2, 3, 4, 0, 5, 1, 16], by rw [Remote.dstr_contents]; decide⟩⟩
    (by decide) exQuery_asks tUp_reply (by decide) rfl (r := exNs [[101]] exX) (rest := []) rfl rfl (by decide) (by decide) (by decide)
    (by decide) (by decide) (by decide) (es := [[1, 1, 2, 3, 4]]) (by decide) (by decide) 60 []

end Trust
end Dw
