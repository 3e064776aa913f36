import Verif.Co.SessionLemmas
/-!
# coLunacyDNS: what clients get over any sequence of events

Any script, any packets of other clients, any replies of other servers, any timeouts, in any order.
-/

namespace Co
open Dw (Res)
open Spec.Script (Quest Body)

/-- What a script can be told after it asked: an error, that nothing came, or what is in a packet that came, for the name that it
asked for. -/
inductive Tells (es : List Event) (ask : Ask) : Told → Prop
  | error (why : String) : Tells es ask (.error why)
  | nothing : Tells es ask (.answer (txt "DNS connect error") 0)
  | heard {z name k bits j id n data junk luck told} : ask.name = some z → human2DNS bits j z = .ok (some (name, k)) →
      Event.heard n data junk luck ∈ es → hear name id data junk = .ok told → Tells es ask told

/-- What the script comes to when it is started with a question, and told what it can be told each time it asks.  Its global state can be anything
(other questions may have changed it). -/
inductive Says (L : Script) (es : List Event) (Q : Query) : Step L.Co → Prop
  | start (st : L.St) : Says L es Q (L.start st Q).2
  | resume {ask co told} (st : L.St) : Says L es Q (.solve (some ask) co) → Tells es ask told → Says L es Q (L.resume st co told).2
  | refused {ask co} (why : String) (st : L.St) : Says L es Q (.solve ask co) → Says L es Q (L.resume st co (.error why)).2

/-- The client sent this question. -/
def Asked (es : List Event) (c : Client) (q : Quest) : Prop := q.Ok ∧ ∃ junk luck, Event.packet c q.bytes junk luck ∈ es

/-- A reply to a question of the client: it says what the script says about that very question. -/
def Answers (L : Script) (inet : List UInt8 → UInt32) (es : List Event) (c : Client) (bytes : List UInt8) : Prop :=
  ∃ q, Asked es c q ∧
    if q.qtype = 255 ∨ q.qtype = 13 then bytes = sent .any q q.header.aa q.header.ra
    else ∃ r b, Says L es (c.query q) (.done (some r)) ∧ r.body inet = some b ∧
      bytes = sent b q (decide (r.aa = some 1)) (decide (r.ra = some 1))

/-- A question that is worked on. -/
def Working (L : Script) (es : List Event) (c : Client) (buf : List UInt8) (qLen : Nat) (st : Step L.Co) : Prop :=
  ∃ q, Asked es c q ∧ ¬ (q.qtype = 255 ∨ q.qtype = 13) ∧ Prepared q buf qLen ∧ Says L es (c.query q) st

/-- All questions of the client that wait. -/
def Waiting (L : Script) (es : List Event) (c : Client) (s : Server L) : Prop :=
  ∀ w, some w ∈ s.slots → w.client = c → ∃ ask z k bits j, Working L es c w.buf w.qLen (.solve (some ask) w.co) ∧ ask.name = some z ∧
    human2DNS bits j z = .ok (some (w.name, k))

theorem finish_answers {L : Script} {inet : List UInt8 → UInt32} {es : List Event} {s s' : Server L} {c : Client} {buf : List UInt8} {qLen : Nat}
    {st : Step L.Co} {out : List Out} (h : finish inet s c buf qLen st = .ok (s', out)) {c₀ : Client}
    (hw : c = c₀ → Working L es c buf qLen st) (bytes : List UInt8) (hb : Out.reply c₀ bytes ∈ out) : Answers L inet es c₀ bytes := by
  obtain ⟨_, ho | ⟨r, by', hst, he, ho⟩⟩ := finish_ok h
  · rw [ho] at hb; cases hb
  · rw [ho] at hb
    simp only [List.mem_singleton, Out.reply.injEq] at hb
    obtain ⟨e1, e2⟩ := hb
    subst e1 e2
    obtain ⟨q, ha, hn, hp, hs⟩ := hw rfl
    rw [endThread_body inet q buf qLen hp] at he
    simp only [Res.ok.injEq, Option.map_eq_some_iff] at he
    obtain ⟨b, hb, hs'⟩ := he
    refine ⟨q, ha, ?_⟩
    rw [if_neg hn]
    exact ⟨r, b, hst ▸ hs, hb, hs'.symm⟩

theorem drive_session {L : Script} {inet : List UInt8 → UInt32} {es : List Event} {s s' : Server L} {c : Client} {buf : List UInt8} {qLen : Nat}
    {luck : Luck} {st : Step L.Co} {out : List Out} (h : drive inet s c buf qLen st luck = .ok (s', out)) {c₀ : Client}
    (hw : c = c₀ → Working L es c buf qLen st) (hs : Waiting L es c₀ s) :
    Waiting L es c₀ s' ∧ ∀ bytes, Out.reply c₀ bytes ∈ out → Answers L inet es c₀ bytes := by
  cases drive_ok h with
  | waits hb =>
    refine ⟨?_, ?_⟩
    · intro w hm hc
      rw [hb.next] at hm
      simp only at hm
      rcases List.mem_or_eq_of_mem_set hm with hm | hm
      · exact hs w hm hc
      · simp only [Option.some.injEq] at hm
        subst hm
        have hc' : c = c₀ := hc
        subst hc'
        have := hw rfl
        rw [hb.asks] at this
        exact ⟨_, _, _, _, _, this, hb.name, hb.sent⟩
    · intro bytes hm
      rw [hb.outs] at hm
      split_ifs at hm <;> simp at hm
  | over h' =>
    refine ⟨?_, fun bytes hm => finish_answers h' hw bytes hm⟩
    rw [(finish_ok h').1]; exact hs
  | error h' =>
    refine ⟨?_, fun bytes hm => finish_answers h' ?_ bytes hm⟩
    · rw [(finish_ok h').1]; exact hs
    · intro e
      obtain ⟨q, a1, a2, a3, a4⟩ := hw e
      exact ⟨q, a1, a2, a3, .refused _ _ a4⟩

theorem question_cases {L : Script} {inet : List UInt8 → UInt32} {s s' : Server L} {c : Client} {pkt junk : List UInt8} {luck : Luck} {out : List Out}
    (h : question inet s c pkt junk luck = .ok (s', out)) :
    (s' = s ∧ (out = [] ∨ ∃ bytes, out = [.reply c bytes])) ∨
      ∃ Q buf qLen, drive inet { s with lua := (L.start s.lua Q).1 } c buf qLen (L.start s.lua Q).2 luck = .ok (s', out) := by
  unfold question at h
  simp only at h
  split at h
  · simp only [Res.ok.injEq, Prod.mk.injEq] at h; exact .inl ⟨h.1.symm, .inl h.2.symm⟩
  obtain ⟨x, _, h⟩ := bind_ok h
  split at h
  · simp only [Res.ok.injEq, Prod.mk.injEq] at h; exact .inl ⟨h.1.symm, .inl h.2.symm⟩
  obtain ⟨buf, _, h⟩ := bind_ok h
  obtain ⟨y, _, h⟩ := bind_ok h
  split at h
  · simp only [Res.ok.injEq, Prod.mk.injEq] at h; exact .inl ⟨h.1.symm, .inl h.2.symm⟩
  split at h
  · simp only [Res.ok.injEq, Prod.mk.injEq] at h; exact .inl ⟨h.1.symm, .inl h.2.symm⟩
  obtain ⟨hi, _, h⟩ := bind_ok h
  obtain ⟨lo, _, h⟩ := bind_ok h
  split at h
  · obtain ⟨b2, _, h⟩ := bind_ok h
    obtain ⟨o, _, h⟩ := bind_ok h
    simp only [Res.ok.injEq, Prod.mk.injEq] at h
    refine .inl ⟨h.1.symm, ?_⟩
    rw [← h.2]
    split_ifs
    · exact .inr ⟨_, rfl⟩
    · exact .inl rfl
  · exact .inr ⟨_, _, _, h⟩

theorem step_session {L : Script} {inet : List UInt8 → UInt32} {es : List Event} {s s' : Server L} {e : Event} {out : List Out}
    (h : step inet s e = .ok (s', out)) {c₀ : Client} (he : e ∈ es)
    (hes : ∀ pkt junk luck, Event.packet c₀ pkt junk luck ∈ es → ∃ q : Quest, q.Ok ∧ pkt = q.bytes) (hs : Waiting L es c₀ s) :
    Waiting L es c₀ s' ∧ ∀ bytes, Out.reply c₀ bytes ∈ out → Answers L inet es c₀ bytes := by
  cases e with
  | packet c pkt junk luck =>
    simp only [step] at h
    by_cases hc : c = c₀
    · subst hc
      obtain ⟨q, hq, rfl⟩ := hes _ _ _ he
      obtain ⟨buf, qLen, hp, hqe⟩ := question_ok inet s c q hq junk luck
      rw [hqe] at h
      split_ifs at h with h1 h2
      · simp only [Res.ok.injEq, Prod.mk.injEq] at h
        refine ⟨h.1 ▸ hs, fun bytes hm => ⟨q, ⟨hq, _, _, he⟩, ?_⟩⟩
        rw [if_pos h1]
        rw [← h.2] at hm
        simpa using hm
      · simp only [Res.ok.injEq, Prod.mk.injEq] at h
        refine ⟨h.1 ▸ hs, fun bytes hm => ?_⟩
        rw [← h.2] at hm; cases hm
      · exact drive_session h (fun _ => ⟨q, ⟨hq, _, _, he⟩, h1, hp, .start _⟩) hs
    · rcases question_cases h with ⟨e1, e2⟩ | ⟨Q, buf, qLen, hd⟩
      · subst e1
        refine ⟨hs, fun bytes hm => ?_⟩
        rcases e2 with e2 | ⟨b, e2⟩ <;> rw [e2] at hm
        · cases hm
        · simp only [List.mem_singleton, Out.reply.injEq] at hm
          exact absurd hm.1.symm hc
      · exact drive_session hd (fun e => absurd e hc) hs
  | heard n data junk luck =>
    simp only [step] at h
    split at h
    · rename_i w hw
      split_ifs at h
      · obtain ⟨told, ht, h⟩ := bind_ok h
        refine drive_session h ?_ ?_
        · intro hc
          obtain ⟨ask, z, k, bits, j, ⟨q, a1, a2, a3, a4⟩, b1, b2⟩ := hs w (List.mem_of_getElem? hw) hc
          rw [hc]
          exact ⟨q, a1, a2, a3, .resume _ a4 (.heard b1 b2 he ht)⟩
        · intro w' hm hc
          rcases List.mem_or_eq_of_mem_set hm with hm | hm
          · exact hs w' hm hc
          · cases hm
      · simp only [Res.ok.injEq, Prod.mk.injEq] at h
        refine ⟨h.1 ▸ hs, fun bytes hm => ?_⟩
        rw [← h.2] at hm; cases hm
    · simp only [Res.ok.injEq, Prod.mk.injEq] at h
      refine ⟨h.1 ▸ hs, fun bytes hm => ?_⟩
      rw [← h.2] at hm; cases hm
  | timeout n luck =>
    simp only [step] at h
    split at h
    · rename_i w hw
      refine drive_session h ?_ ?_
      · intro hc
        obtain ⟨ask, z, k, bits, j, ⟨q, a1, a2, a3, a4⟩, b1, b2⟩ := hs w (List.mem_of_getElem? hw) hc
        rw [hc]
        exact ⟨q, a1, a2, a3, .resume _ a4 .nothing⟩
      · intro w' hm hc
        rcases List.mem_or_eq_of_mem_set hm with hm | hm
        · exact hs w' hm hc
        · cases hm
    · simp only [Res.ok.injEq, Prod.mk.injEq] at h
      refine ⟨h.1 ▸ hs, fun bytes hm => ?_⟩
      rw [← h.2] at hm; cases hm

theorem run_session {L : Script} {inet : List UInt8 → UInt32} {es : List Event} {c₀ : Client}
    (hes : ∀ pkt junk luck, Event.packet c₀ pkt junk luck ∈ es → ∃ q : Quest, q.Ok ∧ pkt = q.bytes) :
    ∀ (es' : List Event) (s s' : Server L) (out : List Out), (∀ e ∈ es', e ∈ es) → Waiting L es c₀ s → run inet s es' = .ok (s', out) →
      ∀ bytes, Out.reply c₀ bytes ∈ out → Answers L inet es c₀ bytes := by
  intro es'
  induction es' with
  | nil =>
    intro s s' out _ _ h bytes hm
    simp only [run, Res.ok.injEq, Prod.mk.injEq] at h
    rw [← h.2] at hm; cases hm
  | cons e es' ih =>
    intro s s' out hsub hs h bytes hm
    unfold run at h
    obtain ⟨⟨s1, o1⟩, h1, h⟩ := bind_ok h
    obtain ⟨⟨s2, o2⟩, h2, h⟩ := bind_ok h
    simp only [Res.ok.injEq, Prod.mk.injEq] at h
    obtain ⟨g1, g2⟩ := step_session h1 (hsub e (by simp)) hes hs
    rw [← h.2] at hm
    rcases List.mem_append.mp hm with hm | hm
    · exact g2 bytes hm
    · exact ih s1 s2 o2 (fun x hx => hsub x (by simp [hx])) g1 h2 bytes hm

/-- Whatever happens after the start, every reply to a client that sends questions is a reply to one of its questions, and says what the script
says about that question. -/
theorem replies_say_what_the_script_says (L : Script) (inet : List UInt8 → UInt32) (lua : L.St) (es : List Event) (c : Client)
    (hes : ∀ pkt junk luck, Event.packet c pkt junk luck ∈ es → ∃ q : Quest, q.Ok ∧ pkt = q.bytes)
    (s : Server L) (out : List Out) (h : run inet (fresh L lua) es = .ok (s, out)) (bytes : List UInt8) (hb : Out.reply c bytes ∈ out) :
    Answers L inet es c bytes := by
  refine run_session hes es (fresh L lua) s out (fun _ h => h) ?_ h bytes hb
  intro w hm
  cases List.eq_of_mem_replicate hm

end Co
