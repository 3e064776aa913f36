import Verif.Co.SessionProps
import Verif.Co.NameProps
import Verif.Co.OnceProps
/-!
# coLunacyDNS: memory is not misused

As long as clients send questions, replies of other servers can be read, and there is a free place for a question that waits.  (What happens
otherwise is in `Faults.lean`.)
-/

namespace Co
open Dw (Res)
open Spec.Script (Quest Body)

theorem findSlot_safe {α : Type} {slots : List (Option α)} : ∀ (n a i : Nat), slots[i]? = some none → a ≤ i → ∃ r, findSlot slots n a = .ok r := by
  intro n
  induction n with
  | zero => intro a i _ _; exact ⟨none, rfl⟩
  | succ n ih =>
    intro a i hi ha
    have hlt : a < slots.length := by
      obtain ⟨h, _⟩ := List.getElem?_eq_some_iff.1 hi
      omega
    unfold findSlot
    rw [List.getElem?_eq_getElem hlt]
    by_cases e : a = i
    · subst e
      rw [List.getElem?_eq_getElem hlt] at hi
      simp only [Option.some.injEq] at hi
      rw [hi]; exact ⟨_, rfl⟩
    · cases h : slots[a] with
      | none => exact ⟨_, rfl⟩
      | some w => exact ih (a + 1) i hi (by omega)

theorem finish_safe {L : Script} (inet : List UInt8 → UInt32) (s : Server L) (c : Client) (q : Quest) (buf : List UInt8) (qLen : Nat) (hp : Prepared q buf qLen)
    (st : Step L.Co) : ∃ r, finish inet s c buf qLen st = .ok r := by
  cases st with
  | done r =>
    cases r with
    | none => exact ⟨_, rfl⟩
    | some r =>
      unfold finish
      simp only [endThread_body inet q buf qLen hp, Dw.Res.ok_bind]
      split <;> exact ⟨_, rfl⟩
  | broke => exact ⟨_, rfl⟩
  | solve a co => exact ⟨_, rfl⟩

theorem newDNS_safe {L : Script} (inet : List UInt8 → UInt32) (s : Server L) (c : Client) (buf : List UInt8) (qLen : Nat) (ask : Option Ask) (co : L.Co)
    (luck : Luck) (hf : none ∈ s.slots) : ∃ r, newDNS inet s c buf qLen ask co luck = .ok r := by
  obtain ⟨i, hi⟩ := List.mem_iff_getElem?.1 hf
  unfold newDNS
  split
  · exact ⟨_, rfl⟩
  split
  · exact ⟨_, rfl⟩
  split
  · exact ⟨_, rfl⟩
  split
  · exact ⟨_, rfl⟩
  split
  · exact ⟨_, rfl⟩
  rename_i z _
  obtain ⟨r, hr, _⟩ := asking_is_safe luck.bits luck.junk z
  rw [hr]
  simp only [Dw.Res.ok_bind]
  split
  · exact ⟨_, rfl⟩
  obtain ⟨x, hx⟩ := findSlot_safe (s.top + 2) 0 i hi (by omega)
  rw [hx]
  simp only [Dw.Res.ok_bind]
  split <;> exact ⟨_, rfl⟩

theorem drive_safe {L : Script} (inet : List UInt8 → UInt32) (s : Server L) (c : Client) (q : Quest) (buf : List UInt8) (qLen : Nat) (hp : Prepared q buf qLen)
    (st : Step L.Co) (luck : Luck) (hf : none ∈ s.slots) : ∃ r, drive inet s c buf qLen st luck = .ok r := by
  cases st with
  | done r => exact finish_safe inet s c q buf qLen hp (.done r)
  | broke => exact finish_safe inet s c q buf qLen hp .broke
  | solve a co =>
    simp only [drive]
    obtain ⟨r, hr⟩ := newDNS_safe inet s c buf qLen a co luck hf
    rw [hr]
    simp only [Dw.Res.ok_bind]
    cases r with
    | started s' out => exact ⟨_, rfl⟩
    | busy => exact finish_safe inet _ c q buf qLen hp _
    | bad why => exact finish_safe inet _ c q buf qLen hp _

theorem step_safe {L : Script} (inet : List UInt8 → UInt32) (es : List Event) (s : Server L) (e : Event) (he : e ∈ es)
    (hq : ∀ c pkt junk luck, Event.packet c pkt junk luck ∈ es → ∃ q : Quest, q.Ok ∧ pkt = q.bytes)
    (hh : ∀ n data junk luck, Event.heard n data junk luck ∈ es → ∀ name id, ∃ told, hear name id data junk = .ok told)
    (hw : ∀ c, Waiting L es c s) (hf : none ∈ s.slots) : ∃ r, step inet s e = .ok r := by
  have wake (n : Nat) (w : Wait L.Co) (told : Told) (luck : Luck) (h : s.slots[n]? = some (some w)) : ∃ r, resumeThread inet s n w told luck = .ok r := by
    obtain ⟨_, _, _, _, _, ⟨q, _, _, hp, _⟩, _⟩ := hw w.client w (List.mem_of_getElem? h) rfl
    refine drive_safe inet _ _ q _ _ hp _ _ ?_
    have hl : n < s.slots.length := (List.getElem?_eq_some_iff.1 h).1
    exact List.mem_iff_getElem?.2 ⟨n, by simp [hl]⟩
  cases e with
  | packet c pkt junk luck =>
    obtain ⟨q, hok, rfl⟩ := hq _ _ _ _ he
    obtain ⟨buf, qLen, hp, hqe⟩ := question_ok inet s c q hok junk luck
    simp only [step]
    rw [hqe]
    split
    · exact ⟨_, rfl⟩
    · exact drive_safe inet _ _ q _ _ hp _ _ hf
  | heard n data junk luck =>
    simp only [step]
    split
    · rename_i w h
      split
      · obtain ⟨told, ht⟩ := hh _ _ _ _ he w.name w.id
        rw [ht]
        exact wake n w told luck h
      · exact ⟨_, rfl⟩
    · exact ⟨_, rfl⟩
  | timeout n luck =>
    simp only [step]
    split
    · rename_i w h
      exact wake n w _ luck h
    · exact ⟨_, rfl⟩

/-- From the start on, memory is not misused as long as the packets of clients are questions, the replies of other servers can be read, and
there is a free place for a question that waits. -/
theorem questions_are_safe (L : Script) (inet : List UInt8 → UInt32) (lua : L.St) (es : List Event)
    (hq : ∀ c pkt junk luck, Event.packet c pkt junk luck ∈ es → ∃ q : Quest, q.Ok ∧ pkt = q.bytes)
    (hh : ∀ n data junk luck, Event.heard n data junk luck ∈ es → ∀ name id, ∃ told, hear name id data junk = .ok told)
    (hf : ∀ es' s out, es' <+: es → run inet (fresh L lua) es' = .ok (s, out) → none ∈ s.slots) :
    ∃ s out, run inet (fresh L lua) es = .ok (s, out) := by
  have go : ∀ (es' : List Event) (s : Server L), (∀ e ∈ es', e ∈ es) → (∀ c, Waiting L es c s) →
      (∀ es'' s' out, es'' <+: es' → run inet s es'' = .ok (s', out) → none ∈ s'.slots) → ∃ s' out, run inet s es' = .ok (s', out) := by
    intro es'
    induction es' with
    | nil => intro s _ _ _; exact ⟨s, [], rfl⟩
    | cons e es' ih =>
      intro s hin hw hfree
      have h0 : none ∈ s.slots := hfree [] s [] List.nil_prefix rfl
      obtain ⟨⟨s1, o1⟩, h1⟩ := step_safe inet es s e (hin e (by simp)) hq hh hw h0
      have hw1 : ∀ c, Waiting L es c s1 := fun c => (step_session h1 (hin e (by simp)) (fun pkt junk luck h => hq c pkt junk luck h) (hw c)).1
      obtain ⟨s2, o2, h2⟩ := ih s1 (fun x hx => hin x (by simp [hx])) hw1 (by
        intro es'' s' out hp hr
        refine hfree (e :: es'') s' (o1 ++ out) (List.prefix_cons_inj e |>.mpr hp) ?_
        unfold run
        rw [h1]
        simp only [Dw.Res.ok_bind]
        rw [hr]
        rfl)
      refine ⟨s2, o1 ++ o2, ?_⟩
      unfold run
      rw [h1]
      simp only [Dw.Res.ok_bind]
      rw [h2]
      rfl
  refine go es (fresh L lua) (fun _ h => h) ?_ hf
  intro c w hm
  cases List.eq_of_mem_replicate hm

/-! ## How many questions wait -/

/-- The number of questions that wait. -/
def waiting {L : Script} (s : Server L) : Nat := s.slots.countP Option.isSome

/-- A packet of a client. -/
def fromClient : Event → Bool
  | .packet .. => true
  | _ => false

theorem drive_waiting {L : Script} {inet : List UInt8 → UInt32} {s s' : Server L} {c : Client} {buf : List UInt8} {qLen : Nat} {st : Step L.Co} {luck : Luck}
    {out : List Out} (h : drive inet s c buf qLen st luck = .ok (s', out)) : waiting s' ≤ waiting s + 1 ∧ s'.slots.length = s.slots.length := by
  cases drive_ok h with
  | waits hb =>
    rw [hb.next]
    refine ⟨?_, by simp⟩
    unfold waiting
    simp only
    rw [countP_put _ rfl _ _ _ hb.free]
    simp
  | over h' => rw [(finish_ok h').1]; exact ⟨by omega, rfl⟩
  | error h' => rw [(finish_ok h').1]; exact ⟨by simp [waiting], rfl⟩

theorem step_waiting {L : Script} {inet : List UInt8 → UInt32} {s s' : Server L} {e : Event} {out : List Out} (h : step inet s e = .ok (s', out)) :
    waiting s' ≤ waiting s + (if fromClient e then 1 else 0) ∧ s'.slots.length = s.slots.length := by
  have wake {n : Nat} {w : Wait L.Co} {told : Told} {luck : Luck} (hw : s.slots[n]? = some (some w)) (h : resumeThread inet s n w told luck = .ok (s', out)) :
      waiting s' ≤ waiting s ∧ s'.slots.length = s.slots.length := by
    obtain ⟨h1, h2⟩ := drive_waiting h
    have h3 := countP_free Option.isSome rfl s.slots n _ hw
    unfold waiting at h1 ⊢
    simp only at h1 h2
    simp only [Option.isSome_some, if_true] at h3
    exact ⟨by omega, by simpa using h2⟩
  have same {s1 : Server L} {o1 : List Out} (h : (Res.ok (s, o1) : Res (Server L × List Out)) = .ok (s', out)) : waiting s' ≤ waiting s ∧ s'.slots.length = s.slots.length := by
    simp only [Res.ok.injEq, Prod.mk.injEq] at h
    rw [← h.1]; exact ⟨Nat.le_refl _, rfl⟩
  cases e with
  | packet c pkt junk luck =>
    simp only [step] at h
    rcases question_cases h with ⟨e1, _⟩ | ⟨Q, buf, qLen, hd⟩
    · rw [e1]; exact ⟨by omega, rfl⟩
    · obtain ⟨h1, h2⟩ := drive_waiting hd
      exact ⟨h1, h2⟩
  | heard n data junk luck =>
    simp only [step] at h
    split at h
    · rename_i w hw
      split at h
      · obtain ⟨told, _, h⟩ := bind_ok h
        exact wake hw h
      · exact same (s1 := s) h
    · exact same (s1 := s) h
  | timeout n luck =>
    simp only [step] at h
    split at h
    · rename_i w hw
      exact wake hw h
    · exact same (s1 := s) h

theorem run_waiting {L : Script} {inet : List UInt8 → UInt32} : ∀ {es : List Event} {s s' : Server L} {out : List Out}, run inet s es = .ok (s', out) →
    waiting s' ≤ waiting s + es.countP fromClient ∧ s'.slots.length = s.slots.length := by
  intro es
  induction es with
  | nil =>
    intro s s' out h
    simp only [run, Res.ok.injEq, Prod.mk.injEq] at h
    rw [← h.1]; exact ⟨by simp, rfl⟩
  | cons e es ih =>
    intro s s' out h
    unfold run at h
    obtain ⟨⟨s1, o1⟩, h1, h⟩ := bind_ok h
    obtain ⟨⟨s2, o2⟩, h2, h⟩ := bind_ok h
    simp only [Res.ok.injEq, Prod.mk.injEq] at h
    obtain ⟨a1, a2⟩ := step_waiting h1
    obtain ⟨b1, b2⟩ := ih h2
    rw [← h.1, List.countP_cons]
    exact ⟨by omega, by omega⟩

/-- There is a free place unless 512 questions wait. -/
theorem free_of_waiting {L : Script} {s : Server L} (h : waiting s < s.slots.length) : none ∈ s.slots := by
  unfold waiting at h
  refine Classical.byContradiction fun hn => ?_
  have : s.slots.countP Option.isSome = s.slots.length := by
    rw [List.countP_eq_length]
    intro x hx
    cases x with
    | none => exact absurd hx hn
    | some w => rfl
  omega

/-- With fewer than 512 packets of clients, there is always a free place. -/
theorem few_questions_are_safe (L : Script) (inet : List UInt8 → UInt32) (lua : L.St) (es : List Event)
    (hq : ∀ c pkt junk luck, Event.packet c pkt junk luck ∈ es → ∃ q : Quest, q.Ok ∧ pkt = q.bytes)
    (hh : ∀ n data junk luck, Event.heard n data junk luck ∈ es → ∀ name id, ∃ told, hear name id data junk = .ok told)
    (hf : es.countP fromClient < 512) : ∃ s out, run inet (fresh L lua) es = .ok (s, out) := by
  refine questions_are_safe L inet lua es hq hh ?_
  intro es' s out hp hr
  obtain ⟨h1, h2⟩ := run_waiting hr
  have h3 : es'.countP fromClient ≤ es.countP fromClient := hp.sublist.countP_le
  have h4 : waiting (fresh L lua) = 0 := by
    unfold waiting
    rw [List.countP_eq_zero]
    intro x hx
    rw [List.eq_of_mem_replicate hx]
    simp
  have h5 : (fresh L lua).slots.length = 512 := List.length_replicate ..
  exact free_of_waiting (by omega)

end Co
