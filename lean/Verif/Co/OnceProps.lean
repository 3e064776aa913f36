import Verif.Co.SessionProps
/-!
# coLunacyDNS: at most one reply to every packet

For any packets, well-formed or not: replies go to clients that sent something, with the identification of a packet they sent, and there are not more of
them than packets with it.
-/

namespace Co
open Dw (Res)

theorem poke_take {buf buf' : List UInt8} {i : Nat} {v : UInt8} (h : poke buf i v = .ok buf') (hi : 2 ≤ i) : buf'.take 2 = buf.take 2 := by
  unfold poke at h
  split_ifs at h
  simp only [Res.ok.injEq] at h
  rw [← h, List.take_set_of_le hi]

theorem pokes_take {bs : List UInt8} : ∀ {buf buf' : List UInt8} {i : Nat}, pokes buf i bs = .ok buf' → 2 ≤ i → buf'.take 2 = buf.take 2 := by
  induction bs with
  | nil => intro buf buf' i h _; simp [pokes] at h; rw [h]
  | cons b bs ih =>
    intro buf buf' i h hi
    unfold pokes at h
    obtain ⟨x, hx, h⟩ := bind_ok h
    rw [ih h (by omega), poke_take hx hi]

theorem front_take {buf out : List UInt8} {n : Nat} (h : front buf n = .ok out) (hn : 2 ≤ n) : out.take 2 = buf.take 2 := by
  unfold front at h
  split_ifs at h
  simp only [Res.ok.injEq] at h
  rw [← h, List.take_take, Nat.min_eq_left hn]

theorem withRecord_take {buf out r : List UInt8} {qLen ttl : Nat} (h : withRecord buf qLen r ttl = .ok out) : out.take 2 = buf.take 2 := by
  unfold withRecord at h
  obtain ⟨b1, h1, h⟩ := bind_ok h
  obtain ⟨b2, h2, h⟩ := bind_ok h
  obtain ⟨b3, h3, h⟩ := bind_ok h
  obtain ⟨b4, h4, h⟩ := bind_ok h
  rw [front_take h (by omega), poke_take h4 (by omega), poke_take h3 (by omega), poke_take h2 (by omega), pokes_take h1 (by omega)]

/-- Replies have the identification of the question. -/
theorem endThread_take {inet : List UInt8 → UInt32} {buf : List UInt8} {qLen : Nat} {r : Option Ret} {bytes : List UInt8}
    (h : endThread inet buf qLen r = .ok (some bytes)) : bytes.take 2 = buf.take 2 := by
  unfold endThread at h
  split at h
  · cases h
  · obtain ⟨b0, h0, h⟩ := bind_ok h
    have e0 : b0.take 2 = buf.take 2 := by
      unfold setBits at h0
      obtain ⟨_, _, h0⟩ := bind_ok h0
      obtain ⟨_, h1, h0⟩ := bind_ok h0
      obtain ⟨_, _, h0⟩ := bind_ok h0
      rw [poke_take h0 (by omega), poke_take h1 (by omega)]
    rw [← e0]
    simp only at h
    split at h
    · obtain ⟨_, _, h⟩ := bind_ok h
      obtain ⟨_, h1, h⟩ := bind_ok h
      obtain ⟨_, _, h⟩ := bind_ok h
      obtain ⟨_, h2, h⟩ := bind_ok h
      obtain ⟨_, h3, h⟩ := bind_ok h
      obtain ⟨_, h4, h⟩ := bind_ok h
      simp only [Res.ok.injEq, Option.some.injEq] at h
      rw [← h, front_take h4 (by omega), poke_take h3 (by omega), poke_take h2 (by omega), poke_take h1 (by omega)]
    split at h
    · obtain ⟨_, h1, h⟩ := bind_ok h
      simp only [Res.ok.injEq, Option.some.injEq] at h
      rw [← h, withRecord_take h1]
    split at h
    · split at h
      · cases h
      · obtain ⟨_, h1, h⟩ := bind_ok h
        split at h
        · cases h
        · simp only [Res.ok.injEq, Option.some.injEq] at h
          rw [← h, withRecord_take h1]
    split at h
    · split at h
      · cases h
      · split at h
        · cases h
        · obtain ⟨_, h1, h⟩ := bind_ok h
          simp only [Res.ok.injEq, Option.some.injEq] at h
          rw [← h, withRecord_take h1]
    · cases h

/-- The packets of a client with an identification. -/
def isPacket (c : Client) (id : List UInt8) : Event → Bool
  | .packet c' pkt _ _ => c' == c && pkt.take 2 == id
  | _ => false

/-- The replies to it. -/
def isReply (c : Client) (id : List UInt8) : Out → Bool
  | .reply c' bytes => c' == c && bytes.take 2 == id
  | _ => false

/-- The questions that wait. -/
def isWait {α : Type} (c : Client) (id : List UInt8) : Option (Wait α) → Bool
  | some w => w.client == c && w.buf.take 2 == id
  | none => false

/-- 1 for the client and the identification, 0 otherwise. -/
def mark (c : Client) (id : List UInt8) (c' : Client) (buf : List UInt8) : Nat := if c' = c ∧ buf.take 2 = id then 1 else 0

theorem countP_put {α : Type} (p : Option α → Bool) (hp : p none = false) : ∀ (l : List (Option α)) (a : Nat) (x : Option α), l[a]? = some none →
    (l.set a x).countP p = l.countP p + if p x then 1 else 0 := by
  intro l
  induction l with
  | nil => intro a x h; simp at h
  | cons y l ih =>
    intro a x h
    cases a with
    | zero =>
      simp at h; subst h
      simp [List.countP_cons, hp]
    | succ a =>
      simp at h
      simp only [List.set_cons_succ, List.countP_cons, ih a x h]
      omega

theorem countP_free {α : Type} (p : Option α → Bool) (hp : p none = false) : ∀ (l : List (Option α)) (a : Nat) (x : Option α), l[a]? = some x →
    (l.set a none).countP p + (if p x then 1 else 0) = l.countP p := by
  intro l
  induction l with
  | nil => intro a x h; simp at h
  | cons y l ih =>
    intro a x h
    cases a with
    | zero =>
      simp at h; subst h
      simp [List.countP_cons, hp]
    | succ a =>
      simp at h
      have := ih a x h
      simp only [List.set_cons_succ, List.countP_cons]
      omega

section
variable {L : Script} {inet : List UInt8 → UInt32} (c₀ : Client) (id : List UInt8)

theorem finish_count {s s' : Server L} {c : Client} {buf : List UInt8} {qLen : Nat} {st : Step L.Co} {out : List Out}
    (h : finish inet s c buf qLen st = .ok (s', out)) :
    s'.slots = s.slots ∧ out.countP (isReply c₀ id) ≤ mark c₀ id c buf := by
  obtain ⟨e, ho⟩ := finish_ok h
  refine ⟨by rw [e], ?_⟩
  rcases ho with ho | ⟨r, bytes, _, he, ho⟩
  · simp [ho]
  · rw [ho]
    have := endThread_take he
    simp only [List.countP_cons, List.countP_nil, isReply, mark, Bool.and_eq_true, beq_iff_eq, this]
    omega

theorem drive_count {s s' : Server L} {c : Client} {buf : List UInt8} {qLen : Nat} {luck : Luck} {st : Step L.Co} {out : List Out}
    (h : drive inet s c buf qLen st luck = .ok (s', out)) :
    out.countP (isReply c₀ id) + s'.slots.countP (isWait c₀ id) ≤ s.slots.countP (isWait c₀ id) + mark c₀ id c buf := by
  cases drive_ok h with
  | waits hb =>
    have : out.countP (isReply c₀ id) = 0 := by
      rw [hb.outs]; split_ifs <;> simp [isReply]
    rw [this, hb.next]
    simp only
    rw [countP_put _ rfl _ _ _ hb.free]
    simp only [isWait, mark, Bool.and_eq_true, beq_iff_eq]
    omega
  | over h' =>
    obtain ⟨e1, e2⟩ := finish_count c₀ id h'
    rw [e1]; omega
  | error h' =>
    obtain ⟨e1, e2⟩ := finish_count c₀ id h'
    rw [e1]; simp only; omega

theorem prepare_take {n : Nat} {buf buf' : List UInt8} (h : prepare n buf = .ok buf') : buf'.take 2 = buf.take 2 := by
  unfold prepare at h
  split at h
  · simp only [Res.ok.injEq] at h; rw [h]
  obtain ⟨_, _, h⟩ := bind_ok h
  split at h
  · simp only [Res.ok.injEq] at h; rw [h]
  obtain ⟨_, _, h⟩ := bind_ok h
  obtain ⟨_, h1, h⟩ := bind_ok h
  obtain ⟨_, _, h⟩ := bind_ok h
  obtain ⟨_, h2, h⟩ := bind_ok h
  rw [poke_take h (by omega), poke_take h2 (by omega), poke_take h1 (by omega)]

theorem question_count {s s' : Server L} {c : Client} {pkt junk : List UInt8} {luck : Luck} {out : List Out}
    (h : question inet s c pkt junk luck = .ok (s', out)) :
    out.countP (isReply c₀ id) + s'.slots.countP (isWait c₀ id) ≤ s.slots.countP (isWait c₀ id) + mark c₀ id c pkt := by
  have triv {s1 : Server L} {o1 : List Out} (h : (Res.ok (s1, ([] : List Out)) : Res (Server L × List Out)) = .ok (s', out)) (e : s1.slots = s.slots) :
      out.countP (isReply c₀ id) + s'.slots.countP (isWait c₀ id) ≤ s.slots.countP (isWait c₀ id) + mark c₀ id c pkt := by
    simp only [Res.ok.injEq, Prod.mk.injEq] at h
    rw [← h.2, ← h.1, e]; simp
  unfold question at h
  simp only at h
  split at h
  · exact triv (o1 := []) h rfl
  rename_i hlen
  have htk : (fill 500 (pkt.take 255) junk).take 2 = pkt.take 2 := by
    obtain ⟨t, ht, _⟩ := fill_at 500 (pkt.take 255) junk (by simp; omega)
    rw [ht, List.take_append_of_le_length (by omega), List.take_take]; rfl
  obtain ⟨x, _, h⟩ := bind_ok h
  split at h
  · exact triv (o1 := []) h rfl
  obtain ⟨buf, hbuf, h⟩ := bind_ok h
  have hbt := (prepare_take hbuf).trans htk
  obtain ⟨y, _, h⟩ := bind_ok h
  split at h
  · exact triv (o1 := []) h rfl
  split at h
  · exact triv (o1 := []) h rfl
  obtain ⟨hi, _, h⟩ := bind_ok h
  obtain ⟨lo, _, h⟩ := bind_ok h
  have em : mark c₀ id c buf = mark c₀ id c pkt := by unfold mark; rw [hbt]
  split at h
  · obtain ⟨b2, h2, h⟩ := bind_ok h
    obtain ⟨o, h3, h⟩ := bind_ok h
    simp only [Res.ok.injEq, Prod.mk.injEq] at h
    have e3 : o.take 2 = pkt.take 2 := by rw [front_take h3 (by omega), pokes_take h2 (by omega), hbt]
    rw [← h.1, ← h.2]
    have : (if c.ip.length = 4 then [Out.reply c o] else []).countP (isReply c₀ id) ≤ mark c₀ id c pkt := by
      split_ifs
      · simp only [List.countP_cons, List.countP_nil, isReply, mark, Bool.and_eq_true, beq_iff_eq, e3]
        omega
      · simp
    omega
  · have := drive_count c₀ id h
    rw [em] at this
    exact this

theorem step_count {s s' : Server L} {e : Event} {out : List Out} (h : step inet s e = .ok (s', out)) :
    out.countP (isReply c₀ id) + s'.slots.countP (isWait c₀ id) ≤
      s.slots.countP (isWait c₀ id) + if isPacket c₀ id e then 1 else 0 := by
  have wake {n : Nat} {w : Wait L.Co} {told : Told} {luck : Luck} (hw : s.slots[n]? = some (some w)) (h : resumeThread inet s n w told luck = .ok (s', out)) :
      out.countP (isReply c₀ id) + s'.slots.countP (isWait c₀ id) ≤ s.slots.countP (isWait c₀ id) := by
    have h1 := drive_count c₀ id h
    have h2 := countP_free (isWait c₀ id) rfl s.slots n _ hw
    simp only [isWait, Bool.and_eq_true, beq_iff_eq] at h2
    simp only [mark] at h1
    omega
  have triv (h : (Res.ok (s, ([] : List Out)) : Res (Server L × List Out)) = .ok (s', out)) :
      out.countP (isReply c₀ id) + s'.slots.countP (isWait c₀ id) ≤ s.slots.countP (isWait c₀ id) := by
    simp only [Res.ok.injEq, Prod.mk.injEq] at h
    rw [← h.2, ← h.1]; simp
  cases e with
  | packet c pkt junk luck =>
    have := question_count c₀ id h
    simpa only [isPacket, Bool.and_eq_true, beq_iff_eq, mark] using this
  | heard n data junk luck =>
    simp only [step] at h
    refine Nat.le_trans ?_ (Nat.le_add_right _ _)
    split at h
    · rename_i w hw
      split_ifs at h
      · obtain ⟨told, _, h⟩ := bind_ok h
        exact wake hw h
      · exact triv h
    · exact triv h
  | timeout n luck =>
    simp only [step] at h
    refine Nat.le_trans ?_ (Nat.le_add_right _ _)
    split at h
    · rename_i w hw
      exact wake hw h
    · exact triv h

theorem run_count : ∀ (es : List Event) (s s' : Server L) (out : List Out), run inet s es = .ok (s', out) →
    out.countP (isReply c₀ id) + s'.slots.countP (isWait c₀ id) ≤ s.slots.countP (isWait c₀ id) + es.countP (isPacket c₀ id) := by
  intro es
  induction es with
  | nil =>
    intro s s' out h
    simp only [run, Res.ok.injEq, Prod.mk.injEq] at h
    rw [← h.2, ← h.1]; simp
  | cons e es ih =>
    intro s s' out h
    unfold run at h
    obtain ⟨⟨s1, o1⟩, h1, h⟩ := bind_ok h
    obtain ⟨⟨s2, o2⟩, h2, h⟩ := bind_ok h
    simp only [Res.ok.injEq, Prod.mk.injEq] at h
    have a := step_count c₀ id h1
    have b := ih _ _ _ h2
    rw [← h.2, ← h.1, List.countP_append, List.countP_cons]
    omega

end

/-- Whatever comes: no client gets more replies with an identification than it sent packets with it. -/
theorem no_more_replies_than_questions (L : Script) (inet : List UInt8 → UInt32) (lua : L.St) (es : List Event) (c : Client) (id : List UInt8)
    (s : Server L) (out : List Out) (h : run inet (fresh L lua) es = .ok (s, out)) :
    out.countP (isReply c id) ≤ es.countP (isPacket c id) := by
  have := run_count c id es (fresh L lua) s out h
  have h0 : (fresh L lua).slots.countP (isWait c id) = 0 := by
    rw [List.countP_eq_zero]
    intro x hx
    rw [List.eq_of_mem_replicate hx]
    simp [isWait]
  omega

/-- Whatever comes: who gets a reply sent a packet with the same identification. -/
theorem replies_only_to_who_asked (L : Script) (inet : List UInt8 → UInt32) (lua : L.St) (es : List Event) (c : Client) (bytes : List UInt8)
    (s : Server L) (out : List Out) (h : run inet (fresh L lua) es = .ok (s, out)) (hb : Out.reply c bytes ∈ out) :
    ∃ pkt junk luck, Event.packet c pkt junk luck ∈ es ∧ pkt.take 2 = bytes.take 2 := by
  have h1 := no_more_replies_than_questions L inet lua es c (bytes.take 2) s out h
  have h2 : 0 < out.countP (isReply c (bytes.take 2)) := List.countP_pos_iff.mpr ⟨_, hb, by simp [isReply]⟩
  obtain ⟨e, he, hp⟩ := List.countP_pos_iff.mp (Nat.lt_of_lt_of_le h2 h1)
  cases e with
  | packet c' pkt junk luck =>
    simp only [isPacket, Bool.and_eq_true, beq_iff_eq] at hp
    exact ⟨pkt, junk, luck, hp.1 ▸ he, hp.2⟩
  | heard _ _ _ _ => cases hp
  | timeout _ _ => cases hp

end Co
