import Verif.Co.Examples
/-!
# coLunacyDNS: where it goes wrong

Concrete inputs for which memory is misused or for which clients and scripts get something wrong.
-/

namespace Co
open Dw (Res)
open Spec.Script (Quest Body)

/-! ## 512 questions wait -/

theorem findSlot_full {α : Type} {slots : List (Option α)} (hs : ∀ i < slots.length, ∃ w, slots[i]? = some (some w)) :
    ∀ (n a : Nat), a ≤ slots.length → slots.length < a + n → findSlot slots n a = .ub := by
  intro n
  induction n with
  | zero => intro a h1 h2; omega
  | succ n ih =>
    intro a h1 h2
    unfold findSlot
    by_cases h : a < slots.length
    · obtain ⟨w, hw⟩ := hs a h
      rw [hw]
      exact ih (a + 1) (by omega) (by omega)
    · rw [List.getElem?_eq_none (by omega)]

theorem findSlot_next {α : Type} {slots : List (Option α)} {k : Nat} (hs : ∀ i < k, ∃ w, slots[i]? = some (some w)) (hk : slots[k]? = some none) :
    ∀ (n a : Nat), a ≤ k → k < a + n → findSlot slots n a = .ok (some k) := by
  intro n
  induction n with
  | zero => intro a h1 h2; omega
  | succ n ih =>
    intro a h1 h2
    unfold findSlot
    by_cases h : a < k
    · obtain ⟨w, hw⟩ := hs a h
      rw [hw]
      exact ih (a + 1) (by omega) (by omega)
    · have : a = k := by omega
      subst this
      rw [hk]

theorem run_snoc {L : Script} (inet : List UInt8 → UInt32) : ∀ (es : List Event) (s s' : Server L) (out : List Out) (e : Event),
    run inet s es = .ok (s', out) → run inet s (es ++ [e]) = (step inet s' e >>= fun r => .ok (r.1, out ++ r.2)) := by
  intro es
  induction es with
  | nil =>
    intro s s' out e h
    simp only [run, Res.ok.injEq, Prod.mk.injEq] at h
    obtain ⟨rfl, rfl⟩ := h
    simp only [List.nil_append, run]
    cases step inet s e with
    | ok r => simp [Dw.Res.ok_bind]
    | err => rfl
    | ub => rfl
  | cons x es ih =>
    intro s s' out e h
    unfold run at h
    obtain ⟨⟨s1, o1⟩, h1, h⟩ := bind_ok h
    obtain ⟨⟨s2, o2⟩, h2, h⟩ := bind_ok h
    simp only [Res.ok.injEq, Prod.mk.injEq] at h
    obtain ⟨rfl, rfl⟩ := h
    simp only [List.cons_append, run]
    rw [h1]
    simp only [Dw.Res.ok_bind]
    rw [ih s1 s2 o2 e h2]
    cases step inet s2 e with
    | ok r => simp [Dw.Res.ok_bind]
    | err => rfl
    | ub => rfl

theorem forward_asks (s : Server forward) (buf : List UInt8) (qLen : Nat) :
    newDNS someInet s client buf qLen (some ⟨some (txt "A"), some (txt "9.9.9.9"), some (client.query quest).name⟩) (client.query quest).name luck =
      (findSlot s.slots (s.top + 2) 0 >>= fun r => match r with
        | none => .ok .busy
        | some a => .ok (.started
            { s with top := max s.top a, slots := s.slots.set a (some ⟨(client.query quest).name, qLen, buf, client, [3, 119, 87, 119, 1, 97, 0], 0xbeef, 1, true⟩) }
            [.ask 0x09090909 (askPacket 0xbeef [3, 119, 87, 119, 1, 97, 0] 1)])) := by
  have e : human2DNS luck.bits luck.junk (client.query quest).name = .ok (some ([3, 119, 87, 119, 1, 97, 0], 4)) := by decide +kernel
  have t1 : ¬ (txt "A" ≠ txt "A" ∧ txt "A" ≠ txt "ip6") := by simp
  have t2 : someInet (txt "9.9.9.9") = 0x09090909 := by decide +kernel
  unfold newDNS
  simp only
  rw [if_neg t1, e]
  simp only [Dw.Res.ok_bind, t2, if_true]
  cases findSlot s.slots (s.top + 2) 0 with
  | ok r => cases r <;> rfl
  | err => rfl
  | ub => rfl

theorem forward_step (s : Server forward) : ∃ buf qLen, step someInet s (.packet client quest.bytes [] luck) =
    drive someInet s client buf qLen (.solve (some ⟨some (txt "A"), some (txt "9.9.9.9"), some (client.query quest).name⟩) (client.query quest).name) luck := by
  obtain ⟨buf, qLen, _, h⟩ := question_ok someInet s client quest quest_ok [] luck
  refine ⟨buf, qLen, ?_⟩
  have hq : ¬ (quest.qtype = 255 ∨ quest.qtype = 13) := by decide
  rw [if_neg hq] at h
  exact h

theorem forward_fills (n : Nat) (hn : n ≤ 512) : ∃ s out, run someInet (fresh forward ()) (List.replicate n (.packet client quest.bytes [] luck)) = .ok (s, out) ∧
    s.slots.length = 512 ∧ (∀ i < n, ∃ w, s.slots[i]? = some (some w)) ∧ (∀ i, n ≤ i → i < 512 → s.slots[i]? = some none) ∧ n ≤ s.top + 1 := by
  induction n with
  | zero =>
    refine ⟨fresh forward (), [], rfl, List.length_replicate .., fun i hi => absurd hi (by omega), ?_, by omega⟩
    intro i _ hi
    simp only [fresh]
    rw [List.getElem?_replicate, if_pos hi]
  | succ n ih =>
    obtain ⟨s, out, hr, hl, h1, h2, h3⟩ := ih (by omega)
    obtain ⟨buf, qLen, hst⟩ := forward_step s
    have hrep : List.replicate (n + 1) (Event.packet client quest.bytes [] luck) = List.replicate n (.packet client quest.bytes [] luck) ++ [.packet client quest.bytes [] luck] := by
      rw [List.replicate_succ']
    simp only [drive] at hst
    rw [forward_asks, findSlot_next h1 (h2 n (by omega) (by omega)) _ 0 (by omega) (by omega)] at hst
    simp only [Dw.Res.ok_bind] at hst
    rw [hrep, run_snoc _ _ _ _ _ _ hr, hst]
    refine ⟨_, _, rfl, ?_, ?_, ?_, ?_⟩
    · simpa using hl
    · intro i hi
      simp only
      by_cases e : i = n
      · subst e
        exact ⟨_, by rw [List.getElem?_set_self (by omega)]⟩
      · rw [List.getElem?_set_ne (by omega)]
        exact h1 i (by omega)
    · intro i hi hi2
      simp only
      rw [List.getElem?_set_ne (by omega)]
      exact h2 i (by omega) hi2
    · simp only
      omega

/-- When 512 questions wait for other servers, the next one makes the server read behind the end of the table of waiting questions (and not only then
find out that it is the end). -/
theorem full_table_is_overread :
    run someInet (fresh forward ()) (List.replicate 513 (.packet client quest.bytes [] luck)) = .ub := by
  obtain ⟨s, out, hr, hl, h1, _, h3⟩ := forward_fills 512 (by omega)
  obtain ⟨buf, qLen, hst⟩ := forward_step s
  simp only [drive] at hst
  rw [forward_asks, findSlot_full (by rw [hl]; exact h1) _ 0 (by omega) (by omega)] at hst
  simp only [Dw.Res.ub_bind] at hst
  have hrep : List.replicate 513 (Event.packet client quest.bytes [] luck) = List.replicate 512 (.packet client quest.bytes [] luck) ++ [.packet client quest.bytes [] luck] := by
    rw [show 513 = 512 + 1 from rfl, List.replicate_succ']
  rw [hrep, run_snoc _ _ _ _ _ _ hr, hst]
  rfl

/-! ## Replies of other servers -/

/-- A reply to a question for `a.` with an address record that begins at place 449. -/
def longReply : List UInt8 :=
  [0xbe, 0xef, 0x81, 0x80, 0, 1, 0, 2, 0, 0, 0, 0, 1, 97, 0, 0, 1, 0, 1] ++
  [192, 12, 0, 16, 0, 1, 0, 0, 0, 0, 1, 162] ++ List.replicate 418 0 ++
  [48] ++ List.replicate 48 120 ++ [0, 0, 28, 0, 1, 0, 0, 0, 0, 0, 16] ++ List.replicate 5 1

/-- Such a reply makes the server read behind the end of the memory for the reply. -/
theorem long_reply_is_overread : hear [1, 97, 0] 0xbeef (some longReply) [] = .ub := by decide +kernel

/-- A reply without any records. -/
def emptyReply : List UInt8 := [0xbe, 0xef, 0x81, 0x80, 0, 1, 0, 0, 0, 0, 0, 0, 1, 97, 0, 0, 1, 0, 1]

/-- A reply without records is not read as one: what was in memory before is told to the script as the address. -/
theorem leftover_is_told :
    hear [1, 97, 0] 0xbeef (some emptyReply) [192, 12, 0, 1, 0, 1, 0, 0, 0, 60, 0, 4, 192, 0, 2, 7] = .ok (.answer (txt "192.0.2.7") 1) ∧
    hear [1, 97, 0] 0xbeef (some emptyReply) [] = .ok (.answer (txt "DNS answer not seen") 0) := by
  constructor <;> decide +kernel

/-- A name with a byte from 128 on can be asked for, but no reply is ever taken for it. -/
theorem high_names_are_never_heard (name : List UInt8) (id : UInt16) (d junk : List UInt8) (b : UInt8) (hb : b ∈ name) (h : 128 ≤ b) :
    hear name id (some d) junk = .ok (.answer (txt "DNS answer not seen") 0) := by
  have hs : ∀ buf, sameName buf name = false := by
    intro buf
    obtain ⟨i, hi, rfl⟩ := List.mem_iff_getElem.1 hb
    unfold sameName
    rw [List.all_eq_false]
    refine ⟨i, by simpa using hi, ?_⟩
    rw [List.getD_eq_getElem?_getD, List.getElem?_eq_getElem hi]
    simp only [Option.getD_some, Bool.and_eq_true, decide_eq_true_eq, not_and, UInt8.not_lt]
    exact fun _ => h
  unfold hear
  simp only
  split
  · rfl
  · split
    · rfl
    · rw [hs]; rfl

example : human2DNS (fun _ => false) [] [200, 46] = .ok (some ([1, 200, 0], 0)) := by decide +kernel

/-! ## Packets of clients -/

/-- A packet of three bytes is answered: the rest of the question is what was in memory before. -/
theorem short_packet_is_answered :
    outs (run (L := oneAddress) someInet (fresh oneAddress ()) [.packet client [1, 2, 0] (quest.bytes.drop 3) luck]) =
      some [.reply client ([1, 2, 0, 128, 0, 1, 0, 0, 0, 0, 0, 1] ++ quest.question ++ [192, 12, 0, 1, 0, 1, 0, 0, 0, 60, 0, 4, 10, 1, 1, 1])] := by decide +kernel

/-- A packet whose name does not end makes the server read behind the end of the memory for the packet, if labels are what was there
before. -/
theorem long_name_is_overread :
    run (L := oneAddress) someInet (fresh oneAddress ())
      [.packet client ((List.replicate 255 48).set 5 1) (List.replicate 245 48) luck] = .ub := by
  have h : (match run (L := oneAddress) someInet (fresh oneAddress ())
      [.packet client ((List.replicate 255 48).set 5 1) (List.replicate 245 48) luck] with | .ub => true | _ => false) = true := by decide +kernel
  generalize run (L := oneAddress) someInet (fresh oneAddress ())
      [.packet client ((List.replicate 255 48).set 5 1) (List.replicate 245 48) luck] = r at h ⊢
  cases r with
  | ub => rfl
  | ok _ => cases h
  | err => cases h

/-- A packet that says it has no question is answered as if it had one, with a packet that is no reply (QR is 0) and has an answer that it does not
count. -/
theorem no_question_is_answered :
    outs (run (L := oneAddress) someInet (fresh oneAddress ()) [.packet client (quest.bytes.set 5 0) [] luck]) =
      some [.reply client ([0x12, 0x34, 1, 128, 0, 0, 0, 0, 0, 0, 0, 1] ++ quest.question ++ [192, 12, 0, 1, 0, 1, 0, 0, 0, 60, 0, 4, 10, 1, 1, 1])] := by decide +kernel

/-- A question for all types gets no reply over IPv6. -/
theorem any_is_silent_over_ip6 {L : Script} (inet : List UInt8 → UInt32) (s : Server L) (c : Client) (q : Quest) (hq : q.Ok) (junk : List UInt8) (luck : Luck)
    (h6 : c.ip.length = 16) (hany : q.qtype = 255) : question inet s c q.bytes junk luck = .ok (s, []) := by
  obtain ⟨_, _, _, h⟩ := question_ok inet s c q hq junk luck
  rw [h, if_pos (.inl hany), if_neg (by omega)]

end Co
