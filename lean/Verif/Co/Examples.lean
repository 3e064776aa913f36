import Verif.Co.OnceProps
import Verif.Co.SafeProps
import Verif.Co.HearProps
import Verif.Co.ReplyProps
import Verif.Co.Ip6Props
/-!
# coLunacyDNS: examples

A script that answers at once, and one that asks another server first and says what that server said.
-/

namespace Co
open Dw (Res)
open Spec.Script (Quest Body)
open Spec (Header Msg Rec)

/-- A script that gives every name the same address: `return {co1Type = "A", co1Data = "10.1.1.1"}`. -/
def oneAddress : Script :=
  ⟨Unit, Unit, fun _ _ => ((), .done (some ⟨none, some 1, some 60, some (txt "A"), some (txt "10.1.1.1")⟩)), fun _ _ _ => ((), .broke)⟩

/-- A script that asks another server for the same name and says what it is told. -/
def forward : Script :=
  ⟨Unit, List UInt8,
    fun _ q => ((), .solve (some ⟨some (txt "A"), some (txt "9.9.9.9"), some q.name⟩) q.name),
    fun _ _ t => ((), match t with
      | .answer text 1 => .done (some ⟨none, none, none, some (txt "A"), some text⟩)
      | _ => .done (some ⟨none, none, none, some (txt "serverFail"), none⟩))⟩

/-- Some addresses. -/
def someInet (d : List UInt8) : UInt32 :=
  if d = txt "10.1.1.1" then 0x0a010101 else if d = txt "192.0.2.7" then 0xc0000207 else if d = txt "9.9.9.9" then 0x09090909 else 0xffffffff

def header : Header := ⟨0x1234, false, 0, false, false, true, false, false, false, false, 0, 1, 0, 0, 1⟩

/-- `www.a.` with an EDNS record behind the question. -/
def quest : Quest := ⟨header, [[119, 119, 119], [97]], 1, 1, [0, 0, 41, 2, 0, 0, 0, 0, 0, 0, 0]⟩

theorem quest_ok : quest.Ok := by
  refine ⟨rfl, rfl, rfl, rfl, by decide, by simp [Spec.LabelsOk, quest], by decide, by decide, by decide, by decide, by decide⟩

def client : Client := ⟨[127, 0, 0, 1], 4000⟩

def luck : Luck := ⟨[], fun n => n = 1, 0xbeef, true⟩

def outs {L : Script} (r : Res (Server L × List Out)) : Option (List Out) :=
  match r with
  | .ok (_, o) => some o
  | _ => none

example : outs (run (L := oneAddress) someInet (fresh oneAddress ()) [.packet client quest.bytes [] luck]) =
    some [.reply client (Body.reply (.a [10, 1, 1, 1] 60) quest false true)] := by decide +kernel

/-- The same events for `replies_say_what_the_script_says` and `no_more_replies_than_questions`: the first reply says the address. -/
example : ∃ s out, run (L := oneAddress) someInet (fresh oneAddress ()) [.packet client quest.bytes [] luck] = .ok (s, out) ∧
    Answers oneAddress someInet [.packet client quest.bytes [] luck] client (Body.reply (.a [10, 1, 1, 1] 60) quest false true) := by
  have h : outs (run (L := oneAddress) someInet (fresh oneAddress ()) [.packet client quest.bytes [] luck]) =
      some [.reply client (Body.reply (.a [10, 1, 1, 1] 60) quest false true)] := by decide +kernel
  cases hr : run (L := oneAddress) someInet (fresh oneAddress ()) [.packet client quest.bytes [] luck] with
  | ok r =>
    obtain ⟨s, out⟩ := r
    rw [hr] at h
    simp only [outs, Option.some.injEq] at h
    refine ⟨s, out, rfl, replies_say_what_the_script_says _ _ _ _ client ?_ s out hr _ (by rw [h]; simp)⟩
    intro pkt junk l hm
    simp only [List.mem_singleton, Event.packet.injEq] at hm
    exact ⟨quest, quest_ok, hm.2.1⟩
  | err => rw [hr] at h; cases h
  | ub => rw [hr] at h; cases h

/-- The reply says what a message says. -/
example : (Body.message (.a [10, 1, 1, 1] 60) quest false true).Is
    ([0x12, 0x34, 0x81, 0x80, 0, 1, 0, 1, 0, 0, 0, 0, 3, 119, 119, 119, 1, 97, 0, 0, 1, 0, 1, 192, 12, 0, 1, 0, 1, 0, 0, 0, 60, 0, 4, 10, 1, 1, 1]) :=
  reply_is_message (.a [10, 1, 1, 1] 60) rfl quest quest_ok false true

/-! ## Another server is asked -/

/-- `www.a.` is an alias for `b.a.`, whose address is 192.0.2.7. -/
def upReply : List UInt8 :=
  [0xbe, 0xef, 0x81, 0x80, 0, 1, 0, 2, 0, 0, 0, 0, 3, 119, 87, 119, 1, 97, 0, 0, 1, 0, 1,
   192, 12, 0, 5, 0, 1, 0, 0, 0, 60, 0, 4, 1, 98, 192, 16,
   192, 35, 0, 1, 0, 1, 0, 0, 0, 60, 0, 4, 192, 0, 2, 7]

/-- The server asks, the client gets what the script makes of the reply. -/
example : outs (run (L := forward) someInet (fresh forward ()) [.packet client quest.bytes [] luck, .heard 0 (some upReply) [] luck]) =
    some [.ask 0x09090909 (askPacket 0xbeef [3, 119, 87, 119, 1, 97, 0] 1),
      .reply client (Body.reply (.a [192, 0, 2, 7] 0) quest false false)] := by decide +kernel

/-- Nothing comes. -/
example : outs (run (L := forward) someInet (fresh forward ()) [.packet client quest.bytes [] luck, .timeout 0 luck]) =
    some [.ask 0x09090909 (askPacket 0xbeef [3, 119, 87, 119, 1, 97, 0] 1), .reply client (Body.reply .fail quest false false)] := by decide +kernel

open Spec (memOf NameIn EndsAt LabelAt RecIn NamesIn BytesAt)

def other : Rec := ⟨[[119, 87, 119], [97]], 5, [0, 1], 60, [], [[[98], [97]]], []⟩
def address : Rec := ⟨[[98], [97]], 1, [0, 1], 60, [], [], [192, 0, 2, 7]⟩

theorem labelAt {m : Spec.Mem} {i : Nat} {l : List UInt8} (h1 : 1 ≤ l.length) (h2 : l.length ≤ 63) (h3 : m i = some (UInt8.ofNat l.length))
    (h4 : ∀ j (h : j < l.length), m (i + 1 + j) = some l[j]) : LabelAt m i l := ⟨h1, h2, h3, h4⟩

theorem up_a : NameIn (memOf upReply) 16 [[97]] :=
  .label (labelAt (by decide) (by decide) (by decide) (by decide)) (.root (by decide))

theorem up_www : NameIn (memOf upReply) 12 [[119, 87, 119], [97]] :=
  .label (labelAt (by decide) (by decide) (by decide) (by decide)) up_a

theorem up_b : NameIn (memOf upReply) 35 [[98], [97]] :=
  .label (labelAt (by decide) (by decide) (by decide) (by decide)) (.pointer (x := 192) (y := 16) (by decide) (by decide) (by decide) (by decide) up_a)

theorem up_other : RecIn (memOf upReply) 23 other 39 := by
  refine ⟨25, 39, .pointer (x := 192) (y := 12) (by decide) (by decide) (by decide) (by decide) up_www, .pointer (x := 192) (by decide) (by decide),
    ?_, by decide, by decide, ?_, .cons up_b (.label (labelAt (l := [98]) (by decide) (by decide) (by decide) (by decide)) (.pointer (x := 192) (by decide) (by decide))) .nil, ?_, by decide⟩
  all_goals unfold BytesAt; decide

theorem up_address : RecIn (memOf upReply) 39 address 55 := by
  refine ⟨41, 51, .pointer (x := 192) (y := 35) (by decide) (by decide) (by decide) (by decide) up_b, .pointer (x := 192) (by decide) (by decide),
    ?_, by decide, by decide, ?_, .nil, ?_, by decide⟩
  all_goals unfold BytesAt; decide

theorem up_helpful : Helpful [[119, 87, 119], [97]] 0xbeef upReply [other] address := by
  refine ⟨⟨[0x81, 0x80, 0, 1, 0, 2, 0, 0, 0, 0], [0, 1, 0, 1], upReply.drop 23, by decide, rfl, rfl⟩, by decide, by simp [Spec.LabelsOk], by decide, by decide, by decide, ?_,
    ⟨by decide, by decide, by decide, by decide, by decide⟩, ?_⟩
  · intro x hx
    simp only [List.mem_singleton] at hx
    subst hx
    exact ⟨⟨by decide, by decide, by decide, by decide, by decide⟩, by decide, by decide⟩
  · exact .cons (.pointer (x := 192) (by decide) (by decide)) (by decide) up_other
      (.last (by decide) (.pointer (x := 192) (by decide) (by decide)) (by decide) up_address)

example (junk : List UInt8) : hear [3, 119, 87, 119, 1, 97, 0] 0xbeef (some upReply) junk = .ok (.answer (txt "192.0.2.7") 1) := by
  have := first_ip4_is_told up_helpful junk rfl rfl (by decide)
  rw [show txt "192.0.2.7" = ip4Show address.tail by decide +kernel]
  exact this

/-- The events above meet the hypotheses of `few_questions_are_safe` and so those of `questions_are_safe`. -/
example (junk : List UInt8) : ∃ s out, run (L := forward) someInet (fresh forward ()) [.packet client quest.bytes [] luck, .heard 0 (some upReply) junk luck] = .ok (s, out) := by
  refine few_questions_are_safe _ _ _ _ ?_ ?_ (by simp [List.countP_cons, fromClient])
  · intro c pkt j l hm
    simp only [List.mem_cons, Event.packet.injEq, reduceCtorEq, List.not_mem_nil, or_false] at hm
    exact ⟨quest, quest_ok, hm.2.1⟩
  · intro n data j l hm name id
    simp only [List.mem_cons, Event.heard.injEq, reduceCtorEq, List.not_mem_nil, or_false, false_or] at hm
    obtain ⟨_, rfl, rfl, _⟩ := hm
    exact helpful_is_safe up_helpful j (.inl ⟨rfl, rfl, by decide⟩) name id

end Co
