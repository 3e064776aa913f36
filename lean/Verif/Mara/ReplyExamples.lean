import Verif.Mara.ReplyProps
import Mathlib.Tactic.IntervalCases
/-!
# C71, C72: examples, and what goes wrong
-/

namespace Mara
namespace Reply

open Spec
open Dw (Res)

/-- `w.a.` has three addresses and the name server `n.a.`, which has one; `c.a.` is an alias of `w.a.`. -/
def exRecs : List Rec :=
  [⟨[[119], [97]], 1, [0, 1], 86400, [], [], [10, 0, 0, 1]⟩,
   ⟨[[119], [97]], 1, [0, 1], 86400, [], [], [10, 0, 0, 2]⟩,
   ⟨[[119], [97]], 1, [0, 1], 86400, [], [], [10, 0, 0, 3]⟩,
   ⟨[[97]], 2, [0, 1], 86400, [], [[[110], [97]]], []⟩,
   ⟨[[110], [97]], 1, [0, 1], 86400, [], [], [10, 0, 0, 4]⟩,
   ⟨[[99], [97]], 5, [0, 1], 86400, [], [[[119], [97]]], []⟩]

def exRec (i : Nat) : Rec := exRecs.getD i ⟨[], 1, [0, 1], 0, [], [], [0, 0, 0, 0]⟩

def exNode (i : Nat) (next ip : Option Nat) (l : List (Nat × Option Nat)) : Node where
  query := encName (exRec i).name ++ be16 (exRec i).type
  data := (exRec i).rdata
  ttl := (exRec i).ttl
  type := (exRec i).type
  auth := true
  next := next
  ip := ip
  list := l

def exHeap : Heap :=
  [exNode 0 (some 1) none [], exNode 1 (some 2) none [], exNode 2 (some 3) none [], exNode 3 none (some 4) [],
   exNode 4 none none [], exNode 5 none none [(1, some 0)]]

theorem exRec_sound (i : Nat) (h : i < 6) : (exRec i).Sound := by
  have nm : ∀ n : List (List UInt8), decide ((∀ l ∈ n, 1 ≤ l.length ∧ l.length ≤ 63) ∧ (encName n).length ≤ 255) = true → NameOk n :=
    fun n h => (of_decide_eq_true h : (∀ l ∈ n, 1 ≤ l.length ∧ l.length ≤ 63) ∧ (encName n).length ≤ 255)
  interval_cases i <;>
  · refine ⟨⟨by decide, rfl, by decide, by decide, by decide⟩, nm _ (by decide), ?_, by decide, by decide, by intro h; exact absurd h (by decide)⟩
    intro n hn
    have hn' : n ∈ [[[110], [97]], [[119], [97]]] := by
      revert hn; revert n; decide
    simp only [List.mem_cons, List.not_mem_nil, or_false] at hn'
    rcases hn' with rfl | rfl <;> exact nm _ (by decide)

theorem exHeap_good : Good exHeap exRec where
  holds := by
    intro i p hp
    have hi : i < 6 := (List.getElem?_eq_some_iff.1 hp).1
    refine ⟨?_, ?_, ?_, ?_, ?_, exRec_sound i hi⟩ <;> (interval_cases i <;> (cases hp; rfl))
  next := by
    intro i p j hp hn
    have hi : i < 6 := (List.getElem?_eq_some_iff.1 hp).1
    interval_cases i <;> cases hp <;> cases hn <;> exact ⟨_, rfl, by decide, by decide⟩
  ip := by
    intro i p j hp hn
    have hi : i < 6 := (List.getElem?_eq_some_iff.1 hp).1
    interval_cases i <;> cases hp <;> cases hn
    decide
  ip6 := by
    intro i p j hp hn
    have hi : i < 6 := (List.getElem?_eq_some_iff.1 hp).1
    interval_cases i <;> cases hp <;> cases hn
  list := by
    intro i p t j hp hn
    have hi : i < 6 := (List.getElem?_eq_some_iff.1 hp).1
    interval_cases i <;> cases hp <;> simp [exNode] at hn
    obtain ⟨-, rfl⟩ := hn
    decide
  ends := by
    refine ⟨fun i => 10 - i, ?_⟩
    intro i p j hp hn
    have hi : i < 6 := (List.getElem?_eq_some_iff.1 hp).1
    interval_cases i <;> cases hp <;> cases hn <;> decide

theorem exHeap_chain : Chain exHeap (some 0) ([0, 1, 2] ++ [3]) :=
  .cons rfl (.cons rfl (.cons rfl (.cons rfl .nil)))

theorem exHeap_parts : Parts exHeap 1 [0, 1, 2] [3] := by
  refine .inr ⟨by decide, ?_, ?_⟩
  · intro i hi p hp
    simp only [List.mem_cons, List.not_mem_nil, or_false] at hi
    rcases hi with rfl | rfl | rfl <;> cases hp <;> decide
  · intro i hi p hp
    simp only [List.mem_cons, List.not_mem_nil, or_false] at hi
    subst hi; cases hp; decide

theorem exQ : NameOk [[119], [97]] :=
  (by decide : (∀ l ∈ ([[119], [97]] : List (List UInt8)), 1 ≤ l.length ∧ l.length ≤ 63) ∧ (encName [[119], [97]]).length ≤ 255)

example := reply_shows (cfg := {}) (by decide) exHeap_good (first := 0) rfl exQ (by decide) exHeap_chain exHeap_parts 7 true false false
example := reply_size (cfg := {}) (by decide) exHeap_good (first := 0) (by decide) exQ (t := 1) (by decide) 7 true false false
example := reply_turns (cfg := {}) exHeap_good exQ (by decide) exHeap_chain exHeap_parts 7 true false false
example := round_robin_partial (cfg := {}) rfl exQ (t := 1) (by decide) (by decide) false [⟨7, true, false⟩, ⟨8, true, false⟩] exHeap 0 [0, 1, 2]
  exHeap_good exHeap_chain exHeap_parts

/-- The reply to the question for the addresses of `w.a.`: three answers, a name server and its address. -/
theorem exReply : udpsuccess {} exHeap 0 7 (encName [[119], [97]] ++ be16 1) true false false = .ok
    ⟨[0, 7, 133, 0, 0, 1, 0, 3, 0, 1, 0, 1] ++ encName [[119], [97]] ++ [0, 1, 0, 1] ++
      [192, 12, 0, 1, 0, 1, 0, 1, 81, 128, 0, 4, 10, 0, 0, 1] ++
      [192, 12, 0, 1, 0, 1, 0, 1, 81, 128, 0, 4, 10, 0, 0, 2] ++
      [192, 12, 0, 1, 0, 1, 0, 1, 81, 128, 0, 4, 10, 0, 0, 3] ++
      [192, 14, 0, 2, 0, 1, 0, 1, 81, 128, 0, 4, 1, 110, 192, 14] ++
      [192, 81, 0, 1, 0, 1, 0, 1, 81, 128, 0, 4, 10, 0, 0, 4],
     turned exHeap 0 2 (some 3), 1⟩ := by decide +kernel

example := everyone_first (cfg := {}) (by decide) rfl (by decide) (by decide) exQ (t := 1) (by decide) (by decide) false (by decide)
  [⟨7, true, false⟩] exHeap_good exHeap_chain exHeap_parts
  (rs := [[0, 7, 133, 0, 0, 1, 0, 3, 0, 1, 0, 1] ++ encName [[119], [97]] ++ [0, 1, 0, 1] ++
      [192, 12, 0, 1, 0, 1, 0, 1, 81, 128, 0, 4, 10, 0, 0, 1] ++
      [192, 12, 0, 1, 0, 1, 0, 1, 81, 128, 0, 4, 10, 0, 0, 2] ++
      [192, 12, 0, 1, 0, 1, 0, 1, 81, 128, 0, 4, 10, 0, 0, 3] ++
      [192, 14, 0, 2, 0, 1, 0, 1, 81, 128, 0, 4, 1, 110, 192, 14] ++
      [192, 81, 0, 1, 0, 1, 0, 1, 81, 128, 0, 4, 10, 0, 0, 4]]) (h' := turned exHeap 0 2 (some 3)) (k := 1)
  (by unfold serve; rw [exReply]; rfl) (by decide +kernel) ⟨8, true, false⟩

/-- The number of answers a reply says it has. -/
def answerCount : Res Done → List UInt8
  | .ok d => (d.reply.drop 6).take 2
  | _ => []

/-- **C72, what goes wrong.** The record of an alias keeps pointing to the record that was first when
the server started.  A question for the alias `c.a.` is answered by the alias and all three addresses of
`w.a.`; once somebody has asked for `w.a.`, the same question is answered by the alias and one
address. -/
theorem alias_loses_records :
    answerCount (udpsuccess {} exHeap 5 8 (encName [[99], [97]] ++ be16 1) true false false) = [0, 4] ∧
    ∃ d, udpsuccess {} exHeap 0 7 (encName [[119], [97]] ++ be16 1) true false false = .ok d ∧
      answerCount (udpsuccess {} d.heap 5 8 (encName [[99], [97]] ++ be16 1) true false false) = [0, 2] := by
  refine ⟨by decide +kernel, _, exReply, by decide +kernel⟩

/-- **C72, what goes wrong.** So it is for all records: from the record that was first, only itself and
the name servers can be reached once the records have been turned. -/
theorem first_cut_off {h : Heap} {rec : Nat → Rec} (hg : Good h rec) {cfg : Cfg} (hone : cfg.maxAr = 1) {t : Nat} (ht : t ≠ 2)
    {first : Nat} {as nss : List Nat} (hc : Chain h (some first) (as ++ nss)) (hp : Parts h t as nss) (has : as ≠ []) :
    Chain (after cfg t h as nss first).1 (some first) (first :: nss) := by
  obtain ⟨-, hc'⟩ := after_good (cfg := cfg) hg hc hp
  rw [if_pos ⟨hone, ht⟩] at hc'
  match as, has, hc with
  | x :: l, _, hc =>
    have hx : first = x := by have := chain_head hc; simpa using this
    subst hx
    simp only [toEnd, List.append_assoc, List.singleton_append] at hc'
    exact hc'.suffix

example := first_cut_off exHeap_good (cfg := {}) rfl (t := 1) (by decide) exHeap_chain exHeap_parts (by decide)

end Reply
end Mara
