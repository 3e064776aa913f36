import Verif.Deadwood.MararcModel
import Verif.Spec.RcGrammar
import Mathlib.Tactic.SplitIfs
/-!
# Lemmas about the `dwood3rc` automaton, state by state
-/

namespace Dw
namespace Rc

open Spec.Rc

instance : DecidablePred lower := fun c => by unfold lower; infer_instance
instance : DecidablePred upper := fun c => by unfold upper; infer_instance
instance : DecidablePred digit := fun c => by unfold digit; infer_instance
instance : DecidablePred letter := fun c => by unfold letter; infer_instance
instance : DecidablePred alnum := fun c => by unfold alnum; infer_instance
instance : DecidablePred blank := fun c => by unfold blank; infer_instance
instance : DecidablePred any := fun c => by unfold any; infer_instance
instance : DecidablePred inString := fun c => by unfold inString; infer_instance

/-- The compiled automaton. -/
def table : List (List Entry) := [
  [⟨35, 0, 1⟩, ⟨25, 1, 2⟩, ⟨23, 0, 0⟩, ⟨18, 0, 41⟩, ⟨20, 10, 0⟩, ⟨95, 0, 27⟩],
  [⟨24, 0, 1⟩, ⟨18, 0, 41⟩, ⟨20, 10, 0⟩],
  [⟨2, 1, 2⟩, ⟨23, 0, 3⟩, ⟨61, 0, 4⟩, ⟨91, 0, 5⟩, ⟨43, 0, 6⟩, ⟨40, 0, 24⟩],
  [⟨23, 0, 3⟩, ⟨61, 0, 4⟩, ⟨91, 0, 5⟩, ⟨43, 0, 6⟩],
  [⟨23, 0, 4⟩, ⟨14, 4, 7⟩, ⟨34, 0, 8⟩, ⟨123, 6, 22⟩],
  [⟨23, 0, 5⟩, ⟨34, 0, 13⟩],
  [⟨61, 5, 4⟩],
  [⟨14, 4, 7⟩, ⟨23, 0, 10⟩, ⟨35, 0, 1⟩, ⟨18, 0, 41⟩, ⟨20, 10, 0⟩],
  [⟨9, 3, 12⟩],
  [],
  [⟨23, 0, 10⟩, ⟨35, 0, 1⟩, ⟨18, 0, 41⟩, ⟨20, 10, 0⟩],
  [],
  [⟨9, 3, 12⟩, ⟨34, 0, 10⟩],
  [⟨46, 2, 14⟩, ⟨19, 2, 15⟩, ⟨45, 2, 15⟩, ⟨95, 2, 15⟩],
  [⟨34, 0, 16⟩],
  [⟨4, 2, 15⟩, ⟨34, 0, 16⟩],
  [⟨23, 0, 16⟩, ⟨93, 0, 17⟩],
  [⟨23, 0, 17⟩, ⟨61, 0, 18⟩, ⟨43, 0, 19⟩],
  [⟨23, 0, 18⟩, ⟨34, 0, 20⟩],
  [⟨61, 5, 18⟩],
  [⟨9, 3, 21⟩],
  [⟨9, 3, 21⟩, ⟨34, 0, 10⟩],
  [⟨125, 0, 10⟩],
  [],
  [⟨34, 0, 25⟩],
  [⟨9, 7, 25⟩, ⟨34, 0, 26⟩],
  [⟨41, 0, 10⟩],
  [⟨114, 0, 28⟩],
  [⟨101, 0, 29⟩],
  [⟨109, 0, 30⟩],
  [⟨61, 0, 31⟩],
  [⟨123, 0, 32⟩],
  [⟨125, 0, 10⟩, ⟨24, 0, 32⟩, ⟨20, 0, 32⟩, ⟨18, 0, 32⟩],
  [],
  [],
  [],
  [],
  [],
  [],
  [],
  [],
  [⟨20, 10, 0⟩],
  [],
  [],
  [],
  [],
  [],
  [],
  [],
  [],
  [],
  []]

theorem initFsm_eq : initFsm = some table := by decide +kernel

/-- Something that holds of the 256 bytes holds of every byte. -/
theorem byte_all {P : UInt8 → Prop} (h : ∀ n, n < 256 → P (UInt8.ofNat n)) (c : UInt8) : P c := by
  have := h c.toNat c.toNat_lt
  rwa [UInt8.ofNat_toNat] at this

/-- The automaton on a text: the strings and the rest after the line. -/
def acc : Nat → Acts → List UInt8 → Option (Acts × List UInt8)
  | _, _, [] => none
  | s, A, c :: l =>
    match processCharacter table c s with
    | none => none
    | some (a, s') =>
      if a = 10 then some (A, l) else acc s' (if 0 < a ∧ a < 10 then doAction c a A else A) l

theorem tr0 : ∀ c : UInt8, processCharacter table c 0 =
    if c = 35 then some (0, 1) else
    if letter c then some (1, 2) else
    if blank c then some (0, 0) else
    if c = 13 then some (0, 41) else
    if c = 10 then some (10, 0) else
    if c = 95 then some (0, 27) else
    none := byte_all (by decide +kernel)

theorem acc0 (A : Acts) (c : UInt8) (l : List UInt8) : acc 0 A (c :: l) =
    if c = 35 then acc 1 A l else
    if letter c then acc 2 { A with name := addTo c A.name } l else
    if blank c then acc 0 A l else
    if c = 13 then acc 41 A l else
    if c = 10 then some (A, l) else
    if c = 95 then acc 27 A l else
    none := by
  rw [acc, tr0]
  split_ifs <;> first | rfl | simp_all

theorem tr1 : ∀ c : UInt8, processCharacter table c 1 =
    if any c then some (0, 1) else
    if c = 13 then some (0, 41) else
    if c = 10 then some (10, 0) else
    none := byte_all (by decide +kernel)

theorem acc1 (A : Acts) (c : UInt8) (l : List UInt8) : acc 1 A (c :: l) =
    if any c then acc 1 A l else
    if c = 13 then acc 41 A l else
    if c = 10 then some (A, l) else
    none := by
  rw [acc, tr1]
  split_ifs <;> first | rfl | simp_all

theorem tr2 : ∀ c : UInt8, processCharacter table c 2 =
    if alnum c ∨ c = 95 then some (1, 2) else
    if blank c then some (0, 3) else
    if c = 61 then some (0, 4) else
    if c = 91 then some (0, 5) else
    if c = 43 then some (0, 6) else
    if c = 40 then some (0, 24) else
    none := byte_all (by decide +kernel)

theorem acc2 (A : Acts) (c : UInt8) (l : List UInt8) : acc 2 A (c :: l) =
    if alnum c ∨ c = 95 then acc 2 { A with name := addTo c A.name } l else
    if blank c then acc 3 A l else
    if c = 61 then acc 4 A l else
    if c = 91 then acc 5 A l else
    if c = 43 then acc 6 A l else
    if c = 40 then acc 24 A l else
    none := by
  rw [acc, tr2]
  split_ifs <;> first | rfl | simp_all

theorem tr3 : ∀ c : UInt8, processCharacter table c 3 =
    if blank c then some (0, 3) else
    if c = 61 then some (0, 4) else
    if c = 91 then some (0, 5) else
    if c = 43 then some (0, 6) else
    none := byte_all (by decide +kernel)

theorem acc3 (A : Acts) (c : UInt8) (l : List UInt8) : acc 3 A (c :: l) =
    if blank c then acc 3 A l else
    if c = 61 then acc 4 A l else
    if c = 91 then acc 5 A l else
    if c = 43 then acc 6 A l else
    none := by
  rw [acc, tr3]
  split_ifs <;> first | rfl | simp_all

theorem tr4 : ∀ c : UInt8, processCharacter table c 4 =
    if blank c then some (0, 4) else
    if digit c then some (4, 7) else
    if c = 34 then some (0, 8) else
    if c = 123 then some (6, 22) else
    none := byte_all (by decide +kernel)

theorem acc4 (A : Acts) (c : UInt8) (l : List UInt8) : acc 4 A (c :: l) =
    if blank c then acc 4 A l else
    if digit c then acc 7 { A with num := addTo c A.num } l else
    if c = 34 then acc 8 A l else
    if c = 123 then acc 22 { A with brace := addTo c A.brace } l else
    none := by
  rw [acc, tr4]
  split_ifs <;> first | rfl | simp_all

theorem tr5 : ∀ c : UInt8, processCharacter table c 5 =
    if blank c then some (0, 5) else
    if c = 34 then some (0, 13) else
    none := byte_all (by decide +kernel)

theorem acc5 (A : Acts) (c : UInt8) (l : List UInt8) : acc 5 A (c :: l) =
    if blank c then acc 5 A l else
    if c = 34 then acc 13 A l else
    none := by
  rw [acc, tr5]
  split_ifs <;> first | rfl | simp_all

theorem tr6 : ∀ c : UInt8, processCharacter table c 6 =
    if c = 61 then some (5, 4) else
    none := byte_all (by decide +kernel)

theorem acc6 (A : Acts) (c : UInt8) (l : List UInt8) : acc 6 A (c :: l) =
    if c = 61 then acc 4 { A with plus := addTo c A.plus } l else
    none := by
  rw [acc, tr6]
  split_ifs <;> first | rfl | simp_all

theorem tr7 : ∀ c : UInt8, processCharacter table c 7 =
    if digit c then some (4, 7) else
    if blank c then some (0, 10) else
    if c = 35 then some (0, 1) else
    if c = 13 then some (0, 41) else
    if c = 10 then some (10, 0) else
    none := byte_all (by decide +kernel)

theorem acc7 (A : Acts) (c : UInt8) (l : List UInt8) : acc 7 A (c :: l) =
    if digit c then acc 7 { A with num := addTo c A.num } l else
    if blank c then acc 10 A l else
    if c = 35 then acc 1 A l else
    if c = 13 then acc 41 A l else
    if c = 10 then some (A, l) else
    none := by
  rw [acc, tr7]
  split_ifs <;> first | rfl | simp_all

theorem tr8 : ∀ c : UInt8, processCharacter table c 8 =
    if inString c then some (3, 12) else
    none := byte_all (by decide +kernel)

theorem acc8 (A : Acts) (c : UInt8) (l : List UInt8) : acc 8 A (c :: l) =
    if inString c then acc 12 { A with str := addTo c A.str } l else
    none := by
  rw [acc, tr8]
  split_ifs <;> first | rfl | simp_all

theorem tr10 : ∀ c : UInt8, processCharacter table c 10 =
    if blank c then some (0, 10) else
    if c = 35 then some (0, 1) else
    if c = 13 then some (0, 41) else
    if c = 10 then some (10, 0) else
    none := byte_all (by decide +kernel)

theorem acc10 (A : Acts) (c : UInt8) (l : List UInt8) : acc 10 A (c :: l) =
    if blank c then acc 10 A l else
    if c = 35 then acc 1 A l else
    if c = 13 then acc 41 A l else
    if c = 10 then some (A, l) else
    none := by
  rw [acc, tr10]
  split_ifs <;> first | rfl | simp_all

theorem tr12 : ∀ c : UInt8, processCharacter table c 12 =
    if inString c then some (3, 12) else
    if c = 34 then some (0, 10) else
    none := byte_all (by decide +kernel)

theorem acc12 (A : Acts) (c : UInt8) (l : List UInt8) : acc 12 A (c :: l) =
    if inString c then acc 12 { A with str := addTo c A.str } l else
    if c = 34 then acc 10 A l else
    none := by
  rw [acc, tr12]
  split_ifs <;> first | rfl | simp_all

theorem tr13 : ∀ c : UInt8, processCharacter table c 13 =
    if c = 46 then some (2, 14) else
    if alnum c then some (2, 15) else
    if c = 45 then some (2, 15) else
    if c = 95 then some (2, 15) else
    none := byte_all (by decide +kernel)

theorem acc13 (A : Acts) (c : UInt8) (l : List UInt8) : acc 13 A (c :: l) =
    if c = 46 then acc 14 { A with key := addTo c A.key } l else
    if alnum c then acc 15 { A with key := addTo c A.key } l else
    if c = 45 then acc 15 { A with key := addTo c A.key } l else
    if c = 95 then acc 15 { A with key := addTo c A.key } l else
    none := by
  rw [acc, tr13]
  split_ifs <;> first | rfl | simp_all

theorem tr14 : ∀ c : UInt8, processCharacter table c 14 =
    if c = 34 then some (0, 16) else
    none := byte_all (by decide +kernel)

theorem acc14 (A : Acts) (c : UInt8) (l : List UInt8) : acc 14 A (c :: l) =
    if c = 34 then acc 16 A l else
    none := by
  rw [acc, tr14]
  split_ifs <;> first | rfl | simp_all

theorem tr15 : ∀ c : UInt8, processCharacter table c 15 =
    if alnum c ∨ c = 45 ∨ c = 46 ∨ c = 95 then some (2, 15) else
    if c = 34 then some (0, 16) else
    none := byte_all (by decide +kernel)

theorem acc15 (A : Acts) (c : UInt8) (l : List UInt8) : acc 15 A (c :: l) =
    if alnum c ∨ c = 45 ∨ c = 46 ∨ c = 95 then acc 15 { A with key := addTo c A.key } l else
    if c = 34 then acc 16 A l else
    none := by
  rw [acc, tr15]
  split_ifs <;> first | rfl | simp_all

theorem tr16 : ∀ c : UInt8, processCharacter table c 16 =
    if blank c then some (0, 16) else
    if c = 93 then some (0, 17) else
    none := byte_all (by decide +kernel)

theorem acc16 (A : Acts) (c : UInt8) (l : List UInt8) : acc 16 A (c :: l) =
    if blank c then acc 16 A l else
    if c = 93 then acc 17 A l else
    none := by
  rw [acc, tr16]
  split_ifs <;> first | rfl | simp_all

theorem tr17 : ∀ c : UInt8, processCharacter table c 17 =
    if blank c then some (0, 17) else
    if c = 61 then some (0, 18) else
    if c = 43 then some (0, 19) else
    none := byte_all (by decide +kernel)

theorem acc17 (A : Acts) (c : UInt8) (l : List UInt8) : acc 17 A (c :: l) =
    if blank c then acc 17 A l else
    if c = 61 then acc 18 A l else
    if c = 43 then acc 19 A l else
    none := by
  rw [acc, tr17]
  split_ifs <;> first | rfl | simp_all

theorem tr18 : ∀ c : UInt8, processCharacter table c 18 =
    if blank c then some (0, 18) else
    if c = 34 then some (0, 20) else
    none := byte_all (by decide +kernel)

theorem acc18 (A : Acts) (c : UInt8) (l : List UInt8) : acc 18 A (c :: l) =
    if blank c then acc 18 A l else
    if c = 34 then acc 20 A l else
    none := by
  rw [acc, tr18]
  split_ifs <;> first | rfl | simp_all

theorem tr19 : ∀ c : UInt8, processCharacter table c 19 =
    if c = 61 then some (5, 18) else
    none := byte_all (by decide +kernel)

theorem acc19 (A : Acts) (c : UInt8) (l : List UInt8) : acc 19 A (c :: l) =
    if c = 61 then acc 18 { A with plus := addTo c A.plus } l else
    none := by
  rw [acc, tr19]
  split_ifs <;> first | rfl | simp_all

theorem tr20 : ∀ c : UInt8, processCharacter table c 20 =
    if inString c then some (3, 21) else
    none := byte_all (by decide +kernel)

theorem acc20 (A : Acts) (c : UInt8) (l : List UInt8) : acc 20 A (c :: l) =
    if inString c then acc 21 { A with str := addTo c A.str } l else
    none := by
  rw [acc, tr20]
  split_ifs <;> first | rfl | simp_all

theorem tr21 : ∀ c : UInt8, processCharacter table c 21 =
    if inString c then some (3, 21) else
    if c = 34 then some (0, 10) else
    none := byte_all (by decide +kernel)

theorem acc21 (A : Acts) (c : UInt8) (l : List UInt8) : acc 21 A (c :: l) =
    if inString c then acc 21 { A with str := addTo c A.str } l else
    if c = 34 then acc 10 A l else
    none := by
  rw [acc, tr21]
  split_ifs <;> first | rfl | simp_all

theorem tr22 : ∀ c : UInt8, processCharacter table c 22 =
    if c = 125 then some (0, 10) else
    none := byte_all (by decide +kernel)

theorem acc22 (A : Acts) (c : UInt8) (l : List UInt8) : acc 22 A (c :: l) =
    if c = 125 then acc 10 A l else
    none := by
  rw [acc, tr22]
  split_ifs <;> first | rfl | simp_all

theorem tr24 : ∀ c : UInt8, processCharacter table c 24 =
    if c = 34 then some (0, 25) else
    none := byte_all (by decide +kernel)

theorem acc24 (A : Acts) (c : UInt8) (l : List UInt8) : acc 24 A (c :: l) =
    if c = 34 then acc 25 A l else
    none := by
  rw [acc, tr24]
  split_ifs <;> first | rfl | simp_all

theorem tr25 : ∀ c : UInt8, processCharacter table c 25 =
    if inString c then some (7, 25) else
    if c = 34 then some (0, 26) else
    none := byte_all (by decide +kernel)

theorem acc25 (A : Acts) (c : UInt8) (l : List UInt8) : acc 25 A (c :: l) =
    if inString c then acc 25 { A with file := addTo c A.file } l else
    if c = 34 then acc 26 A l else
    none := by
  rw [acc, tr25]
  split_ifs <;> first | rfl | simp_all

theorem tr26 : ∀ c : UInt8, processCharacter table c 26 =
    if c = 41 then some (0, 10) else
    none := byte_all (by decide +kernel)

theorem acc26 (A : Acts) (c : UInt8) (l : List UInt8) : acc 26 A (c :: l) =
    if c = 41 then acc 10 A l else
    none := by
  rw [acc, tr26]
  split_ifs <;> first | rfl | simp_all

theorem tr27 : ∀ c : UInt8, processCharacter table c 27 =
    if c = 114 then some (0, 28) else
    none := byte_all (by decide +kernel)

theorem acc27 (A : Acts) (c : UInt8) (l : List UInt8) : acc 27 A (c :: l) =
    if c = 114 then acc 28 A l else
    none := by
  rw [acc, tr27]
  split_ifs <;> first | rfl | simp_all

theorem tr28 : ∀ c : UInt8, processCharacter table c 28 =
    if c = 101 then some (0, 29) else
    none := byte_all (by decide +kernel)

theorem acc28 (A : Acts) (c : UInt8) (l : List UInt8) : acc 28 A (c :: l) =
    if c = 101 then acc 29 A l else
    none := by
  rw [acc, tr28]
  split_ifs <;> first | rfl | simp_all

theorem tr29 : ∀ c : UInt8, processCharacter table c 29 =
    if c = 109 then some (0, 30) else
    none := byte_all (by decide +kernel)

theorem acc29 (A : Acts) (c : UInt8) (l : List UInt8) : acc 29 A (c :: l) =
    if c = 109 then acc 30 A l else
    none := by
  rw [acc, tr29]
  split_ifs <;> first | rfl | simp_all

theorem tr30 : ∀ c : UInt8, processCharacter table c 30 =
    if c = 61 then some (0, 31) else
    none := byte_all (by decide +kernel)

theorem acc30 (A : Acts) (c : UInt8) (l : List UInt8) : acc 30 A (c :: l) =
    if c = 61 then acc 31 A l else
    none := by
  rw [acc, tr30]
  split_ifs <;> first | rfl | simp_all

theorem tr31 : ∀ c : UInt8, processCharacter table c 31 =
    if c = 123 then some (0, 32) else
    none := byte_all (by decide +kernel)

theorem acc31 (A : Acts) (c : UInt8) (l : List UInt8) : acc 31 A (c :: l) =
    if c = 123 then acc 32 A l else
    none := by
  rw [acc, tr31]
  split_ifs <;> first | rfl | simp_all

theorem tr32 : ∀ c : UInt8, processCharacter table c 32 =
    if c = 125 then some (0, 10) else
    if any c then some (0, 32) else
    if c = 10 then some (0, 32) else
    if c = 13 then some (0, 32) else
    none := byte_all (by decide +kernel)

theorem acc32 (A : Acts) (c : UInt8) (l : List UInt8) : acc 32 A (c :: l) =
    if c = 125 then acc 10 A l else
    if any c then acc 32 A l else
    if c = 10 then acc 32 A l else
    if c = 13 then acc 32 A l else
    none := by
  rw [acc, tr32]
  split_ifs <;> first | rfl | simp_all

theorem tr41 : ∀ c : UInt8, processCharacter table c 41 =
    if c = 10 then some (10, 0) else
    none := byte_all (by decide +kernel)

theorem acc41 (A : Acts) (c : UInt8) (l : List UInt8) : acc 41 A (c :: l) =
    if c = 10 then some (A, l) else
    none := by
  rw [acc, tr41]
  split_ifs <;> first | rfl | simp_all

end Rc
end Dw
