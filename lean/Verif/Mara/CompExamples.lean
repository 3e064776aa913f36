import Verif.Mara.CompUnique
/-!
# C70: an example, and a reply that cannot be compressed
-/

namespace Mara
namespace Comp

open Spec
open Dw (Res)

/-- `a.bc.` -/
def exName : Name := [[97], [98, 99]]

/-- A question for the MX record of `a.bc.`; the answer is `10 m.a.BC.`, the name server `n.bc.`, the address of
`m.a.bc.` is given, and there is a text. -/
def exMsg : Msg where
  head := [1, 2, 132, 0]
  qname := exName
  qtype := 15
  qclass := 1
  an := [⟨exName, 15, [0, 1], 86400, [0, 10], [[[109], [97], [66, 67]]], []⟩]
  ns := [⟨[[98, 99]], 2, [0, 1], 86400, [], [[[110], [98, 99]]], []⟩]
  ar := [⟨[[109], [97], [98, 99]], 1, [0, 1], 86400, [], [], [10, 1, 2, 3]⟩,
    ⟨[[109], [97], [98, 99]], 16, [0, 1], 86400, [], [], [2, 104, 105]⟩]

theorem nameOk_dec {n : Name} (h : decide ((∀ l ∈ n, 1 ≤ l.length ∧ l.length ≤ 63) ∧ (encName n).length ≤ 255) = true) : NameOk n :=
  (of_decide_eq_true h : (∀ l ∈ n, 1 ≤ l.length ∧ l.length ≤ 63) ∧ (encName n).length ≤ 255)

theorem exMsg_sound : exMsg.Sound := by
  refine ⟨rfl, nameOk_dec (by decide), by decide, by decide, ?_, by decide, by decide, by decide⟩
  intro r hr
  unfold Msg.all exMsg at hr
  simp only [List.cons_append, List.nil_append, List.mem_cons, List.not_mem_nil, or_false] at hr
  rcases hr with rfl | rfl | rfl | rfl
  · refine ⟨⟨by decide, rfl, by decide, by decide, by decide⟩, nameOk_dec (by decide), ?_, by decide, by decide, by intro h; cases h⟩
    intro n hn; rw [List.mem_singleton] at hn; rw [hn]; exact nameOk_dec (by decide)
  · refine ⟨⟨by decide, rfl, by decide, by decide, by decide⟩, nameOk_dec (by decide), ?_, by decide, by decide, by intro h; cases h⟩
    intro n hn; rw [List.mem_singleton] at hn; rw [hn]; exact nameOk_dec (by decide)
  · refine ⟨⟨by decide, rfl, by decide, by decide, by decide⟩, nameOk_dec (by decide), ?_, by decide, by decide, by intro h; cases h⟩
    intro n hn; cases hn
  · refine ⟨⟨by decide, rfl, by decide, by decide, by decide⟩, nameOk_dec (by decide), ?_, by decide, by decide, ?_⟩
    · intro n hn; cases hn
    · intro _; exact ⟨2, [104, 105], rfl, by decide⟩

example : ∃ c p', compress exMsg.bytes 1024 5000 = .ok c ∧ exMsg.Same p' ∧ p'.Is c ∧ c.length ≤ exMsg.bytes.length :=
  compress_carries exMsg_sound (by decide) (by decide) (by decide) (by decide)

/-- The bytes that come out: the answer's owner is a pointer to the question, `BC` in its data as well. -/
example : compress exMsg.bytes 1024 5000 = .ok (exMsg.header ++ exMsg.question ++
    [192, 12, 0, 15, 0, 1, 0, 1, 81, 128, 0, 6, 0, 10, 1, 109, 192, 12] ++
    [192, 14, 0, 2, 0, 1, 0, 1, 81, 128, 0, 4, 1, 110, 192, 14] ++
    [192, 36, 0, 1, 0, 1, 0, 1, 81, 128, 0, 4, 10, 1, 2, 3] ++
    [192, 36, 0, 16, 0, 1, 0, 1, 81, 128, 0, 3, 2, 104, 105]) := by decide +kernel

/-- The reply to a question for the PTR record made from `*.a.bc. FQDN4 10.1.2.3`: the data of that record are
`_` and the name. -/
def starReply : List UInt8 :=
  [1, 2, 132, 0, 0, 1, 0, 1, 0, 0, 0, 0] ++ (encName [[51], [50], [49], [49, 48], [105, 110], [97]] ++ be16 12 ++ be16 1) ++
    (encName [[51], [50], [49], [49, 48], [105, 110], [97]] ++ be16 12 ++ be16 1 ++ be32 86400 ++ be16 7 ++ (95 :: encName exName))

/-- It cannot be compressed: the server has no answer to give to such a question. -/
theorem star_ptr_refused : compress starReply 1024 5000 = .err := by decide +kernel

end Comp
end Mara
