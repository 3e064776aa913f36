import Verif.Deadwood.CompressPacketProps
import Verif.Deadwood.DissectStuck
/-!
# C58: what happens to an answer that does not fit: the message that is sent

(`DissectStuck` is imported so that the two, which take a lot of memory, are not built at the same time.)
-/

namespace Dw
namespace DwStr
open Spec

/-! ## A label that does not fit is left out -/

def bigRec : Rec := ⟨[[97]], 16, [0, 1], 9, [], [], List.replicate 450 7⟩
def addrRec (n : List (List UInt8)) : Rec := ⟨n, 1, [0, 1], 7, [], [], [10, 1, 2, 3]⟩
def fullAns : Answers := ⟨[bigRec, addrRec [List.replicate 63 98, [97]]], [], [], 0⟩
def badAns : Answers := ⟨[bigRec, addrRec [[97]]], [], [], 0⟩

theorem not_same_answers : ¬ SameAnswers fullAns badAns := by
  intro h
  have h2 : SameRec (addrRec [List.replicate 63 98, [97]]) (addrRec [[97]]) := h.an.2.1
  have h3 := congrArg List.length h2.name
  simp [addrRec] at h3

/-- Compress and then decompress. -/
def there (q : DwStr) (l : List UInt8) : Res (Nat × List UInt8) := do
  let o ← compress q (ofBytes l) []
  let d ← decompress q o []
  pure (o.contents.length, d.contents)

theorem full_ok : fullAns.packed.Ok where
  recs r hr := by
    have : r = bigRec.toRR ∨ r = (addrRec [List.replicate 63 98, [97]]).toRR := by simpa [fullAns, Answers.packed, Packed.all] using hr
    rcases this with rfl | rfl <;> exact ⟨by decide, rfl, by decide, rfl⟩
  size := by decide +kernel
  kind := .inl rfl

/-- What is left of compressing once the places of the records are known. -/
def after (q inp : DwStr) (junk : List UInt8) (cells : List (Nat × Nat)) : Res DwStr :=
  if !q.sane || !inp.sane then .err
  else do
    let stack ← create 1024 junk
    let out ← create 515 junk
    let stack ← pushOffsets q 0 stack 0x8000
    let (out, _) ← compressRrs inp q junk cells out stack
    let out ← out.orElse (out.pushU16 2)
    let out ← out.orElse (out.pushU16 0)
    let out ← out.orElse (out.pushU16 0)
    out.orElse (addchar 0 out)

theorem compress_after : compress exQ (ofBytes fullAns.packed.enc) [] = after exQ (ofBytes fullAns.packed.enc) [] [(0, 3), (463, 530)] := by
  obtain ⟨d, h1, -, -, h2, h3, h4, h5⟩ := makeDnsStr_eq (ofBytes_usable (by decide +kernel)) full_ok (by decide)
    (ofBytes_contents fullAns.packed.enc) []
  have e1 : d.an = [(0, 3), (463, 530)] := h2.trans (by decide +kernel)
  have e2 : d.ns = [] := h3
  have e3 : d.ar = [] := h4
  have e4 : d.type = 0 := h5
  unfold compress after
  simp only [h1, e1, e2, e3, e4, Res.ok_bind, List.append_nil, List.length_cons, List.length_nil, Nat.zero_add]

/-- What is sent. -/
def droppedOut : DwStr := ⟨485, 515, [192, 12, 0, 16, 0, 1, 0, 0, 0, 9, 1, 194] ++ List.replicate 450 7 ++
  [192, 12, 0, 1, 0, 1, 0, 0, 0, 7, 0, 4, 10, 1, 2, 3, 0, 2] ++ List.replicate 37 0⟩

theorem compress_full : compress exQ (ofBytes fullAns.packed.enc) [] = .ok droppedOut := by
  rw [compress_after]
  decide +kernel

end DwStr
end Dw
