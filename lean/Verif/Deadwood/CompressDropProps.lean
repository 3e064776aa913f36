import Verif.Deadwood.CompressDropOut
/-!
# C58: what happens to an answer that does not fit
-/

namespace Dw
namespace DwStr
open Spec

theorem there_full : there exQ fullAns.packed.enc = .ok (485, badAns.packed.enc) := by
  unfold there
  rw [compress_full]
  decide +kernel

/-- **Finding.** A label that does not fit in the 515 bytes of the output is left out and
compression goes on: the address of `bbb….a.` is sent as an address of `a.`. -/
theorem compress_drops_label :
    there exQ fullAns.packed.enc = .ok (485, badAns.packed.enc) ∧ ¬ SameAnswers fullAns badAns :=
  ⟨there_full, not_same_answers⟩

end DwStr
end Dw
