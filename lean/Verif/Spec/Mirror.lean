import Verif.Spec.Transfer
import Verif.Spec.Serve
/-!
# Specification: zones that are fetched by another server of the same kind
-/

namespace Spec
namespace Mirror

/-- A record as it is sent. -/
def sentAs (r : Rec) : Serve.Copy := ⟨r.name, r.type, r.ttl, r.rdata⟩

/-- A name that can be sent. -/
def Short (n : Name) : Prop := LabelsOk n ∧ (encName n).length ≤ 255

/-- A record of the zone which has the data its type demands, and can be written to a zone file and kept by the server. -/
structure Kept (zone : Name) (r : Rec) : Prop where
  ok : r.Ok
  cls : r.cls = [0, 1]
  name : Short r.name
  names : ∀ n ∈ r.names, Short n
  plain : Transfer.Plain r
  within : Transfer.Within zone r.name
  a : r.type = 1 → r.tail.length = 4
  txt : r.type = 16 → ∃ n rest, r.tail = n :: rest ∧ n.toNat ≤ rest.length
  type : r.type < 65001
  fits : (encName r.name).length ≤ 253

end Mirror
end Spec
