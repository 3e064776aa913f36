import Verif.Spec.Unpacked
import Verif.Spec.Packed
/-!
# Specification: questions over TCP

RFC 1035 4.2.2: a message over TCP has its length in front.  A question that is passed on to another server is the same
question with another identification.
-/

namespace Spec
namespace Door

/-- A message with its length. -/
def framed (m : List UInt8) : List UInt8 := be16 m.length ++ m

/-- The question for the other server: identification `id`, the bit for recursion, name and type as asked, class IN. -/
def passedOn (id : Nat) (rd : Bool) (n : List (List UInt8)) (type : List UInt8) : List UInt8 :=
  be16 id ++ [if rd then 1 else 0, 0] ++ be16 1 ++ be16 0 ++ be16 0 ++ be16 0 ++ encName n ++ type ++ be16 1

/-- A reply with the identification that the client has chosen, names written out. -/
def given (id : List UInt8) (r : Parcel) : List UInt8 := framed (id ++ r.bytes.drop 2)

end Door
end Spec
