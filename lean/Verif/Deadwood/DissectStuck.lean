import Verif.Deadwood.DissectFindings
/-!
# C86: an alias that is not followed
-/

namespace Dw
namespace Dissect

open DwStr Spec Ns

/-- A name of 67 bytes in e. -/
def exLong (c : UInt8) : List (List UInt8) := [List.replicate 63 c, [101]]

/-- An alias for an alias for an alias for an alias. -/
def exFar : Answers := ⟨[exAlias exW (exLong 97), exAlias (exLong 97) (exLong 98), exAlias (exLong 98) (exLong 99), exAlias (exLong 99) (exLong 100)],
  [], [], 0⟩

set_option maxRecDepth 100000 in
/-- An alias with too many bytes in front of it is kept, but it is not looked up where it leads. -/
theorem alias_stuck : ∃ (cfg : Times) (ns query inp : DwStr) (bs qs : List (List UInt8)) (p : Answers) (ttl : Int)
    (junk : List UInt8) (t : Int), Servers ns bs ∧ Asks query qs 1 ∧ Reply inp p ∧ Chain qs p.an ∧ p.an.length = 4 ∧
    cacheReply cfg ns false query inp ttl junk = .ok ⟨[⟨encName qs ++ be16 65394, aliases p.an, t⟩], none, none⟩ := by
  refine ⟨exTimes, exServers, exQuery, ofBytes exFar.packed.enc, [[101]], exW, exFar, 60, [], 3600,
    exServers_of, exQuery_asks, reply_of _ (by decide +kernel) (by decide +kernel) (by decide) (by decide) (by decide +kernel), by decide +kernel, rfl, ?_⟩
  decide +kernel

end Dissect
end Dw
