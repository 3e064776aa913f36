import Verif.Deadwood.DissectProps
/-!
# C84: a reply that gets names into the cache that are none of its business
-/

namespace Dw
namespace Dissect

open DwStr Spec Ns

/-- Fifteen name servers of a.e, and one of the bank, which is in another zone. -/
def exPoison : Answers := ⟨[], List.replicate 15 (exNs exD exX) ++ [exNs exBank exX], [exA exX [6, 6, 6, 6]], 0⟩

theorem exPoison_reply : Reply (ofBytes exPoison.packed.enc) exPoison := reply_of _ (by decide +kernel) (by decide +kernel) (by decide) (by decide) (by decide +kernel)

set_option maxRecDepth 100000 in
/-- C84 is false for replies with more than fifteen authority records: the servers of e, asked for w.a.e,
can say who serves a name outside e.  They are asked next, and it is kept. -/
theorem kept_outside : ∃ (cfg : Times) (ns query inp : DwStr) (bs qs : List (List UInt8)) (qtype : Nat) (p : Answers) (ttl : Int)
    (junk : List UInt8) (st : Step) (e : Put), Servers ns bs ∧ Asks query qs qtype ∧ Reply inp p ∧
    cacheReply cfg ns false query inp ttl junk = .ok st ∧ e ∈ st.puts ∧ st.ns = some e.value ∧
    e.key = encName exBank ++ be16 65395 ∧ ¬ Below exBank bs ∧ ¬ Below exBank qs ∧ ¬ Below qs exBank := by
  refine ⟨exTimes, exServers, exQuery, ofBytes exPoison.packed.enc, [[101]], exW, 1, exPoison, 60, [],
    ⟨[⟨encName exBank ++ be16 65395, encName exBank ++ [1, 6, 6, 6, 6, 0, 8, 1, 16], 3600⟩],
      some (encName exBank ++ [1, 6, 6, 6, 6, 0, 8, 1, 16]), none⟩, _, exServers_of, exQuery_asks, exPoison_reply, ?_,
    List.mem_singleton.2 rfl, rfl, rfl, by decide, by decide, by decide⟩
  decide +kernel

end Dissect
end Dw
