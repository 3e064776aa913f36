import Verif.Deadwood.DissectPoison
/-!
# C84–C87: replies that are taken in a way one would not expect
-/

namespace Dw
namespace Dissect

open DwStr Spec Ns

/-- A referral to the servers of a zone that is none of their business. -/
def exBlank : Answers := ⟨[], [exNs exBank exX], [], 0⟩

set_option maxRecDepth 100000 in
/-- A referral that may not be made is not ignored: an empty list of servers is made the one to ask next,
and is put in the cache as that of the root. -/
theorem nobody_kept : ∃ (cfg : Times) (ns query inp : DwStr) (bs qs : List (List UInt8)) (qtype : Nat) (p : Answers) (ttl : Int)
    (junk : List UInt8) (st : Step), Servers ns bs ∧ Asks query qs qtype ∧ Reply inp p ∧ delegations bs qs p.ns = [] ∧
    cacheReply cfg ns false query inp ttl junk = .ok st ∧ st.ns = some [0, 16] ∧
    st.puts = [⟨encName [] ++ be16 65395, [0, 16], 3600⟩] := by
  refine ⟨exTimes, exServers, exQuery, ofBytes exBlank.packed.enc, [[101]], exW, 1, exBlank, 60, [], ⟨_, _, none⟩,
    exServers_of, exQuery_asks, reply_of _ (by decide +kernel) (by decide +kernel) (by decide) (by decide) (by decide +kernel), by decide, ?_, rfl, rfl⟩
  decide +kernel

set_option maxRecDepth 100000 in
/-- Asked for all records, a reply with nothing but unrelated records is kept as an answer with no records. -/
theorem any_empty : ∃ (cfg : Times) (ns query inp : DwStr) (bs qs : List (List UInt8)) (p : Answers) (ttl : Int)
    (junk : List UInt8), Servers ns bs ∧ Asks query qs 255 ∧ Reply inp p ∧ (∀ r ∈ p.an, ¬ SameName qs r.name) ∧
    cacheReply cfg ns false query inp ttl junk =
      .ok ⟨[⟨encName qs ++ be16 255, (⟨[], [], [], 0⟩ : Answers).packed.enc, 60⟩], none, none⟩ := by
  refine ⟨exTimes, exServers, ofBytes (encName exW ++ be16 255), ofBytes exOther.packed.enc, [[101]], exW, exOther, 60, [],
    exServers_of, ⟨ofBytes_usable (by decide), by unfold Spec.NameOk LabelsOk; decide, by decide, ofBytes_contents _⟩, exOther_reply, by decide, ?_⟩
  decide +kernel

/-- Seven unrelated records, and then the answer. -/
def exLate : Answers := ⟨List.replicate 7 (exA exBank [6, 6, 6, 6]) ++ [exA exW [1, 2, 3, 4]], [], [], 0⟩

set_option maxRecDepth 100000 in
/-- An answer behind seven records that are not believed is not found. -/
theorem answer_late : ∃ (cfg : Times) (ns query inp : DwStr) (bs qs : List (List UInt8)) (p : Answers) (ttl : Int)
    (junk : List UInt8), Servers ns bs ∧ Asks query qs 1 ∧ Reply inp p ∧ (∃ r ∈ p.an, r.type = 1 ∧ Alike qs r.name) ∧
    cacheReply cfg ns false query inp ttl junk = .err := by
  refine ⟨exTimes, exServers, exQuery, ofBytes exLate.packed.enc, [[101]], exW, exLate, 60, [],
    exServers_of, exQuery_asks, reply_of _ (by decide +kernel) (by decide +kernel) (by decide) (by decide) (by decide +kernel), by decide, ?_⟩
  decide +kernel

end Dissect
end Dw
