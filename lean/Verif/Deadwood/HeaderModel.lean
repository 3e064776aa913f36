import Verif.Deadwood.AclModel
/-!
# Query IDs and the acceptance test for client packets

Source: `/repo/deadwood-github/src/DwSys.c`.
-/

namespace Dw
namespace Hdr
open Acl

/-- `get_dns_qid`, DwSys.c:865-906.  `a` is the C array, `len` the packet length. -/
def getDnsQid (a : List UInt8) (len : Nat) (check : Nat) : Res Int :=
  if len < 12 then .ok (-1)
  else do
    let a0 ← rd a 0; let a1 ← rd a 1; let a2 ← rd a 2; let a3 ← rd a 3
    let a4 ← rd a 4; let a5 ← rd a 5; let a6 ← rd a 6; let a7 ← rd a 7
    let a8 ← rd a 8; let a9 ← rd a 9; let a10 ← rd a 10; let a11 ← rd a 11
    if check = 1 ∧ a2 &&& 0x80 ≠ 0 then .ok (-1)
    else if check = 2 ∧ (a2 &&& 0xf9 ≠ 1 ∨ a3 &&& 0x4f ≠ 0 ∨ a4 ≠ 0 ∨ a5 ≠ 1 ∨ a6 ≠ 0 ∨ a7 ≠ 0 ∨
        a8 ≠ 0 ∨ a9 ≠ 0 ∨ a10 ≠ 0) then .ok (-1)
    else if check = 2 ∧ a11 = 1 then .ok (-2)
    else if check = 2 ∧ a11 ≠ 0 then .ok (-1)
    else if a5 = 0 ∧ a4 = 0 ∧ a6 = 0 ∧ a7 = 0 ∧ a8 = 0 ∧ a9 = 0 ∧ a10 = 0 ∧ a11 = 0 then .ok (-1)
    else .ok (a0.toNat * 256 + a1.toNat : Nat)

/-- `set_dns_qid`, DwSys.c:911-919; `qid` is 16 bits wide. -/
def setDnsQid (a : List UInt8) (len : Nat) (qid : Nat) : Res (Int × List UInt8) :=
  if len < 12 then .ok (-1, a)
  else do
    let a ← wr a 0 (UInt8.ofNat (qid / 256))
    let a ← wr a 1 (UInt8.ofNat qid)
    .ok (qid, a)

end Hdr
end Dw
