import Verif.Deadwood.StrModel
/-!
# Choosing a name server

Source: `/repo/deadwood-github/src/DwRecurse.c` (`dwx_nsref_type`, `dwx_choose_ns`,
`dwx_ns_getip`).
-/

namespace Dw
namespace Ns

open DwStr

/-- `dwx_nsref_type`, DwRecurse.c:2764-2777: offset and type of entry `a` of a list of servers. -/
def nsrefType (a : Nat) (list : DwStr) : Res (Nat × Nat) := do
  let offset ← list.fetchU16 (-(2 + (a : Int) * 2) - 1)
  if offset > list.len then .err
  else do
    let t ← list.fetchU8 offset
    .ok (offset, t)

/-- The loop of `dwx_choose_ns` that favours glued records, DwRecurse.c:2806-2816.  `rnd` are
the numbers the generator gives; the call of `dwx_nsref_type` only decides when to stop, and an
error there is "no A and no AAAA". -/
def favour (list : DwStr) (count : Nat) : List Nat → Nat → Nat
  | [], out => out
  | r :: rnd, _ =>
    let out := r % count
    match nsrefType out list with
    | .ok (_, t) => if t = 1 ∨ t = 28 then out else favour list count rnd out
    | _ => favour list count rnd out

/-- `dwx_choose_ns`, DwRecurse.c:2782-2824: the chosen entry and the new `current_ns`
(`none` is -1). -/
def chooseNs (current : Option Nat) (count : Nat) (rnd : List Nat) (list : DwStr) : Nat × Option Nat :=
  if count ≤ 1 then (0, current)
  else
    let out := match current with
      | none => favour list count (rnd.take 5) 0
      | some c => (c + 173) % count
    (out, some out)

/-- `dwx_ns_getip`, DwRecurse.c:2831-2870, up to the reading of the entry: the entry chosen, its
offset and its type.  The types of lists are TYPE_NS_REFER 16 and TYPE_UPSTREAM_REFER 22 (DwRecurse.h:75,80). -/
def nsGetip (list : DwStr) (current : Option Nat) (rnd : List Nat) : Res ((Nat × Nat × Nat) × Option Nat) := do
  let type ← list.fetchU8 (-1)
  if type ≠ 16 ∧ type ≠ 22 then .err
  else do
    let count ← list.fetchU8 (-2)
    if count = 0 ∨ count > 127 then .err
    else
      let (a, current) := chooseNs current count rnd list
      do
        let (offset, rr) ← nsrefType a list
        .ok ((a, offset, rr), current)

end Ns
end Dw
