import Verif.Deadwood.DissectModel
/-!
# Model: the answer for a name that is an alias

Source: `/repo/deadwood-github/src/DwRecurse.c`, `dwx_make_one_cname_rr` to `dwx_make_cname_reply`: from the aliases kept
for a name and from the answer for the name they lead to, the answer for the name is made and put in the cache.
-/

namespace Dw
namespace Alias
open DwStr Dissect

/-- The string object `dw_get_dname` makes for a name, DwStr.c:786-791 and 829-831, when it is called with `size`. -/
def nameOf (size : Nat) (name junk : List UInt8) : DwStr :=
  let cap := if size > 260 then size else 260
  ⟨name.length, cap, (name ++ junk ++ List.replicate (cap + 2) 0).take (cap + 2)⟩

/-- `dwx_make_one_cname_rr`, DwRecurse.c:1838-1882: the record and the length of its name.  `err` is the null pointer. -/
def oneCname (question : DwStr) (qo : Nat) (answer : DwStr) (ao : Nat) (ttl : Int) (size : Nat) (junk : List UInt8) :
    Res (DwStr × Nat) := do
  let (name, _) ← getDname question.buf qo size
  let out ← (nameOf size name junk).copy junk
  let len := out.len
  let out ← pushU16 5 out
  let out ← pushU16 1 out
  let out ← pushU16 (u16 (ttl / 65536)) out
  let out ← pushU16 (u16 ttl) out
  let (target, _) ← getDname answer.buf ao 260
  let out ← pushU16 target.length out
  let out ← append (nameOf 260 target junk) out
  .ok (out, len)

/-- What `dwx_create_cname_reply` works on: the answer so far, the offsets of its records (`this_offset` is their
number), and whether `temp` points to memory that has been given back. -/
structure Work where
  value : DwStr
  offs : List (Nat × Nat)
  freed : Bool
deriving Repr, DecidableEq

/-- Leaving `dwx_create_cname_reply` by `catch_dwx_create_cname_reply`, DwRecurse.c:2049-2057: `temp` is given back,
a second time if the loop has done so before. -/
def Work.giveUp {α : Type} (w : Work) : Res α := if w.freed then .ub else .err

/-- The loop over the further aliases, DwRecurse.c:2021-2042; `n` is how many more may be taken (`this_offset < 12`). -/
def linkLoop (action : DwStr) (ttl : Int) (final : Nat) (junk : List UInt8) : (n cur : Nat) → Work → Res Work
  | 0, _, w => .ok w
  | n + 1, cur, w =>
    if ¬ cur < final then .ok w
    else
      match action.fetchU16 cur with
      | .ub => .ub
      | .err => w.giveUp
      | .ok length =>
        if length < 1 then w.giveUp
        else do
          let (temp, len) ← oneCname action (cur + 2) action (cur + length + 4) ttl 260 junk
          let value ← append temp w.value
          let w' : Work := ⟨value, w.offs ++ [(w.value.len % 65536, (w.value.len + len) % 65536)], true⟩
          if value.len > 1020 then .err else linkLoop action ttl final junk n (cur + length + 2) w'

/-- Where `dwx_add_final_answer` is in the answers: `place`, `last_place`, the offsets and `temp->len`. -/
structure Walk where
  place : Nat
  last : Nat
  offs : List (Nat × Nat)
  len : Nat
deriving Repr, DecidableEq

/-- The loop of `dwx_add_final_answer`, DwRecurse.c:1911-1944; `n` is how many more records may be taken
(`this_offset < 15`), `max` and `first` are `value->max` and `value->len`.  `err` is a return out of the loop. -/
def finalLoop (temp : DwStr) (max first : Nat) : (n : Nat) → Walk → Res Walk
  | 0, w => .ok w
  | n + 1, w => do
    let e ← temp.getDnEnd w.place
    let rdlength ← temp.fetchU16 (e + 8 : Nat)
    let place := e + 8 + (rdlength + 2)
    if (place + first : Int) > max - 8 - w.offs.length * 4 then
      if w.place < w.len then .ok { w with last := w.place, len := w.place }
      else .ok { w with place := place, last := w.place }
    else
      let w' : Walk := ⟨place, w.place, w.offs ++ [((w.place + first) % 65536, (e + first) % 65536)], w.len⟩
      if place ≥ w.len then .ok w' else finalLoop temp max first n w'

/-- Writing the offsets, DwRecurse.c:1960-1962. -/
def putOffsets : List (Nat × Nat) → DwStr → Res DwStr
  | [], s => .ok s
  | c :: cs, s => do
    let s ← pushIgn c.1 s
    let s ← pushIgn c.2 s
    putOffsets cs s

/-- The end of `dwx_add_final_answer`, DwRecurse.c:1946-1968. -/
def finalEnd (temp value : DwStr) (w : Walk) : Res DwStr := do
  let len := if w.place < w.len then w.place else w.len
  let (len, offs) :=
    if (w.place + value.len : Int) > value.max - 8 - w.offs.length * 4 ∧ w.last < len then (w.last, w.offs.dropLast)
    else (len, w.offs)
  let value ← appendIgn { temp with len := len } value
  let value ← putOffsets offs value
  let value ← pushIgn offs.length value
  let value ← pushIgn 0 value
  let value ← pushIgn 0 value
  addcharIgn 0 value

/-- `dwx_add_final_answer`, DwRecurse.c:1886-1969: what becomes of `value`. -/
def addFinal (answer value : DwStr) (offs : List (Nat × Nat)) (junk : List UInt8) : Res DwStr :=
  match (do
    let (start, fin) ← answer.rrExtent junk
    let temp ← answer.substr start ((fin : Int) - start) 1 junk
    let w ← finalLoop temp value.max value.len (15 - offs.length) ⟨0, 0, offs, temp.len⟩
    .ok (temp, w) : Res (DwStr × Walk)) with
  | .ok (temp, w) => finalEnd temp value w
  | .err => .ok value
  | .ub => .ub

/-- `dwx_alt_cname_reply`, DwRecurse.c:1975-1990.  (If the record can not be made, nothing is.) -/
def altReply (query action : DwStr) (ttl : Int) (junk : List UInt8) : Res DwStr := do
  let (value, _) ← oneCname query 0 action 2 ttl 260 junk
  let place ← match value.getDnEnd 0 with
    | .ok e => Res.ok e
    | .err => Res.ok 65535
    | .ub => Res.ub
  let value ← pushIgn 0 value
  let value ← pushIgn place value
  let value ← pushIgn 1 value
  let value ← pushIgn 0 value
  let value ← pushIgn 0 value
  addcharIgn 0 value

/-- `dwx_create_cname_reply`, DwRecurse.c:1993-2058: the answer for `query` from the aliases `action` and the answer for
the name they lead to.  `err` is the null pointer. -/
def createReply (query action answer : DwStr) (ttl : Int) (junk : List UInt8) : Res DwStr := do
  let final ← action.fetchU16 (-2)
  let kind ← action.fetchU8 (-1)
  if kind ≠ 17 then .err
  else
    let type ← match answer.fetchU8 (-1) with
      | .ok t => Res.ok (t : Int)
      | .err => Res.ok (-1)
      | .ub => Res.ub
    if type ≠ 0 then altReply query action ttl junk
    else do
      let (value, len) ← oneCname query 0 action 2 ttl 1024 junk
      if value.len > 1020 then .err
      else do
        let w ← linkLoop action ttl final junk 11 0 ⟨value, [(0, len % 65536)], false⟩
        let value ← addFinal answer w.value w.offs junk
        if value.len > 1020 then w.giveUp else .ok value

/-- How long the answer is kept, DwRecurse.c:2160-2181: `most` is `here_max_ttl`. -/
def doneTtl (cfg : Times) (answer : DwStr) (ancount : Nat) (most : Int) : Res Int := do
  let ttl : Int ← match answer.getADnsttl ancount 0 31536000 with
    | .ok t => Res.ok (t : Int)
    | .err => Res.ok 3600
    | .ub => Res.ub
  let ttl := if ttl < 30 then 30 else ttl
  let ttl := if ttl < cfg.min then cfg.min else ttl
  let ttl := if ttl > cfg.max then cfg.max else ttl
  .ok (if most > 0 ∧ ttl > most then most else ttl)

/-- `dwx_make_cname_reply`, DwRecurse.c:2145-2192, up to where the answer is put in the cache: what is put there.  The
packet for the clients is made of the same string (`dwc_compress`, see CompModel.lean); that this may fail is not modelled
here. -/
def makeReply (cfg : Times) (query action answer : DwStr) (most : Int) (junk : List UInt8) : Res Put := do
  let ancount ← answer.fetchU16 (-6)
  if ancount < 1 then .err
  else do
    let ttl ← doneTtl cfg answer ancount most
    let uncomp ← createReply query action answer ttl junk
    .ok ⟨query.contents, uncomp.contents, ttl⟩

end Alias
end Dw
