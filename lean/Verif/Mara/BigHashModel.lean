import Verif.Mara.LookupModel
/-!
# Model: how records get into the main table, server/MaraBigHash.c and server/MaraAnyChain.c

The table is a dictionary (see `HashProps.lean`, `array_exact`).  Records are nodes with addresses,
since chains share their ends: the records of a zone are followed by the name servers of the zone.
A node that has been given back to the system is no longer live, and looking at it is undefined.
Memory is taken to be available.  The fields that are set later (`ip`, `ptr`, `list`, ...) are left out.
-/

namespace Mara
namespace Big

open Dw (Res)
open Lookup (getRtype changeRtype)

/-- `rr`, MaraDns.h:204-229. -/
structure Node where
  auth : Bool
  ttl : Nat
  type : Nat
  data : List UInt8
  next : Option Nat
  live : Bool
  query : List UInt8

/-- What the table has: `MARA_DNSRR`, or `MARA_DNS_LIST` with the types and records of a name. -/
inductive Cell where
  | rr (i : Nat)
  | list (l : List (Nat × Nat))

structure Store where
  heap : List Node
  dict : List UInt8 → Option Cell

/-- Look at a record. -/
def Store.deref (s : Store) (i : Nat) : Res Node :=
  match s.heap[i]? with
  | none => .ub
  | some n => if n.live then .ok n else .ub

def Store.set (s : Store) (k : List UInt8) (v : Option Cell) : Store :=
  { s with dict := fun x => if x = k then v else s.dict x }

/-- `any_add_rr`, MaraAnyChain.c:35-119; with the result.  `harderror` ends the program (`.err`). -/
def anyAdd (s : Store) (query : List UInt8) (i : Nat) : Res (Bool × Store) :=
  match getRtype query with
  | none => .ok (false, s)
  | some t =>
    if query.length ≥ 256 then .ok (false, s)
    else match changeRtype query 255 with
      | none => .ok (false, s)
      | some k =>
        match s.dict k with
        | none => .ok (true, s.set k (some (.list [(t, i)])))
        | some (.rr _) => .err
        | some (.list l) =>
          if l.length > 65001 then .ok (false, s)
          else .ok (true, s.set k (some (.list (l ++ [(t, i)]))))

/-- `any_zap_rr`, MaraAnyChain.c:138-212; the result `false` is `JS_ERROR`. -/
def anyZap (s : Store) (query : List UInt8) (i : Nat) : Res (Bool × Store) :=
  if query.length ≥ 256 then .ok (false, s)
  else match changeRtype query 255 with
    | none => .ok (false, s)
    | some k =>
      match s.dict k with
      | none => .ok (true, s)
      | some (.rr _) => .ub
      | some (.list []) => .ub
      | some (.list (e :: l)) =>
        if e.2 = i then .ok (true, s.set k (if l = [] then none else some (.list l)))
        else if (l.take 65000).any (·.2 == i) then .ok (true, s.set k (some (.list (e :: l.eraseP (·.2 == i)))))
        else .ok (decide (l.length < 65000), s)

/-- `mhash_put_rr`, MaraBigHash.c:199-270.  If the key is there already, the record is given back
although it has been added to the list. -/
def putRr (s : Store) (query data : List UInt8) (ttl : Nat) (auth : Bool) : Res (Bool × Store) :=
  match getRtype query with
  | none => .ok (false, s)
  | some t => do
    let i := s.heap.length
    let node : Node := { auth, ttl, type := t, data, next := none, live := true, query }
    let s := { s with heap := s.heap ++ [node] }
    let there := (s.dict query).isSome
    let s := if there then s else s.set query (some (.rr i))
    let (ok, s) ← anyAdd s query i
    if ok = false then .ok (false, s)
    else if there then .ok (false, { s with heap := s.heap.set i { node with live := false } })
    else .ok (true, s)

/-- The search for the place of a new record, MaraBigHash.c:352-353. -/
def place (s : Store) : (n : Nat) → (i : Nat) → Res Nat
  | 0, _ => .ub
  | n + 1, i => do
    let p ← s.deref i
    match p.next with
    | none => .ok i
    | some j => do
      let q ← s.deref j
      if q.type = 2 then .ok i else place s n j

/-- `mhash_add_rr`, MaraBigHash.c:279-355. -/
def addRr (s : Store) (query data : List UInt8) (ttl : Nat) (auth : Bool) : Res (Bool × Store) :=
  match getRtype query with
  | none => .ok (false, s)
  | some t =>
    match s.dict query with
    | none => .ok (false, s)
    | some (.list _) => .ok (false, s)
    | some (.rr i) => do
      let first ← s.deref i
      let p ← place s (s.heap.length + 1) i
      let pn ← s.deref p
      let new := s.heap.length
      .ok (true, { s with heap := s.heap.set p { pn with next := some new } ++
        [{ auth, ttl, type := t, data, next := pn.next, live := true, query := first.query }] })

/-- The search for the end of a chain, MaraBigHash.c:597-598. -/
def lastOf (s : Store) : (n : Nat) → (i : Nat) → Res Nat
  | 0, _ => .ub
  | n + 1, i => do
    let p ← s.deref i
    match p.next with
    | none => .ok i
    | some j => lastOf s n j

/-- `mhash_add_ns`, MaraBigHash.c:537-600. -/
def addNs (s : Store) (query ns : List UInt8) : Res (Bool × Store) :=
  match getRtype query, getRtype ns with
  | none, _ => .ok (false, s)
  | some t, nt =>
    if t = 2 then .ok (true, s)
    else match nt with
      | none => .ok (false, s)
      | some nt =>
        if nt ≠ 2 then .ok (true, s)
        else match s.dict query with
          | none => .ok (false, s)
          | some (.list _) => .ok (false, s)
          | some (.rr i) =>
            match s.dict ns with
            | none => .ok (true, s)
            | some (.list _) => .ok (false, s)
            | some (.rr j) => do
              let p ← lastOf s (s.heap.length + 1) i
              let pn ← s.deref p
              .ok (true, { s with heap := s.heap.set p { pn with next := some j } })

/-- `js_fgrep`: the first place at which a string occurs. -/
def fgrep (e l : List UInt8) : Option Nat := (List.range (l.length + 1 - e.length)).find? fun i => (l.drop i).take e.length == e

/-- Is the record one the server is the authority for, by the name of its zone?
MaraBigHash.c:1338-1371; `none` is an error.  `zone` is the question for the name servers of the zone. -/
def authority (query zone : List UInt8) : Option Bool :=
  match getRtype query with
  | none => none
  | some t =>
    match changeRtype zone t with
    | none => none
    | some z =>
      if z = query then some true
      else if t = 2 then some false
      else match query with
        | [] => none
        | c :: _ =>
          if c = 95 then some (decide (z.length + 1 = query.length ∧ fgrep z query = some 1))
          else if c < 64 then
            some (decide (z.length + (c.toNat + 1) = query.length ∧ fgrep z query = some (c.toNat + 1)))
          else none

/-- Put in a record with its name servers. -/
def putWithNs (s : Store) (query data : List UInt8) (ttl : Nat) (zone : List UInt8) (auth : Bool) : Res (Bool × Store) := do
  let (ok, s) ← putRr s query data ttl auth
  if ok = false then .ok (false, s) else addNs s query zone

/-- `add_rr_to_bighash`, MaraBigHash.c:1308-1437. -/
def add (s : Store) (query data : List UInt8) (ttl : Nat) (zone : List UInt8) : Res (Bool × Store) :=
  if query.length < 3 ∨ zone.length < 3 then .ok (false, s)
  else match getRtype query with
    | none => .ok (false, s)
    | some t =>
      if t = 255 ∨ t = 251 ∨ t = 252 then .ok (false, s)
      else match authority query zone with
        | none => .ok (false, s)
        | some auth =>
          match s.dict query with
          | none => putWithNs s query data ttl zone auth
          | some (.list _) => .ok (false, s)
          | some (.rr i) => do
            let p ← s.deref i
            if p.auth = auth then addRr s query data ttl auth
            else if p.auth = false then do
              let s := s.set query none
              let (ok, s) ← anyZap s query i
              if ok = false then .ok (false, s)
              else putWithNs { s with heap := s.heap.set i { p with live := false } } query data ttl zone auth
            else .ok (true, s)

/-- The records of a chain, as they are found by following it from a record. -/
def chain (s : Store) : (n : Nat) → (i : Option Nat) → Res (List Node)
  | _, none => .ok []
  | 0, some _ => .ub
  | n + 1, some i => do
    let p ← s.deref i
    let r ← chain s n p.next
    .ok (p :: r)

end Big
end Mara
