import Verif.Mara.BigHashModel
import Verif.Mara.ReplyModel
/-!
# Model: pointers from records to other records, `add_an` and what it uses, server/MaraBigHash.c

After the zones have been read, records that name a host (NS and MX) get pointers to the addresses of
that host, and aliases (CNAME) to the list of all records of the name they lead to.

The keys of the hash are visited in an order that depends on the hash function; here they are a
parameter.  (A table that grows during the visit, because records are added for dotted quads, may miss
keys or give them twice.)  Warnings are left out.
-/

namespace Mara
namespace Big

open Dw (Res)
open Lookup (getRtype changeRtype)

/-- The fields of `rr` set by `add_an`.  Lists are shared: a pointer to a list is the key it is found
under (a list is never taken out of the hash after the zones have been read). -/
structure Link where
  ip : Option Nat := none
  ip6 : Option Nat := none
  list : Option (List UInt8) := none
deriving DecidableEq

/-- The hash, and the pointers. -/
structure Linked where
  store : Store
  links : Nat → Link

def Linked.setIp (s : Linked) (i a : Nat) : Linked :=
  { s with links := fun j => if j = i then { s.links i with ip := some a } else s.links j }

def Linked.setIp6 (s : Linked) (i a : Nat) : Linked :=
  { s with links := fun j => if j = i then { s.links i with ip6 := some a } else s.links j }

def Linked.setList (s : Linked) (i : Nat) (k : List UInt8) : Linked :=
  { s with links := fun j => if j = i then { s.links i with list := some k } else s.links j }

/-- `answer_ip_query`, MaraBigHash.c:1230-1275, for the types 2, 5 and 15: the question for the address
of the host; the string for it has 256 bytes. -/
def hostQuery (t : Nat) (data : List UInt8) : Option (List UInt8) :=
  let start := if t = 15 then 2 else 0
  match L.substr data start (data.length - start) 256 with
  | none => none
  | some n => if n.length + 2 ≥ 256 then none else some (n ++ [0, 1])

/-- `make_ddip`, MaraBigHash.c:1036-1100: a record for a name that is a dotted quad. -/
def makeDdip (s : Store) (q : List UInt8) : Res (Bool × Store) :=
  if getRtype q ≠ some 1 then .ok (false, s)
  else if q.length < 9 then .ok (false, s)
  else match Lookup.ddipLoop q 4 0 [] with
    | .err => .ok (false, s)
    | .no => .ok (false, s)
    | .yes ip lenl => if q.getD lenl 0 ≠ 0 then .ok (false, s) else putRr s q ip 8675309 true

/-- The IPv6 address of a host, MaraBigHash.c:1168-1179. -/
def linkSix (v6 : Bool) (i : Nat) (q : List UInt8) (s : Linked) : Linked :=
  if v6 = false then s
  else match changeRtype q 28 with
    | none => s
    | some q =>
      match s.store.dict q with
      | some (.rr a) => s.setIp6 i a
      | _ => s

/-- The addresses of the host a record names, MaraBigHash.c:1147-1179; `t` is the type of the key that
is visited, not of the record. -/
def linkHost (v6 : Bool) (t i : Nat) (data : List UInt8) (s : Linked) : Res Linked :=
  match hostQuery t data with
  | none => .ok s
  | some q =>
    match changeRtype q 1 with
    | none => .ok s
    | some q =>
      match s.store.dict q with
      | some (.rr a) => .ok (linkSix v6 i q (s.setIp i a))
      | _ =>
        match makeDdip s.store q with
        | .ok (true, st) =>
          match st.dict q with
          | some (.rr a) => .ok (linkSix v6 i q ({ s with store := st }.setIp i a))
          | _ => .ok (linkSix v6 i q { s with store := st })
        | .ok (false, st) => .ok (linkSix v6 i q { s with store := st })
        | .err => .err
        | .ub => .ub

/-- The records of a chain, MaraBigHash.c:1146-1180. -/
def linkHosts (v6 : Bool) (t : Nat) : (n i : Nat) → Linked → Res Linked
  | 0, _, _ => .ub
  | n + 1, i, s => do
    let p ← s.store.deref i
    let s ← linkHost v6 t i p.data s
    let p ← s.store.deref i
    match p.next with
    | none => .ok s
    | some j => linkHosts v6 t n j s

/-- The list for a CNAME record, MaraBigHash.c:1193-1213. -/
def linkAlias (i : Nat) (q : List UInt8) (s : Linked) : Linked :=
  match changeRtype q 255 with
  | none => s
  | some k =>
    match s.store.dict k with
    | some (.list _) => s.setList i k
    | _ => s

/-- The records of a chain that begins with CNAME records, MaraBigHash.c:1188-1214. -/
def linkAliases : (n i : Nat) → Linked → Res Linked
  | 0, _, _ => .ub
  | n + 1, i, s => do
    let p ← s.store.deref i
    let next (s : Linked) : Res Linked := match p.next with
      | none => .ok s
      | some j => linkAliases n j s
    match hostQuery 5 p.data with
    | none => next s
    | some q => if p.type ≠ 5 then .ok s else next (linkAlias i q s)

/-- One key, MaraBigHash.c:1133-1216. -/
def visit (v6 : Bool) (k : List UInt8) (s : Linked) : Res Linked :=
  match getRtype k with
  | none => .ok s
  | some t =>
    if t = 15 ∨ t = 2 then
      match s.store.dict k with
      | some (.rr i) => linkHosts v6 t (s.store.heap.length + 1) i s
      | _ => .ok s
    else if t = 5 then
      match s.store.dict k with
      | some (.rr i) => linkAliases (s.store.heap.length + 1) i s
      | _ => .ub
    else .ok s

/-- `add_an`, MaraBigHash.c:1111-1220, visiting the keys in the given order. -/
def addAn (v6 : Bool) : (ks : List (List UInt8)) → Linked → Res Linked
  | [], s => .ok s
  | k :: ks, s => do
    let s ← visit v6 k s
    addAn v6 ks s

/-- The list behind a pointer. -/
def Linked.listAt (s : Linked) : Option (List UInt8) → List (Nat × Option Nat)
  | none => []
  | some k =>
    match s.store.dict k with
    | some (.list l) => l.map fun e => (e.1, some e.2)
    | _ => []

/-- The record at a place, with its pointers. -/
def Linked.node (s : Linked) (i : Nat) (p : Node) : Reply.Node :=
  { query := p.query, data := p.data, ttl := p.ttl, type := p.type, auth := p.auth, next := p.next,
    ip := (s.links i).ip, ip6 := (s.links i).ip6, list := s.listAt (s.links i).list }

/-- The records as the replies find them.  A record that has been given back may have become anything,
`junk`. -/
def Linked.heap (s : Linked) (junk : Nat → Reply.Node) : Reply.Heap :=
  s.store.heap.mapIdx fun i p => if p.live then s.node i p else junk i

end Big
end Mara
