import Verif.Mara.CompModel
/-!
# The authoritative server: putting a reply together

Source: `/repo/server/udpsuccess.c`, `squeeze_to_fit`, `make_hdr` and `read_hdr` of
`/repo/dns/Queries.c`, `udperror` of `/repo/server/MaraDNS.c`, as built with `AUTHONLY`.

Strings are their contents, with the sizes they were made with (1024 bytes for `most`, 5000 for
`ar`); allocations succeed.  Records have addresses, since the round robin changes their order and
records are shown only once.  A limit (`max_chain`, `max_total`, `max_ar_chain`) that is negative acts
like 0.  The parts for the recursive half are left out: nothing sets the `ip` of a CNAME record,
`ptr`, `zap` or `expire` in the authoritative server.  Sending never fails.
-/

namespace Mara
namespace Reply

open Dw (Res)

/-- `q_header`, MaraDns.h. -/
structure Hdr where
  id : Nat
  qr : Bool := false
  opcode : Nat := 0
  aa : Bool := false
  tc : Bool := false
  rd : Bool := false
  ra : Bool := false
  z : Nat := 0
  rcode : Nat := 0
  qd : Nat := 0
  an : Nat := 0
  ns : Nat := 0
  ar : Nat := 0
deriving Repr, DecidableEq

/-- A 16-bit number as `make_hdr` and `js_adduint16` write it. -/
def put16 (n : Nat) : List UInt8 := [UInt8.ofNat (n / 256), UInt8.ofNat n]

/-- `js_adduint32`. -/
def put32 (n : Nat) : List UInt8 := put16 (n / 65536) ++ put16 (n % 65536)

/-- `make_hdr`, Queries.c:96-140: the first twelve bytes. -/
def makeHdr (h : Hdr) : List UInt8 :=
  put16 h.id ++
  [(if h.qr then (128 : UInt8) else 0) ||| (UInt8.ofNat h.opcode &&& 15) <<< 3 ||| (if h.aa then 4 else 0) |||
      (if h.tc then 2 else 0) ||| (if h.rd then 1 else 0),
    (if h.ra then (128 : UInt8) else 0) ||| (UInt8.ofNat h.z &&& 7) <<< 4 ||| (UInt8.ofNat h.rcode &&& 15)] ++
  put16 h.qd ++ put16 h.an ++ put16 h.ns ++ put16 h.ar

/-- `read_hdr`, Queries.c:149-194, for a string of at least twelve bytes. -/
def readHdr : List UInt8 → Option Hdr
  | a :: b :: x :: y :: q :: q' :: n :: n' :: s :: s' :: r :: r' :: _ =>
    some {
      id := a.toNat * 256 + b.toNat
      qr := x &&& 128 != 0
      opcode := ((x &&& 120) >>> 3).toNat
      aa := x &&& 4 != 0
      tc := x &&& 2 != 0
      rd := x &&& 1 != 0
      ra := y &&& 128 != 0
      z := ((y &&& 112) >>> 4).toNat
      rcode := (y &&& 15).toNat
      qd := q.toNat * 256 + q'.toNat
      an := n.toNat * 256 + n'.toNat
      ns := s.toNat * 256 + s'.toNat
      ar := r.toNat * 256 + r'.toNat }
  | _ => none

/-- Past the questions, Queries.c:1008-1032; nothing is the reply cut down to its header. -/
def skipQ (l : List UInt8) : (n off : Nat) → Option Nat
  | 0, off => some off
  | n + 1, off =>
    match Lookup.dlabel l off 256 0 with
    | none => none
    | some len => if off + (len + 4) ≥ l.length then none else skipQ l n (off + (len + 4))

/-- Past all records but the last, Queries.c:1035-1070. -/
def skipR (l : List UInt8) : (n off : Nat) → Option Nat
  | 0, off => some off
  | n + 1, off =>
    match Lookup.dlabel l off 256 0 with
    | none => none
    | some len =>
      let off := off + (len + 8)
      if off + 2 ≥ l.length then none
      else
        let len := (l.getD off 0).toNat * 256 + (l.getD (off + 1) 0).toNat
        if off + (len + 2) ≥ l.length then none else skipR l n (off + (len + 2))

/-- The header alone, with the bit that says that the reply is cut short. -/
def cut (h : Hdr) : List UInt8 := makeHdr { h with tc := true, qd := 0, an := 0, ns := 0, ar := 0 }

/-- `squeeze_to_fit`, Queries.c:983-1095. -/
def squeeze (l : List UInt8) : Res (List UInt8) :=
  match readHdr l with
  | none => .ub
  | some h =>
    if h.tc = true ∨ (h.ns = 0 ∧ h.ar = 0) then .ok (cut h)
    else match skipQ l h.qd 12 with
      | none => .ok (cut h)
      | some off =>
        match skipR l (h.an + h.ns + h.ar - 1) off with
        | none => .ok (cut h)
        | some off =>
          let h' := if h.ar > 0 then { h with ar := h.ar - 1 } else { h with ns := h.ns - 1 }
          .ok (makeHdr { h' with tc := false } ++ (l.drop 12).take (off - 12))

/-- The loop that takes records away, udpsuccess.c:563-588.  `none` is `compress_error_happened`
(`ar` is then not looked at again), or what is in `ar`. -/
def fitLoop : (n : Nat) → (most : List UInt8) → (last : Option (List UInt8)) → Res (Option (List UInt8))
  | 0, _, last => .ok last
  | n + 1, most, _ => do
    let most ← squeeze most
    if most.length > 12 then
      match Comp.compress most 1024 5000 with
      | .ok c => if c.length ≤ 512 then .ok (some c) else fitLoop n most (some c)
      | .err => fitLoop n most none
      | .ub => .ub
    else if most.length = 12 then fitLoop n most (some most)
    else .ok none

/-- Compression and cutting down, udpsuccess.c:539-597; `long` says that the client has an IPv4
address on the list `long_packet`.  Nothing is an error. -/
def fit (most : List UInt8) (long : Bool) : Res (Option (List UInt8)) :=
  match Comp.compress most 1024 5000 with
  | .ub => .ub
  | .err => fitLoop 20 most none
  | .ok c =>
    if c.length > 512 then
      if long ∧ c.length < 4096 then .ok (some c) else fitLoop 20 most (some c)
    else .ok (some c)

/-- `rr`, MaraDns.h:204-229. -/
structure Node where
  query : List UInt8
  data : List UInt8
  ttl : Nat
  type : Nat
  auth : Bool
  next : Option Nat := none
  ip : Option Nat := none
  ip6 : Option Nat := none
  list : List (Nat × Option Nat) := []
deriving Repr, DecidableEq

abbrev Heap := List Node

def deref (h : Heap) (i : Nat) : Res Node :=
  match h[i]? with
  | none => .ub
  | some p => .ok p

def setNext (h : Heap) (i : Nat) (v : Option Nat) : Heap :=
  match h[i]? with
  | none => h
  | some p => h.set i { p with next := v }

/-- Settings of the mararc file, and whether the server is built with `IPV6`. -/
structure Cfg where
  maxChain : Nat := 8
  maxTotal : Nat := 20
  maxAr : Nat := 1
  v6 : Bool := false
deriving Repr, DecidableEq

/-- The variables of `udpsuccess`; `head` is what `rotate_point` points to, `bad` is `goto giveerror`. -/
structure St where
  heap : Heap
  head : Nat
  most : List UInt8
  ar : List UInt8 := []
  an : Nat := 0
  ns : Nat := 0
  arc : Nat := 0
  seen : List Nat := []
  total : Nat := 0
  bad : Bool := false
deriving Repr, DecidableEq

/-- `js_append` and the like, to a string of `max` bytes. -/
def append (max : Nat) (out l : List UInt8) : Option (List UInt8) :=
  if out.length + l.length ≥ max then none else some (out ++ l)

/-- The appends for one record, e.g. udpsuccess.c:217-233. -/
def put (max : Nat) (out : List UInt8) (p : Node) : Option (List UInt8) := do
  let out ← append max out p.query
  let out ← append max out (put16 1)
  let out ← append max out (put32 p.ttl)
  let out ← append max out (put16 p.data.length)
  append max out p.data

/-- Addresses for a record, udpsuccess.c:234-280 and 282-326. -/
def addrs (cfg : Cfg) : (n : Nat) → (i : Option Nat) → (cnt : Nat) → St → Res St
  | _, none, _, s => .ok s
  | 0, some _, _, _ => .ub
  | n + 1, some i, cnt, s => do
    let p ← deref s.heap i
    if p.type = 2 then .ok s
    else if i ∈ s.seen then addrs cfg n p.next cnt s
    else if cnt ≥ cfg.maxAr ∨ s.total ≥ cfg.maxTotal then .ok s
    else match put 5000 s.ar p with
      | none => .ok { s with bad := true }
      | some ar =>
        let seen := if s.seen.length < 250 then i :: s.seen else s.seen
        addrs cfg n p.next (cnt + 1) { s with ar := ar, total := s.total + 1, arc := s.arc + 1, seen := seen }

/-- The records a CNAME leads to, udpsuccess.c:432-485: `t` is the type that is asked for. -/
def follow (t : Nat) : (n : Nat) → (i : Option Nat) → St → Res St
  | 0, _, s => .ok s
  | _, none, s => .ok s
  | n + 1, some i, s => do
    let p ← deref s.heap i
    if p.type ≠ t then .ok s
    else match put 1024 s.most p with
      | none => .ok { s with bad := true }
      | some most => follow t n p.next { s with most := most, an := s.an + 1 }

/-- The entry for a type on the list of a CNAME record, udpsuccess.c:441-450. -/
def onList (t : Nat) (l : List (Nat × Option Nat)) : Option Nat :=
  match (l.take 1001).find? (·.1 == t) with
  | none => none
  | some e => e.2

/-- One record of the answer or authority section and what belongs to it, udpsuccess.c:205-486. -/
def entry (cfg : Cfg) (t : Nat) (inNs : Bool) (p : Node) (s : St) : Res St :=
  let s := { s with total := s.total + 1 }
  match put 1024 s.most p with
  | none => .ok { s with bad := true }
  | some most => do
    let s := { s with most := most, an := if inNs then s.an else s.an + 1, ns := if inNs then s.ns + 1 else s.ns }
    if p.type = 5 then follow t 100 (onList t p.list) s
    else do
      let s ← addrs cfg (s.heap.length + 1) p.ip 0 s
      if s.bad = true ∨ cfg.v6 = false then .ok s
      else addrs cfg (s.heap.length + 1) p.ip6 0 s

/-- The loop over the chain, udpsuccess.c:174-510. -/
def walk (cfg : Cfg) (t : Nat) (isAuth deleg : Bool) (first : Nat) :
    (n : Nat) → (i : Option Nat) → (inNs : Bool) → (cnt : Nat) → (second last : Option Nat) → St → Res St
  | _, none, _, _, _, _, s => .ok s
  | 0, some _, _, _, _, _, _ => .ub
  | n + 1, some i, inNs, cnt, second, last, s => do
    let p ← deref s.heap i
    let turn := decide (t ≠ 2 ∧ p.type = 2 ∧ inNs = false)
    let (s, second) := match turn && decide (cfg.maxAr = 1), second, last with
      | true, some b, some l =>
        ({ s with heap := setNext (setNext s.heap first (some i)) l (some first), head := b }, none)
      | _, _, _ => (s, second)
    let inNs := inNs || turn
    let cnt := if turn then 0 else cnt
    let go := decide (cnt < cfg.maxChain ∧ s.total < cfg.maxTotal ∧ (inNs = false ∨ isAuth = true ∨ deleg = true))
    let s ← if go then entry cfg t inNs p s else .ok s
    if s.bad = true then .ok s
    else do
      let p ← deref s.heap i
      let (s, second) := match p.next, second, decide (cfg.maxAr = 1 ∧ t ≠ 2) with
        | none, some b, true =>
          ({ s with heap := setNext (setNext s.heap first none) i (some first), head := b }, none)
        | _, _, _ => (s, second)
      walk cfg t isAuth deleg first n p.next inNs (if go then cnt + 1 else cnt) second (some i) s

/-- The reply of `udperror`, MaraDNS.c:514-603, with `SERVER_FAIL` and no question. -/
def servfail (id : Nat) (rd : Bool) : List UInt8 := makeHdr { id := id, qr := true, rd := rd, rcode := 2 }

/-- What is sent and what becomes of the records. -/
structure Done where
  reply : List UInt8
  heap : Heap
  head : Nat
deriving Repr, DecidableEq

/-- `udpsuccess`, udpsuccess.c:61-633: `first` is `where`, `query` the name and type of the question,
`force` is `force_authoritative`. -/
def udpsuccess (cfg : Cfg) (heap : Heap) (first id : Nat) (query : List UInt8) (rd force long : Bool) : Res Done := do
  let p ← deref heap first
  let fail (s : St) : Res Done := .ok ⟨servfail id rd, s.heap, s.head⟩
  let s : St := { heap := heap, head := first, most := makeHdr { id := id } }
  match Lookup.getRtype query with
  | none => .ub
  | some t =>
    if p.data.length > 65535 then fail s
    else match append 1024 s.most query with
    | none => fail s
    | some most =>
      match append 1024 most (put16 1) with
      | none => fail s
      | some most => do
        let second ← match p.next with
          | none => .ok none
          | some j => do
            let q ← deref heap j
            .ok (if t ≠ 2 ∧ q.type = 2 then none else some j)
        let s ← walk cfg t p.auth (decide (t ≠ 2 ∧ p.type = 2)) first (heap.length + 1) (some first) false 0 second none
          { s with most := most }
        if s.bad = true then fail s
        else
          let hdr := makeHdr { id := id, qr := true, aa := force || p.auth, rd := rd, qd := 1,
                               an := s.an, ns := s.ns, ar := s.arc }
          match append 1024 (hdr ++ s.most.drop 12) s.ar with
          | none => fail s
          | some most => do
            let out ← fit most long
            match out with
            | none => fail s
            | some c => .ok ⟨c, s.heap, s.head⟩

end Reply
end Mara
