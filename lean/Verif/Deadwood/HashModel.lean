import Verif.Deadwood.StrModel
/-!
# The Deadwood hash (`dw_hash`): buckets, recency queue, add/get/zap

Source: `/repo/deadwood-github/src/DwHash.c`.

Keys and values are modelled by their contents (byte lists): `dw_copy` and
`dw_issame` were shown to copy/compare exactly the contents (StrProps).  A hash
element lives in a bucket chain and is identified by `id` (its address); the
"fila" (recency queue) is the list of the ids of the elements its nodes point
to, most recently used first.  Following a fila node whose element has been
freed is undefined behaviour (`Res.ub`).  Memory exhaustion is not modelled.
The clock (`get_time()`, a 64-bit count of 1/256 seconds) is an argument `now`.
-/

namespace Dw

/-- 32-bit rotation used by the hash compressor, DwHash.c:182 and :188. -/
def rot13 (x : UInt32) : UInt32 := (x >>> 19) ||| (x <<< 13)

/-- One mixing round, DwHash.c:178-182 (`MUL_CONSTANT` is chosen at compile
time, `add_constant` at start-up: both are parameters). -/
def hashRound (mul addc out tmp : UInt32) : UInt32 := rot13 ((out ^^^ tmp) * mul + addc)

/-- Four bytes as a big-endian word, padded with zeros, DwHash.c:164-177. -/
def word4 : List UInt8 → UInt32
  | a :: b :: c :: d :: _ =>
    (a.toUInt32 <<< 24) ||| (b.toUInt32 <<< 16) ||| (c.toUInt32 <<< 8) ||| d.toUInt32
  | [a, b, c] => (a.toUInt32 <<< 24) ||| (b.toUInt32 <<< 16) ||| (c.toUInt32 <<< 8)
  | [a, b] => (a.toUInt32 <<< 24) ||| (b.toUInt32 <<< 16)
  | [a] => a.toUInt32 <<< 24
  | [] => 0

/-- Loop of `dwh_hash_compress`, DwHash.c:157-184. -/
def hashLoop (mul addc : UInt32) (out : UInt32) : List UInt8 → UInt32
  | [] => out
  | a :: l => hashLoop mul addc (hashRound mul addc out (word4 (a :: l))) ((a :: l).drop 4)
termination_by l => l.length
decreasing_by simp; omega

/-- `dwh_hash_compress`, DwHash.c:147-196. -/
def hashCompress (mul addc : UInt32) (s : List UInt8) : UInt32 :=
  hashRound mul addc (hashLoop mul addc 0 s) (UInt32.ofNat s.length)

/-- `dw_element`, DwHash.h.  `prev`/`next` are the bucket chain (see `Hash.tbl`). -/
structure Elem where
  id : Nat
  key : List UInt8
  value : List UInt8
  expire : Int
  immutable : Bool
deriving Repr, DecidableEq

/-- `dw_hash`, DwHash.h.  `tbl i` is the chain `hash->hash[i]`; `fila` lists the
elements of the recency ring, most recently used first; `next` is the next
unused element identity (an artefact of the model: the allocator). -/
structure Hash where
  tbl : Nat → List Elem
  mask : Nat
  fila : List Nat
  size : Nat
  max : Nat
  next : Nat

namespace Hash

/-- Number of elements a hash is made for, DwHash.c:245-251. -/
def initElements (cacheSize elements : Nat) : Nat :=
  if elements = 0 ∧ 0 < cacheSize then cacheSize
  else if elements < 2 then 2
  else if 134217728 < elements then 134217728
  else elements

/-- The loop computing the smallest power of two above `elements`,
DwHash.c:254-258. -/
def powerTwo (a : Nat) : Nat := if a = 0 then 1 else 2 * powerTwo (a / 2)

/-- `dwh_hash_init`, DwHash.c:239-280. -/
def init (cacheSize elements : Nat) : Hash :=
  { tbl := fun _ => [], mask := powerTwo (initElements cacheSize elements) - 1, fila := [],
    size := 0, max := initElements cacheSize elements, next := 0 }

variable (hf : List UInt8 → Nat)

/-- Bucket of a key: `dwh_hash_compress(key) & hash->mask`, DwHash.c:391, 587.
The hash function is a parameter. -/
def bucket (h : Hash) (key : List UInt8) : Nat := hf key &&& h.mask

/-- `dwh_grep`, DwHash.c:383-403: at most 32000 elements of the chain are
looked at. -/
def grep (h : Hash) (key : List UInt8) : Option Elem :=
  ((h.tbl (h.bucket hf key)).take 32000).find? (fun e => e.key == key)

/-- Unlink an element from its chain, free it and count it out,
DwHash.c:486-507. -/
def unlink (h : Hash) (e : Elem) : Hash :=
  { h with tbl := fun i => (h.tbl i).filter (fun x => x.id != e.id), size := h.size - 1 }

/-- `dwh_fila_fetch`, DwHash.c:354-379: move a node to the top (nothing happens
for an element without a node). -/
def filaFetch (h : Hash) (id : Nat) : Hash :=
  if id ∈ h.fila then { h with fila := id :: h.fila.erase id } else h

/-- `dwh_get`, DwHash.c:411-441.  Result: the copy of the value (if any) and the
new state. -/
def get (h : Hash) (now : Int) (key : List UInt8) (ignoreExpire : Bool) (useFila : Nat) :
    Option (List UInt8) × Hash :=
  match h.grep hf key with
  | none => (none, h)
  | some e =>
    if useFila = 1 ∧ ignoreExpire = false ∧ (e.expire < now ∨ now + 24219648000 < e.expire)
        ∧ e.expire ≠ 0 then (none, h)
    else if useFila = 1 ∧ e.immutable = false then (some e.value, h.filaFetch e.id)
    else (some e.value, h)

/-- `dwh_get_ttl`, DwHash.c:444-460 (`>> 8` on a 64-bit signed number rounds
down). -/
def getTtl (h : Hash) (now : Int) (key : List UInt8) : Int :=
  match h.grep hf key with
  | none => -1
  | some e =>
    let t := (e.expire - now) / 256
    if t < 0 ∨ 31536000 < t then -1 else t

/-- `dwh_zap` called with a key, DwHash.c:468-510: return code and new state. -/
def zap (h : Hash) (key : List UInt8) (useFila : Nat) : Int × Hash :=
  match h.grep hf key with
  | none => (0, h)
  | some e =>
    if e.immutable then (-1, h)
    else
      let h' := h.unlink e
      (1, if useFila = 1 then { h' with fila := h'.fila.erase e.id } else h')

/-- The live element with a given identity, if it is still allocated (model of
following `fila->record`). -/
def findId (h : Hash) (id : Nat) : Option Elem :=
  (List.range (h.mask + 1)).findSome? (fun i => (h.tbl i).find? (fun e => e.id == id))

/-- `dwh_fila_zap(hash, hash->fila->last, 1)`, DwHash.c:322-349 with
`dwh_zap(hash,0,record,1)` (DwHash.c:484-507): drop the node used longest ago
together with its element. -/
def evict (h : Hash) : Res Hash :=
  match h.fila.getLast? with
  | none => .ub
  | some id =>
    match h.findId id with
    | none => .ub
    | some e =>
      let h' := { h with fila := h.fila.dropLast }
      if e.immutable then .ok h' else .ok (h'.unlink e)

/-- Put an element at the head of its chain, DwHash.c:587-594. -/
def push (h : Hash) (e : Elem) : Hash :=
  { h with tbl := fun i => if i = h.bucket hf e.key then e :: h.tbl i else h.tbl i }

/-- `dwh_place_new`, DwHash.c:574-611; `err` is the `-1` return (nothing was
changed). -/
def placeNew (h : Hash) (e : Elem) (useFila : Nat) : Res Hash :=
  let r := h.zap hf e.key useFila
  if r.1 = -1 then .err
  else
    let h1 := r.2.push hf e
    if useFila = 1 then
      let h2 := { h1 with fila := e.id :: h1.fila, size := h1.size + 1 }
      if h2.max ≤ h2.size then h2.evict else .ok h2
    else .ok { h1 with size := h1.size + 1 }

/-- Expiry computed by `dwh_init_element`, DwHash.c:538-552. -/
def newExpire (h : Hash) (now : Int) (key : List UInt8) (ttl : Int) : Int :=
  let ttl := if ttl < 30 ∧ ttl ≠ -2 then 30 else if 63072000 < ttl then 63072000 else ttl
  if ttl ≠ -2 then now + ttl * 256
  else match h.grep hf key with
    | none => now + 7680
    | some e => e.expire

/-- `dwh_add`, DwHash.c:620-657 (with `dwh_init_element`, 513-571).
Simplification: for `use_fila == 2` the code sets `immutable = 1` and
`expire = 0` just after placing the element; here the element is built that way
before it is placed (placing never reads these fields of the new element). -/
def add (h : Hash) (now : Int) (key value : List UInt8) (ttl : Int) (useFila : Nat) : Res Hash :=
  if 0 < ttl ∨ ttl = -2 then
    let e : Elem :=
      { id := h.next, key := key, value := value,
        expire := if useFila = 2 then 0 else h.newExpire hf now key ttl,
        immutable := decide (useFila = 2) }
    placeNew hf { h with next := h.next + 1 } e useFila
  else .ok h

end Hash

/-- Calls other parts of Deadwood make on the cache. -/
inductive HOp where
  | put (now : Int) (key value : List UInt8) (ttl : Int)   -- dwh_add(...,ttl,1)
  | pin (now : Int) (key value : List UInt8)               -- dwh_add(...,1,2)
  | look (now : Int) (key : List UInt8) (ignoreExpire : Bool) -- dwh_get(...,1)
  | ttl (now : Int) (key : List UInt8)                     -- dwh_get_ttl
  | drop (key : List UInt8)                                -- dwh_zap(...,0,1)
deriving Repr, DecidableEq

/-- What a caller observes. -/
inductive HOut where
  | code (c : Int)
  | val (v : Option (List UInt8))
deriving Repr, DecidableEq

namespace Hash
variable (hf : List UInt8 → Nat)

/-- One call on the cache (dispatch to the functions above). -/
def step (h : Hash) : HOp → Res (HOut × Hash)
  | .put now k v t => match h.add hf now k v t 1 with
    | .ok h' => .ok (.code 1, h') | .err => .ok (.code (-1), h) | .ub => .ub
  | .pin now k v => match h.add hf now k v 1 2 with
    | .ok h' => .ok (.code 1, h') | .err => .ok (.code (-1), h) | .ub => .ub
  | .look now k ig => .ok (.val (h.get hf now k ig 1).1, (h.get hf now k ig 1).2)
  | .ttl now k => .ok (.code (h.getTtl hf now k), h)
  | .drop k => .ok (.code (h.zap hf k 1).1, (h.zap hf k 1).2)

/-- A history of calls, with everything observed. -/
def run (h : Hash) : List HOp → Res (List HOut × Hash)
  | [] => .ok ([], h)
  | op :: ops => do
    let (o, h') ← h.step hf op
    let (os, h'') ← h'.run ops
    .ok (o :: os, h'')

end Hash
end Dw
