/-!
# Specification of a bounded least-recently-used cache with permanent entries

Independent of the C code: no buckets, no queue nodes, no identities.
Times are in 1/256 seconds.
-/

namespace Spec

/-- A cached association. -/
structure Entry where
  key : List UInt8
  val : List UInt8
  expire : Int
deriving Repr, DecidableEq

/-- `lru`: evictable entries, most recently used first; `perm`: permanent ones. -/
structure Cache where
  cap : Nat
  lru : List Entry
  perm : List Entry
deriving Repr, DecidableEq

namespace Cache

/-- The entry of a key in a list of entries. -/
def find (l : List Entry) (k : List UInt8) : Option Entry := l.find? (fun e => e.key == k)

/-- The list without a key. -/
def without (l : List Entry) (k : List UInt8) : List Entry := l.filter (fun e => e.key != k)

/-- Lifetime actually granted, in seconds. -/
def clampTtl (t : Int) : Int := max 30 (min t 63072000)

/-- When an entry inserted now expires: `ttl = -2` means "as long as the entry
it replaces, or else 30 seconds". -/
def expiry (c : Cache) (now : Int) (k : List UInt8) (ttl : Int) : Int :=
  if ttl = -2 then
    match find c.lru k with
    | some e => e.expire
    | none => now + 30 * 256
  else now + clampTtl ttl * 256

/-- Drop the least recently used entry if the cache is at capacity. -/
def trim (c : Cache) : Cache :=
  if c.cap ≤ c.lru.length + c.perm.length then { c with lru := c.lru.dropLast } else c

/-- Insert; `none` when the key is permanent. -/
def put (c : Cache) (now : Int) (k v : List UInt8) (ttl : Int) : Option Cache :=
  if ttl ≤ 0 ∧ ttl ≠ -2 then some c
  else if (find c.perm k).isSome then none
  else some (trim { c with lru := ⟨k, v, c.expiry now k ttl⟩ :: without c.lru k })

/-- Add a permanent entry (for a key that is not present); `none` when the key
is permanent already. -/
def pin (c : Cache) (k v : List UInt8) : Option Cache :=
  if (find c.perm k).isSome then none
  else some { c with perm := ⟨k, v, 0⟩ :: c.perm }

/-- An evictable entry may be served: not expired, and not expiring more than
three years (94608000 seconds) ahead. -/
def fresh (now : Int) (e : Entry) : Bool :=
  decide (now ≤ e.expire) && decide (e.expire ≤ now + 94608000 * 256)

/-- Look a key up; using an entry makes it the most recently used one. -/
def look (c : Cache) (now : Int) (k : List UInt8) (anyAge : Bool) : Option (List UInt8) × Cache :=
  match find c.perm k with
  | some e => (some e.val, c)
  | none =>
    match find c.lru k with
    | none => (none, c)
    | some e =>
      if anyAge || fresh now e then (some e.val, { c with lru := e :: without c.lru k })
      else (none, c)

/-- Remaining lifetime in whole seconds, `-1` if none (or over a year). -/
def ttlLeft (c : Cache) (now : Int) (k : List UInt8) : Int :=
  match find (c.lru ++ c.perm) k with
  | none => -1
  | some e => if e.expire - now < 0 ∨ 31536001 * 256 ≤ e.expire - now then -1
              else (e.expire - now) / 256

/-- Remove a key: 0 = absent, -1 = permanent, 1 = removed. -/
def drop (c : Cache) (k : List UInt8) : Int × Cache :=
  if (find c.perm k).isSome then (-1, c)
  else if (find c.lru k).isSome then (1, { c with lru := without c.lru k })
  else (0, c)

end Cache
end Spec
