import Verif.Deadwood.HashModel
/-!
# Deadwood dictionaries

Source: `/repo/deadwood-github/src/DwDict.c` and `dwh_hash_autogrow`
(`DwHash.c:667-695`).  Dictionaries hold the `dwood3rc` dictionary variables.
They are hashes without a recency queue.
-/

namespace Dw
namespace Hash

variable (hf : List UInt8 → Nat)

/-- The elements the growing and iterating loops see: the first 10000 of every
chain, DwHash.c:684-690, DwDict.c:99-101. -/
def walk (h : Hash) (fromBucket : Nat) : List Elem :=
  (List.range' fromBucket (h.mask + 1 - fromBucket)).flatMap (fun i => (h.tbl i).take 10000)

/-- Body of the moving loop, DwHash.c:687: `dwh_place_new(new,point,0)`, its
return value is ignored (without a recency queue it has no other outcome than
success or `-1`). -/
def growStep (h : Hash) (e : Elem) : Hash :=
  match placeNew hf h e 0 with
  | .ok h' => h'
  | _ => h

/-- `dwh_hash_autogrow`, DwHash.c:667-695. -/
def autogrow (cacheSize : Nat) (h : Hash) : Hash :=
  if h.fila ≠ [] then h
  else if h.size < h.mask then h
  else if (h.mask + 1) &&& h.mask ≠ 0 then h
  else (h.walk 0).foldl (growStep hf) { Hash.init cacheSize (h.mask + 1) with next := h.next }

/-- `dwd_init`, DwDict.c:43-45. -/
def dictInit (cacheSize : Nat) : Hash := Hash.init cacheSize 2

/-- `dwd_add`, DwDict.c:59-66. -/
def dictAdd (cacheSize : Nat) (h : Hash) (now : Int) (key value : List UInt8) : Hash :=
  match h.add hf now key value 1 0 with
  | .ok h' => autogrow hf cacheSize h'
  | _ => h

/-- `dwd_fetch`, DwDict.c:71-74. -/
def dictFetch (h : Hash) (now : Int) (key : List UInt8) : Option (List UInt8) :=
  (h.get hf now key true 0).1

/-- `dwd_size`, DwDict.c:115-120. -/
def dictSize (h : Hash) : Nat := h.size

/-- The scanning loop of `dwd_nextkey`, DwDict.c:98-109. -/
def nextLoop (key : List UInt8) (found : Bool) : List Elem → Option (List UInt8)
  | [] => none
  | e :: l => if found then some e.key else nextLoop key (e.key == key) l

/-- `dwd_nextkey`, DwDict.c:80-112. -/
def nextkey (h : Hash) : Option (List UInt8) → Option (List UInt8)
  | none => nextLoop [] true (h.walk 0)
  | some k => nextLoop k false (h.walk (h.bucket hf k))

/-- How callers iterate (e.g. DwSocket.c:538-545): ask for the next key until
there is none; `fuel` bounds the number of calls. -/
def visit (h : Hash) : Nat → Option (List UInt8) → List (List UInt8)
  | 0, _ => []
  | n + 1, k => match nextkey hf h k with
    | none => []
    | some k' => k' :: visit h n (some k')

end Hash
end Dw
