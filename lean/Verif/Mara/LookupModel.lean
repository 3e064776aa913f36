import Verif.Mara.JsList
/-!
# The authoritative server: which answer a question gets

Source: `/repo/server/MaraDNS.c` (`proc_query` and what it uses), `/repo/dns/Queries.c`
(`dlabel_length`, `read_hdr`), `/repo/dns/bobbit.c` and `/repo/server/MaraBigHash.c` (`get_rtype`,
`change_rtype`), as built with `AUTHONLY` (the default of `configure`).

The query is a `Js`; the strings `lookfor` and `origq` (of up to 256 bytes) are their contents.
The big hash is a function from its keys; a value is a record set (`MARA_DNSRR`, with its
`authoritative` flag; the record set itself is of any type `ρ`) or a list (`MARA_DNS_LIST`).
How the reply packet is put together, `udpany` and the replies about MaraDNS itself
(`easter_egg`) are not modelled: the latter two are parameters.
-/

namespace Mara
namespace Lookup

open Dw (Res)

/-- The loop of `dlabel_length`, Queries.c:48-65, for a live string. -/
def dlabelLoop (s : Js) (offset : Nat) : (n length : Nat) → (toread : UInt8) → Res Nat
  | 0, _, _ => .err
  | n + 1, length, toread =>
    if length < 256 ∧ toread > 0 ∧ toread ≠ 95 then
      if toread ≥ 192 then
        if length + 2 + offset ≤ s.count then .ok (length + 2) else .err
      else if toread > 63 then .err
      else
        let length := length + toread.toNat + 1
        if length + offset > s.count then .err
        else do
          let toread ← Js.rd s.buf (length + offset)
          dlabelLoop s offset n length toread
    else if length + 1 + offset ≤ s.count then .ok (length + 1) else .err

/-- `dlabel_length`, Queries.c:33-68. -/
def dlabelLength (s : Js) (offset : Nat) : Res Nat :=
  if !s.sane then .err
  else if offset > s.count then .err
  else do
    let toread ← Js.rd s.buf offset
    dlabelLoop s offset 256 0 toread

/-- `dlabel_length` on the contents of a string (see `dlabelLength_list`). -/
def dlabel (l : List UInt8) (offset : Nat) : (n length : Nat) → Option Nat
  | 0, _ => none
  | n + 1, length =>
    match l[length + offset]? with
    | none => none
    | some c =>
      if length < 256 ∧ c > 0 ∧ c ≠ 95 then
        if c ≥ 192 then (if length + 2 + offset ≤ l.length then some (length + 2) else none)
        else if c > 63 then none
        else dlabel l offset n (length + c.toNat + 1)
      else some (length + 1)

/-- What a function returning `JS_ERROR`, 0 or a positive number does to a string. -/
inductive Bob where
  | err
  | zero (l : List UInt8)
  | done (n : Nat) (l : List UInt8)
deriving DecidableEq, Repr

/-- `bobbit_label`, bobbit.c:30-60 (`max_count` is 256 for all strings it is used on). -/
def bobbitLabel (l : List UInt8) : Bob :=
  if l.length ≥ 256 then .err
  else match l with
    | [] => .err
    | c :: _ =>
      if c = 95 then .done 1 (l.drop 1)
      else if c.toNat + 1 > l.length ∨ c > 63 then .err
      else if c = 0 then .zero l
      else .done 1 (l.drop (c.toNat + 1))

/-- `bobbit_starlabel`, MaraDNS.c:1994-2024. -/
def bobbitStar (l : List UInt8) : Bob :=
  if l.length ≥ 256 then .err
  else match l with
    | s :: c :: _ =>
      if s ≠ 95 then .err
      else if c.toNat + 2 > l.length ∨ c > 63 then .err
      else if c = 0 then .zero l
      else .done 1 (s :: l.drop (c.toNat + 2))
    | _ => .err

/-- `make_starlabel`, MaraDNS.c:2034-2064. -/
def makeStar (l : List UInt8) : Bob :=
  if l.length ≥ 256 then .err
  else match l with
    | c :: d :: r =>
      if c = 95 then .zero l
      else if c.toNat > l.length ∨ c > 63 then .err
      else if c = 0 then .zero (95 :: d :: r)
      else .done 1 (95 :: l.drop (c.toNat + 1))
    | _ => .err

/-- `get_rtype`, MaraBigHash.c:131-146. -/
def getRtype (l : List UInt8) : Option Nat :=
  if l.length < 3 then none
  else some ((l.getD (l.length - 2) 0).toNat * 256 + (l.getD (l.length - 1) 0).toNat)

/-- `change_rtype`, MaraBigHash.c:154-169. -/
def changeRtype (l : List UInt8) (t : Nat) : Option (List UInt8) :=
  if l.length < 3 then none
  else if t > 65535 then none
  else some (l.take (l.length - 2) ++ [UInt8.ofNat (t / 256), UInt8.ofNat t])

/-- `fold_case`, MaraDNS.c:2235-2260 (called on strings of 3 to 255 bytes only): all but the last two
bytes are turned to lower case. -/
def foldCase (l : List UInt8) : List UInt8 := (l.take (l.length - 2)).map Js.lower ++ l.drop (l.length - 2)

/-- The walk over the labels in `bobbit_starlabel_end`, MaraDNS.c:2115-2131: number of labels, length
of the last label and of all. -/
def endWalk (l : List UInt8) : (n ret length last : Nat) → Option (Nat × Nat × Nat)
  | 0, _, _, _ => none
  | n + 1, ret, length, last =>
    match l[length]? with
    | none => none
    | some c =>
      if length < 256 ∧ c > 0 ∧ c ≠ 95 then
        if c > 63 then none else endWalk l n (ret + 1) (length + c.toNat + 1) c.toNat
      else if length ≥ 256 then none
      else some (ret, length, last)

/-- `bobbit_starlabel_end`, MaraDNS.c:2077-2145.  (The bytes beyond the end of the name that it can
look at do not change its result.) -/
def bobbitEnd (l : List UInt8) : Bob :=
  if l.length ≥ 256 then .err
  else if l.length < 2 then .err
  else if l.length = 3 then .zero l
  else
    let t := l.drop (l.length - 2)
    let l := l.take (l.length - 2)
    match dlabel l 0 256 0 with
    | none => .err
    | some k =>
      if l.getD (k - 1) 0 = 0 then .done 130 (l.set (k - 1) 95 ++ t)
      else match endWalk l 256 0 0 0 with
        | none => .err
        | some (ret, length, last) =>
          if last + 1 > l.length ∨ last + 1 > length then .err
          else if l.length - (last + 1) < 1 then .err
          else
            let m := l.take (l.length - (last + 1))
            .done ret (m.set (m.length - 1) 95 ++ t)

/-- `mhash_e`: what the big hash has for a key. -/
inductive Val (ρ : Type) where
  | rr (authoritative : Bool) (r : ρ)
  | list

abbrev Hash (ρ : Type) := List UInt8 → Option (Val ρ)

/-- What happens to a query. -/
inductive Out (ρ : Type) where
  /-- nothing is sent -/
  | none
  /-- `udperror` with this code; is the question repeated? -/
  | error (code : Int) (echo : Bool)
  /-- `udpsuccess` with this record set; may the reply be marked authoritative (`force_auth`)? -/
  | success (r : ρ) (auth : Bool)
  /-- `udpstar` with this record set, and the name and type shown for it -/
  | star (r : ρ) (shown : List UInt8) (labels : Nat)
  /-- `udpnotfound`: the SOA record and the code of the reply -/
  | negative (soa : ρ) (rcode : Nat)
  /-- `udpnotfound` with the made-up SOA record `ra_data` -/
  | rejected
  /-- the reply of `ddip_check` -/
  | ddip (ip : List UInt8)
  /-- `udpany` -/
  | any
  /-- `easter_egg` -/
  | egg
deriving DecidableEq

/-- Settings, and what is not modelled: `any` is the result of `udpany` (`some true` when it has
answered, `some false` on error), `egg` that of the `easter_egg` part (MaraDNS.c:2757-2985), which is
reached by clients on the list of administrators. -/
structure Cfg where
  dos : Nat := 0
  bindStar : Nat := 1
  defaultZone : Bool := false
  noFingerprint : Bool := false
  recurseDelegation : Bool := false
  rejectAaaa : Bool := false
  rejectPtr : Bool := false
  any : List UInt8 → Option Bool := fun _ => .none
  egg : List UInt8 → Option Bool := fun _ => .none

variable {ρ : Type}

/-- The record set, if the value is one. -/
def rrOf : Option (Val ρ) → Option (Bool × ρ)
  | some (.rr a r) => some (a, r)
  | _ => .none

/-- Is the value a list? -/
def isList : Option (Val ρ) → Bool
  | some .list => true
  | _ => false

/-- `udpnotfound`, MaraDNS.c:1755-1983, for the authoritative half: `notThere` is 4 if the reply is to
say that the name exists. -/
def notFound (h : Hash ρ) (soa : Option ρ) (query : List UInt8) (notThere : Nat) : Out ρ :=
  match soa with
  | .none => .error 2 false
  | some r =>
    if notThere = 4 then .negative r 0
    else match changeRtype query 255 with
      | .none => .error 2 false
      | some q => .negative r (if isList (h q) then 0 else 3)

/-- The numbers of `ddip_check`, MaraDNS.c:2292-2311. -/
inductive Dd where
  | err | no | yes (ip : List UInt8) (lenl : Nat)
deriving DecidableEq

def ddipValue : List UInt8 → Nat → Option Nat
  | [], v => some v
  | c :: l, v => if c > 57 ∨ c < 48 then .none else ddipValue l (v * 10 + (c.toNat - 48))

def ddipLoop (l : List UInt8) : (n lenl : Nat) → (ip : List UInt8) → Dd
  | 0, lenl, ip => .yes ip lenl
  | n + 1, lenl, ip =>
    let length := l.getD lenl 0
    if length < 1 ∨ length > 3 then .no
    else if lenl + length.toNat + 1 > l.length then .err
    else match ddipValue ((l.drop (lenl + 1)).take length.toNat) 0 with
      | .none => .no
      | some v => if v > 255 then .no else ddipLoop l n (lenl + length.toNat + 1) (ip ++ [UInt8.ofNat v])

/-- `ddip_check`, MaraDNS.c:2270-2385. -/
def ddipCheck (id : Nat) (l : List UInt8) : Option (Out ρ) :=
  if getRtype l ≠ some 1 ∧ getRtype l ≠ some 255 then .none
  else if l.length < 9 then .none
  else match ddipLoop l 4 0 [] with
    | .err => some (.error 2 true)
    | .no => .none
    | .yes ip lenl =>
      if l.getD lenl 0 ≠ 0 then .none
      else if 0 < id ∧ id < 65535 then some (.ddip ip)
      else some (.error 2 true)

/-- What the search for name servers finds, MaraDNS.c:3050-3084. -/
inductive Walk (ρ : Type) where
  | nothing
  | fail
  | referral (r : ρ)
  | authority (soa : Option ρ)

def nsWalk (h : Hash ρ) : (n : Nat) → (look : List UInt8) → Walk ρ
  | 0, _ => .nothing
  | n + 1, look =>
    match rrOf (h look) with
    | some (true, _) =>
      match changeRtype look 6 with
      | .none => .fail
      | some l => .authority ((rrOf (h l)).map (·.2))
    | some (false, r) => .referral r
    | .none =>
      match bobbitLabel look with
      | .done _ l => nsWalk h n l
      | _ => .nothing

/-- `star_collision`, MaraDNS.c:2472-2506. -/
def collision (h : Hash ρ) (look : List UInt8) : Option Bool :=
  if look.length < 2 then some false
  else match changeRtype (look.drop 1) 255 with
    | .none => .none
    | some l => some (isList (h l))

/-- A part of the search either settles the query or goes on (with `always_not_there`). -/
inductive Step (ρ : Type) where
  | out (o : Out ρ)
  | go (notThere : Nat)

/-- The search for star records further up, MaraDNS.c:3173-3232. -/
def starAbove (cfg : Cfg) (h : Hash ρ) (soa : Option ρ) (orig : List UInt8) :
    (n : Nat) → (look : List UInt8) → (ant : Nat) → Step ρ
  | 0, _, ant => .go ant
  | n + 1, look, ant =>
    match bobbitStar look with
    | .done _ look =>
      match rrOf (h look) with
      | some (_, r) => .out (.star r orig 0)
      | .none =>
        if cfg.bindStar ≥ 1 then
          match changeRtype look 255 with
          | .none => .out (.error 2 true)
          | some l =>
            if isList (h l) then starAbove cfg h soa orig n look 4
            else if cfg.bindStar = 2 then
              match collision h l with
              | .none => .out (.error 2 true)
              | some true => .out (notFound h soa orig (ant % 4))
              | some false => starAbove cfg h soa orig n look ant
            else starAbove cfg h soa orig n look ant
        else starAbove cfg h soa orig n look ant
    | _ => .go ant

/-- The search for star CNAME records further up, MaraDNS.c:3275-3306.  With `bind_star_handling`
the value found is overwritten before it is looked at. -/
def cnameAbove (cfg : Cfg) (h : Hash ρ) (orig : List UInt8) :
    (n : Nat) → (look : List UInt8) → (ant : Nat) → Step ρ
  | 0, _, ant => .go ant
  | n + 1, look, ant =>
    match bobbitStar look with
    | .done _ look =>
      let found (v : Option (Val ρ)) : Option (Step ρ) :=
        match rrOf v with
        | some (_, r) =>
          match changeRtype orig 5 with
          | .none => some (.out (.error 2 true))
          | some s => some (.out (.star r s 0))
        | .none => .none
      if cfg.bindStar ≥ 1 then
        match changeRtype look 255 with
        | .none => .out (.error 2 true)
        | some l =>
          if isList (h l) then .go ant
          else (found (h l)).getD (cnameAbove cfg h orig n look ant)
      else (found (h look)).getD (cnameAbove cfg h orig n look ant)
    | _ => .go ant

/-- The search for star records, MaraDNS.c:3086-3306. -/
def stars (cfg : Cfg) (h : Hash ρ) (soa : Option ρ) (orig : List UInt8) (ant : Nat) : Step ρ :=
  if cfg.dos > 17 then .go ant
  else
    let same : Option Bool :=
      if cfg.bindStar ≥ 1 then (changeRtype (foldCase orig) 255).map fun l => isList (h l)
      else some false
    match same with
    | .none => .out (.error 2 true)
    | some same =>
      if same then .go 4
      else
        let rest (look : List UInt8) : Step ρ :=
          match rrOf (h look) with
          | some (_, r) => .out (.star r orig 0)
          | .none =>
            let ant : Option Nat :=
              if cfg.bindStar ≥ 1 then
                (changeRtype look 255).map fun l => if isList (h l) then 4 else ant
              else some ant
            match ant with
            | .none => .out (.error 2 true)
            | some ant =>
              let above : Step ρ :=
                match starAbove cfg h soa orig 256 look ant with
                | .out o => .out o
                | .go ant =>
                  if cfg.dos > 7 then .go ant
                  else
                    match changeRtype look 5 with
                    | .none => .out (.error 2 true)
                    | some look =>
                      match rrOf (h look) with
                      | some (_, r) =>
                        match changeRtype orig 5 with
                        | .none => .out (.error 2 true)
                        | some s => .out (.star r s 0)
                      | .none => cnameAbove cfg h orig 256 look ant
              if cfg.bindStar = 2 then
                match collision h look with
                | .none => .out (.error 2 true)
                | some true => .out (notFound h soa orig ant)
                | some false => above
              else above
        match makeStar (foldCase orig) with
        | .err => .out (.error 2 true)
        | .zero look => rest look
        | .done _ look => rest look

/-- The default zone, MaraDNS.c:3311-3360.  The name is not turned to lower case. -/
def defaultLoop (h : Hash ρ) (orig : List UInt8) : (n : Nat) → (look : List UInt8) → (ant : Nat) → Out ρ
  | 0, _, _ => .none
  | n + 1, look, ant =>
    match bobbitEnd look with
    | .done labels look =>
      if labels > 120 then defaultLoop h orig n look ant
      else
        match rrOf (h look) with
        | some (_, r) => .star r orig labels
        | .none =>
          match changeRtype look 255 with
          | .none => .error 2 true
          | some l => defaultLoop h orig n look (if isList (h l) then 4 else ant)
    | .err =>
      -- the type has been cut off by then
      match changeRtype (if look.length < 2 ∨ look.length ≥ 256 then look else look.take (look.length - 2)) 6 with
      | .none => .none
      | some l =>
        match rrOf (h l) with
        | .none => .none
        | some (_, soa) => notFound h (some soa) orig ant
    | .zero look =>
      match changeRtype look 6 with
      | .none => .none
      | some l =>
        match rrOf (h l) with
        | .none => .none
        | some (_, soa) => notFound h (some soa) orig ant

/-- The end of `proc_query`, MaraDNS.c:3308-3398. -/
def finish (cfg : Cfg) (h : Hash ρ) (walk : Walk ρ) (orig : List UInt8) (ant : Nat) : Out ρ :=
  if cfg.defaultZone then defaultLoop h orig 300 orig ant
  else match walk with
    | .authority soa => notFound h soa orig ant
    | _ => .error 5 false

/-- From the delegation on, MaraDNS.c:2987-3398. -/
def fromNs (cfg : Cfg) (h : Hash ρ) (id : Nat) (rd : Bool) (orig : List UInt8) : Out ρ :=
  let after (walk : Walk ρ) : Out ρ :=
    let soa : Option ρ := match walk with | .authority s => s | _ => .none
    match stars cfg h soa orig 0 with
    | .out o => o
    | .go ant => finish cfg h walk orig ant
  if cfg.dos > 11 then after .nothing
  else
    match changeRtype (foldCase orig) 2 with
    | .none => .error 2 true
    | some look =>
      match rrOf (h look) with
      | some (false, r) => .success r false
      | _ =>
        match (if cfg.noFingerprint then .none else ddipCheck id orig) with
        | some o => o
        | .none =>
          if !rd || !cfg.recurseDelegation then
            match nsWalk h 256 look with
            | .referral r => .success r false
            | .fail => .error 2 true
            | w => after w
          else after .nothing

/-- The search proper, MaraDNS.c:2690-3398: `hunt_single_query` (2425-2463) for the question and for
a CNAME, the replies about MaraDNS itself, and the rest. -/
def search (cfg : Cfg) (h : Hash ρ) (id : Nat) (rd : Bool) (orig : List UInt8) : Out ρ :=
  if cfg.dos = 78 then (if cfg.defaultZone then notFound h .none orig 0 else .error 5 false)
  else
    let eggs (o : Out ρ) : Out ρ :=
      match cfg.egg orig with
      | some true => .egg
      | some false => .error 2 true
      | .none => o
    if cfg.dos = 79 then
      eggs (if cfg.defaultZone then notFound h .none orig 0 else .error 5 false)
    else
      let hunt : Out ρ :=
        match rrOf (h (foldCase orig)) with
        | some (_, r) => .success r true
        | .none =>
          let next : Out ρ :=
            if cfg.dos > 0 then fromNs cfg h id rd orig else eggs (fromNs cfg h id rd orig)
          if cfg.dos > 7 then next
          else
            match changeRtype (foldCase orig) 5 with
            | .none => .error 2 true
            | some l =>
              match rrOf (h l) with
              | some (_, r) => .success r true
              | .none => next
      if cfg.dos ≤ 13 ∧ getRtype orig = some 255 then
        match cfg.any (foldCase orig) with
        | some true => .any
        | some false => .error 2 true
        | .none => hunt
      else hunt

/-- Most replies with an error are not sent with `no_fingerprint`. -/
def quiet (cfg : Cfg) (o : Out ρ) : Out ρ := if cfg.noFingerprint then .none else o

/-- `serv_fail`, MaraDNS.c:3404-3414: the errors of the search other than those of `udpnotfound`
and the refusal, which do not repeat the question. -/
def servFail (cfg : Cfg) : Out ρ → Out ρ
  | .error c true => quiet cfg (.error c true)
  | o => o

/-- `proc_query`, MaraDNS.c:2514-3425, with `read_hdr`, Queries.c:152-200. -/
def procQuery (cfg : Cfg) (h : Hash ρ) (raw : Js) : Res (Out ρ) :=
  if !raw.sane then .ok .none
  else if raw.max < 14 then .ok (.error 1 false)
  else do
    let b0 ← Js.rd raw.buf 0
    let b1 ← Js.rd raw.buf 1
    let b2 ← Js.rd raw.buf 2
    let b4 ← Js.rd raw.buf 4
    let b5 ← Js.rd raw.buf 5
    if b2 &&& 0x80 ≠ 0 then .ok .none
    else if b4.toNat * 256 + b5.toNat ≠ 1 then .ok (quiet cfg (.error 4 false))
    else if raw.count < 14 then .ok (quiet cfg (.error 1 false))
    else
      match dlabelLength raw 12 with
      | .ub => .ub
      | .err => .ok (quiet cfg (.error 1 false))
      | .ok length =>
        if length > 255 then .ok (quiet cfg (.error 1 false))
        else if raw.count < 16 + length then .ok (quiet cfg (.error 1 false))
        else
          match L.substr raw.contents 12 (length + 2) 256 with
          | .none => .ok (quiet cfg (.error 2 true))
          | some orig =>
            if b2 &&& 0x78 ≠ 0 then .ok (.error 4 true)
            else do
              let c0 ← Js.rd raw.buf (length + 14)
              let c1 ← Js.rd raw.buf (length + 15)
              if c0 ≠ 0 ∧ c1 ≠ 1 then .ok (quiet cfg (.error 4 true))
              else
                match getRtype orig with
                | .none => .ok (quiet cfg (.error 2 true))
                | some t =>
                  if t = 28 ∧ cfg.rejectAaaa then .ok .rejected
                  else if t = 12 ∧ cfg.rejectPtr then .ok .rejected
                  else if t = 253 ∨ t = 254 ∨ t = 250 then .ok (quiet cfg (.error 4 true))
                  else if t = 251 ∨ t = 252 then .ok (quiet cfg (.error (-111) true))
                  else .ok (servFail cfg (search cfg h (b0.toNat * 256 + b1.toNat) (b2 &&& 1 ≠ 0) orig))

end Lookup
end Mara
