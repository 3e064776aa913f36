import Verif.Mara.JsModel

/-!
# The configuration file of MaraDNS

`parseline` and `read_mararc` of parse/ParseMaraRc.c, which turn the text of the mararc file
into the settings the authoritative server runs with.

Strings are modelled by their contents.  The searches `js_match_offset` and
`js_notmatch_offset`, which `Verif.Mara.JsModel` models byte for byte, are here the search in a
list for the first byte of a set; sets of characters are predicates.  Messages are not
modelled: a syntax error is the value `.bad`, with the reason as a `Problem`.
The hash tables of `dvar` are modelled as finite maps (their code is modelled in
`Verif.Mara.HashModel`).  Reading the file line by line is modelled in
`Verif.Mara.GetlineModel`.  Not modelled: the failure of memory allocation, and messages
printed.
-/

namespace Mara.Rc

/-- The bytes of a string of the source code. -/
def b (s : String) : List UInt8 := s.toList.map fun c => UInt8.ofNat c.toNat

/-- `js_space_chars` for ISO 8859-1, JsStr.c. -/
def space (c : UInt8) : Bool := c = 32 || c = 9 || c = 160

/-- `js_newline_chars`. -/
def newline (c : UInt8) : Bool := c = 13 || c = 10

/-- `js_numbers`. -/
def digit (c : UInt8) : Bool := 48 ≤ c && c ≤ 57

/-- `js_an_chars` for ISO 8859-1: letters, digits and the underscore. -/
def an (c : UInt8) : Bool :=
  (192 ≤ c && c ≤ 214) || (216 ≤ c && c ≤ 246) || 248 ≤ c ||
  (65 ≤ c && c ≤ 90) || (97 ≤ c && c ≤ 122) || digit c || c = 95

/-- `blankq`, ParseMaraRc.c:728, 736. -/
def blank (c : UInt8) : Bool := space c || newline c

/-- The one-character sets, ParseMaraRc.c:650-658. -/
def quote (c : UInt8) : Bool := c = 34
/-- ParseMaraRc.c:650-658. -/
def equal (c : UInt8) : Bool := c = 61
/-- ParseMaraRc.c:650-658. -/
def plus (c : UInt8) : Bool := c = 43
/-- ParseMaraRc.c:650-658. -/
def hash (c : UInt8) : Bool := c = 35
/-- ParseMaraRc.c:650-658. -/
def bslash (c : UInt8) : Bool := c = 92
/-- ParseMaraRc.c:650-658. -/
def left (c : UInt8) : Bool := c = 91
/-- ParseMaraRc.c:650-658. -/
def right (c : UInt8) : Bool := c = 93
/-- ParseMaraRc.c:650-658. -/
def cleft (c : UInt8) : Bool := c = 123
/-- ParseMaraRc.c:650-658. -/
def cright (c : UInt8) : Bool := c = 125

/-- `allq`, ParseMaraRc.c:729-748: every character that may stand outside quotes. -/
def all (c : UInt8) : Bool :=
  blank c || quote c || equal c || plus c || hash c || bslash c || an c || left c || right c ||
  cleft c || cright c

/-- `allq` as it is at the end, ParseMaraRc.c:1021-1024. -/
def rest (c : UInt8) : Bool := space c || quote c || newline c

/-- Where the first byte of the set stands in the list, counting from `i`. -/
def search (s : UInt8 → Bool) : List UInt8 → Nat → Int
  | [], _ => -2
  | c :: l, i => if s c then i else search s l (i + 1)

/-- `js_match_offset`, JsStr.c:412-482; with a set turned round `js_notmatch_offset`,
JsStr.c:500-573. -/
def mt (s : UInt8 → Bool) (l : List UInt8) (o : Int) : Int :=
  let o := if o < 0 then l.length + o else o
  if o < 0 then -1 else search s (l.drop o.toNat) o.toNat

/-- `js_notmatch_offset`. -/
def nm (s : UInt8 → Bool) (l : List UInt8) (o : Int) : Int := mt (fun c => !s c) l o

/-- `js_substr` with a destination of 256 bytes. -/
def substr (l : List UInt8) (s n : Int) : Option (List UInt8) :=
  if s < 0 ∨ n < 0 ∨ s ≥ l.length ∨ s + n > l.length ∨ n ≥ 256 then none
  else some ((l.drop s.toNat).take n.toNat)

/-- The loops of ParseMaraRc.c:861-863 and 947-949: the last of the letters that follow. -/
def wordEnd (l : List UInt8) (p : Int) : Int :=
  p + (((l.drop (p + 1).toNat).takeWhile an).length : Int)

/-- What is wrong with a line. -/
inductive Problem
  | secondUnquote | needUnquote | unknownChar | max4Quotes | plusForm | plusOnce
  | varNoQuotes | leftNext | quoteDict | oneLeft | rightAfter | secondWord | needEqual
  | curlyTogether | noHoh | needVal | noBackslash | varnameEqual | equalBefore
  | quoteNoEqual | equalAfter | unexpectedChar
  deriving DecidableEq

/-- What `parseline` yields: a fatal error, a syntax error (the variable is set to `ERROR` and
the value to the message), or one of the three commands. -/
inductive Parsed
  | fatal
  | bad (p : Problem)
  | line (cmd : Nat) (var key value : List UInt8) (plus : Bool)
  deriving DecidableEq

/-- The four places of quotes. -/
structure Quotes where
  q1 : Int
  q2 : Int
  q3 : Int
  q4 : Int
  deriving DecidableEq

/-- ParseMaraRc.c:771-792: the quotes. -/
def quotes (l : List UInt8) : Except Problem Quotes :=
  let q1 := mt quote l 0
  if q1 ≠ -2 then
    let q2 := mt quote l (q1 + 1)
    if q2 ≠ -2 then
      let q3 := mt quote l (q2 + 1)
      if q3 ≠ -2 then
        let q4 := mt quote l (q3 + 1)
        if q4 = -2 then .error .secondUnquote else .ok ⟨q1, q2, q3, q4⟩
      else .ok ⟨q1, q2, -2, -2⟩
    else .error .needUnquote
  else .ok ⟨-2, -2, -2, -2⟩

/-- ParseMaraRc.c:794-805: where the comment begins. -/
def hashAt (l : List UInt8) (q : Quotes) : Int :=
  let h := mt hash l 0
  let h := if h > q.q1 ∧ h < q.q2 then mt hash l q.q2 else h
  let h := if h > q.q3 ∧ h < q.q4 then mt hash l q.q4 else h
  if h = -2 then l.length + 1 else h

/-- ParseMaraRc.c:806-810: quotes in the comment do not count. -/
def dropQuotes (q : Quotes) (h : Int) : Quotes :=
  let q := if q.q1 > h then ⟨-2, -2, -2, -2⟩ else q
  if q.q3 > h then { q with q3 := -2, q4 := -2 } else q

/-- ParseMaraRc.c:812-835: characters that may not be there, and too many quotes. -/
def checkChars (l : List UInt8) (q : Quotes) (h : Int) : Option Problem :=
  let t := nm all l 0
  if t ≠ -2 ∧ t < h ∧ (t < q.q1 ∨ t > q.q2) ∧ (t < q.q3 ∨ t > q.q4) then some .unknownChar
  else if q.q4 ≠ -2 ∧ mt quote l (q.q4 + 1) ≠ -2 ∧ mt quote l (q.q4 + 1) < h then
    some .max4Quotes
  else none

/-- ParseMaraRc.c:837-854: the plus before the equals sign. -/
def checkPlus (l : List UInt8) (equalp : Int) : Except Problem Bool :=
  let t := mt plus l 0
  if t ≠ -2 ∧ t ≠ equalp - 1 then .error .plusForm
  else if mt plus l equalp ≠ -2 then .error .plusOnce
  else .ok (t = equalp - 1)

/-- ParseMaraRc.c:856-866: the first word. -/
def firstWord (l : List UInt8) (h : Int) : Int × Int :=
  let s := mt an l 0
  if s ≠ -2 ∧ s < h then (s, wordEnd l s)
  else if s ≥ h then (-2, -2) else (s, -2)

/-- ParseMaraRc.c:875-914: the key in square brackets; `none` for a fatal error. -/
def keyPart (l : List UInt8) (q : Quotes) (varend : Int) :
    Option (Except Problem (List UInt8 × Quotes × Nat)) :=
  let t := mt left l 0
  if t ≠ -2 then
    if t ≠ varend + 1 then some (.error .leftNext)
    else if q.q1 ≠ t + 1 then some (.error .quoteDict)
    else if mt left l (t + 1) ≠ -2 then some (.error .oneLeft)
    else if mt right l 0 ≠ q.q2 + 1 then some (.error .rightAfter)
    else match substr l (q.q1 + 1) (q.q2 - q.q1 - 1) with
      | none => none
      | some key => some (.ok (key, ⟨q.q3, q.q4, -2, -2⟩, 2))
  else some (.ok (b "NOTHASH", q, 1))

/-- ParseMaraRc.c:916-975: where the value stands, and the command. -/
def valuePart (l : List UInt8) (q : Quotes) (h varend equalp : Int) (cmd : Nat) :
    Except Problem (Int × Int × Nat) :=
  if q.q1 ≠ -2 ∧ q.q2 ≠ -2 then
    if cmd ≠ 2 ∧ mt an l (varend + 1) < q.q1 ∧ mt an l (varend + 1) ≠ -2 then
      .error .secondWord
    else .ok (q.q1 + 1, q.q2 - 1, cmd)
  else if equalp < 0 then .error .needEqual
  else
    let s := mt digit l equalp
    if s ≠ -2 ∧ s < h then .ok (s, wordEnd l s, cmd)
    else
      let t := mt cleft l equalp
      if t ≠ -2 then
        if mt cright l 0 ≠ t + 1 then .error .curlyTogether
        else if cmd = 1 then .ok (s, -2, 3) else .error .noHoh
      else .error .needVal

/-- ParseMaraRc.c:984-1001: the name of the variable; `none` for a fatal error. -/
def varText (l : List UInt8) (varstart varend equalp : Int) :
    Option (Except Problem (List UInt8)) :=
  if varstart ≥ 0 ∧ varend ≥ varstart then
    if equalp = -2 then some (.error .varnameEqual)
    else if varstart > equalp then some (.error .equalBefore)
    else (substr l varstart (varend - varstart + 1)).map .ok
  else some (.ok [])

/-- ParseMaraRc.c:1003-1018: the text of the value; `none` for a fatal error. -/
def valText (l : List UInt8) (q : Quotes) (valstart valend equalp : Int) :
    Option (Except Problem (List UInt8)) :=
  if valstart ≥ 0 ∧ valend ≥ valstart then
    if equalp > q.q1 ∧ equalp < q.q2 then some (.error .quoteNoEqual)
    else if valstart < equalp then some (.error .equalAfter)
    else (substr l valstart (valend - valstart + 1)).map .ok
  else some (.ok [])

/-- `parseline`, ParseMaraRc.c:635-1035. -/
def parseline (l : List UInt8) : Parsed :=
  let h0 := mt hash l 0
  let t := nm blank l 0
  if t = -2 ∨ t = h0 then .line 1 [] (b "NOTHASH") [] false
  else match quotes l with
  | .error p => .bad p
  | .ok q =>
    let h := hashAt l q
    let q := dropQuotes q h
    match checkChars l q h with
    | some p => .bad p
    | none =>
      let equalp := mt equal l 0
      match checkPlus l equalp with
      | .error p => .bad p
      | .ok plus =>
        let v := firstWord l h
        if (v.1 > q.q1 ∧ v.2 < q.q2) ∨ (v.1 > q.q3 ∧ v.2 < q.q4) then .bad .varNoQuotes
        else match keyPart l q v.2 with
        | none => .fatal
        | some (.error p) => .bad p
        | some (.ok (key, q, cmd)) =>
          match valuePart l q h v.2 equalp cmd with
          | .error p => .bad p
          | .ok (valstart, valend, cmd) =>
            if mt bslash l 0 ≠ -2 then .bad .noBackslash
            else match varText l v.1 v.2 equalp with
            | none => .fatal
            | some (.error p) => .bad p
            | some (.ok var) =>
              match valText l q valstart valend equalp with
              | none => .fatal
              | some (.error p) => .bad p
              | some (.ok value) =>
                let t := nm rest l (valend + 1)
                if t < h ∧ t ≠ -2 then .bad .unexpectedChar
                else .line cmd var key value plus

/-- `keywords`, ParseMaraRc.c:36-152. -/
def keywords : List (List UInt8) :=
  [b "bind_address", b "ipv4_bind_addresses", b "ipv6_bind_address",
   b "csv2_synthip_list", b "chroot_dir", b "debug_response_delay",
   b "debug_msg_level", b "default_rrany_set", b "hide_disclaimer",
   b "maradns_uid", b "maradns_gid", b "max_ar_chain",
   b "max_chain", b "max_glueless_level", b "max_queries_total",
   b "max_tcp_procs", b "max_total", b "maximum_cache_elements",
   b "maxprocs", b "min_ttl_cname", b "min_ttl",
   b "min_visible_ttl", b "no_fingerprint", b "random_seed_file",
   b "recursive_acl", b "spammers", b "timeout_seconds",
   b "timestamp_type", b "verbose_level", b "tcp_convert_acl",
   b "tcp_convert_server", b "tcp_convert_recursion", b "reject_aaaa",
   b "reject_ptr", b "verbose_query", b "csv2_default_zonefile",
   b "dos_protection_level", b "no_cname_warnings", b "long_packet_ipv4",
   b "synth_soa_origin", b "synth_soa_serial", b "bind_star_handling",
   b "admin_acl", b "remote_admin", b "handle_noreply",
   b "retry_cycles", b "csv2_tilde_handling", b "dns_port",
   b "upstream_port", b "recurse_delegation", b "recurse_min_bind_port",
   b "recurse_number_ports", b "max_mem", b "notthere_ip",
   b "zone_transfer_acl", b "rfc8482"]

/-- `dkeywords`, ParseMaraRc.c:343-348. -/
def dkeywords : List (List UInt8) :=
  [b "csv1", b "csv2", b "root_servers", b "upstream_servers", b "ipv4_alias", b "future"]

/-- The dictionaries whose keys are made lower-case, ParseMaraRc.c:549-551 (`num <= 3`). -/
def lowered : List (List UInt8) :=
  [b "csv1", b "csv2", b "root_servers", b "upstream_servers"]

/-- The settings: `kvar`, and `dvar` (`none` where it is a null pointer), by the name of the
variable. -/
structure Vars where
  k : List UInt8 → List UInt8
  d : List UInt8 → Option (List UInt8 → Option (List UInt8))

/-- `init_kvars` and `init_dvars`, ParseMaraRc.c:245-253 and 441-449. -/
def Vars.init : Vars := ⟨fun _ => [], fun _ => none⟩

/-- Writing one entry of `kvar`, ParseMaraRc.c:320. -/
def Vars.setK (v : Vars) (n x : List UInt8) : Vars :=
  { v with k := fun m => if m = n then x else v.k m }

/-- `mhash_put_js`, ParseMaraRc.c:579 and 611. -/
def Vars.setD (v : Vars) (n key x : List UInt8) : Vars :=
  { v with d := fun m => if m = n then
      (v.d m).map fun f => fun i => if i = key then some x else f i else v.d m }

/-- `mhash_create` in `new_dvar`, ParseMaraRc.c:455-465. -/
def Vars.newD (v : Vars) (n : List UInt8) : Vars :=
  { v with d := fun m => if m = n then some fun _ => none else v.d m }

/-- `is_numeric_js`, ParseMaraRc.c:166-182. -/
def isNumeric (x : List UInt8) : Bool := x ≠ [] && x.all digit

/-- The codes of `write_kvar` and `write_dvar`. -/
inductive Wrote
  | done (v : Vars)
  | err
  | twice
  | absent
  | numeric
  | noDict

/-- `js_append` to a string of 256 bytes. -/
def append (x y : List UInt8) : Option (List UInt8) :=
  if y.length + x.length ≥ 256 then none else some (x ++ y)

/-- `write_kvar` for a known name, ParseMaraRc.c:301-337. -/
def writeK (v : Vars) (n x : List UInt8) (plus : Bool) : Wrote :=
  if plus = false then .done (v.setK n x)
  else if isNumeric (v.k n) then .numeric
  else if (v.k n).length = 0 then .absent
  else match append (v.k n) x with
    | none => .err
    | some y => .done (v.setK n y)

/-- ParseMaraRc.c:549-557. -/
def lowerByte (c : UInt8) : UInt8 := if c ≤ 90 ∧ c ≥ 65 then c + 32 else c

/-- `write_dvar` for a known name, ParseMaraRc.c:522-621. -/
def writeD (v : Vars) (n key x : List UInt8) (plus : Bool) : Wrote :=
  match v.d n with
  | none => .noDict
  | some f =>
    let key := if n ∈ lowered then key.map lowerByte else key
    match f key with
    | some base =>
      if plus = false then .twice
      else if isNumeric base then .numeric
      else match append base x with
        | none => .err
        | some y => .done (v.setD n key y)
    | none => if plus = false then .done (v.setD n key x) else .absent

/-- Where reading stands: the settings, and the line and reason of the first syntax error; a
variable of the name `ERROR` counts as one (ParseMaraRc.c:1147-1155, 1207-1216). -/
structure Reading where
  vars : Vars
  error : Option (Nat × Option Problem)

/-- How the program goes on: reading goes on, the program ends (`exit`), or `read_mararc`
fails. -/
inductive Next
  | go (r : Reading)
  | exit
  | fail

/-- One turn of the loop of `read_mararc`, ParseMaraRc.c:1128-1262. -/
def oneLine (r : Reading) (num : Nat) (l : List UInt8) : Next :=
  match parseline l with
  | .fatal => .fail
  | .bad p => .go (if r.error = none then { r with error := some (num, some p) } else r)
  | .line cmd var key value plus =>
    if cmd = 2 ∧ r.error = none then
      if var ∉ dkeywords then
        .go (if var = b "ERROR" then { r with error := some (num, none) } else r)
      else match writeD r.vars var key value plus with
        | .done v => .go { r with vars := v }
        | .err => .go r
        | _ => .exit
    else if cmd = 1 ∧ r.error = none then
      if var ∉ keywords then
        if var = b "ERROR" then .go { r with error := some (num, none) }
        else if var ≠ [] then .exit
        else .go r
      else match writeK r.vars var value plus with
        | .done v => .go { r with vars := v }
        | .err => .go r
        | _ => .exit
    else if cmd = 3 then
      .go (if var ∈ dkeywords ∧ (r.vars.d var).isNone then
        { r with vars := r.vars.newD var } else r)
    else .go r

/-- The loop of `read_mararc`. -/
def lines (r : Reading) : Nat → List (List UInt8) → Next
  | _, [] => .go r
  | num, l :: ls =>
    match oneLine r num l with
    | .go r => lines r (num + 1) ls
    | .exit => .exit
    | .fail => .fail

/-- `read_mararc`, ParseMaraRc.c:1059-1285, for the lines of the file. -/
def readMararc (ls : List (List UInt8)) : Next := lines ⟨Vars.init, none⟩ 1 ls

end Mara.Rc
