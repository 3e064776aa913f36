import Verif.Deadwood.StrModel
/-!
# The `dwood3rc` parser

Source: `/repo/deadwood-github/src/DwMararc.c` and `DwMararc.h`.  The automaton is
compiled here from its text, by the same tokenizer as in the code.
-/

namespace Dw
namespace Rc

/-- `dwm_machine`, DwMararc.h:221-251. -/
def machine : List Nat := ("a Hb Y1c Wa Rxp T; _xb\n" ++
  "b Xb Rxp T;\n" ++
  "c B1c Wd =e [f +g (y\n" ++
  "d Wd =e [f +g\n" ++
  "e We N4h Qi {6w\n" ++
  "f Wf Qn\n" ++
  "g =5e\n" ++
  "h N4h Wk Hb Rxp T;\n" ++
  "i I3m\n" ++
  "k Wk Hb Rxp T;\n" ++
  "m I3m Qk\n" ++
  "n .2o S2p -2p _2p\n" ++
  "o Qq\n" ++
  "p D2p Qq\n" ++
  "q Wq ]r\n" ++
  "r Wr =s +t\n" ++
  "s Ws Qu\n" ++
  "t =5s\n" ++
  "u I3v\n" ++
  "v I3v Qk\n" ++
  "w }k\n" ++
  "xp T;\n" ++
  "y Qz\n" ++
  "z I7z Qxa\n" ++
  "xa )k\n" ++
  "xb rxc\n" ++
  "xc exd\n" ++
  "xd mxe\n" ++
  "xe =xf\n" ++
  "xf {xg\n" ++
  "xg }k Xxg Txg Rxg\n").toList.map Char.toNat

/-- One pattern of a state: pattern, action, next state (`dwm_fs`, DwMararc.h:254-258). -/
structure Entry where
  pattern : Nat
  action : Nat
  next : Nat
deriving DecidableEq, Repr

/-- The character at the pointer; the text ends with a null. -/
def cur (c : List Nat) : Nat := c.headD 0

/-- `dwm_set_newstate`, DwMararc.c:40-58: the new state and the moved pointer. -/
def setNewstate (c : List Nat) : Option (Nat × List Nat) :=
  if cur c < 97 ∨ cur c > 122 then none
  else if cur c = 120 then
    let c := c.tail
    if cur c < 97 ∨ cur c > 122 then none else some (cur c - 97 + 26, c.tail)
  else some (cur c - 97, c.tail)

/-- `dwm_set_action`, DwMararc.c:66-90: action, new state and moved pointer.  (The caller's
`max` is not changed: it is passed by value.) -/
def setAction (c : List Nat) (max : Nat) : Option (Nat × Nat × List Nat) :=
  if cur c = 59 then
    if max + 1 > 52 then none else some (10, 0, c.tail)
  else if cur c < 49 ∨ cur c > 57 then none
  else if max + 1 ≥ 52 then none
  else match setNewstate c.tail with
    | none => none
    | some (s, c') => some (cur c - 48, s, c')

/-- `dwm_pattern_process`, DwMararc.c:94-113. -/
def patternProcess (b : Nat) : Nat :=
  if b = 35 ∨ b = 34 then 0
  else
    let b := if b = 72 then 35 else b
    let b := if b = 81 then 34 else b
    if 65 ≤ b ∧ b ≤ 90 then b - 64 else b

/-- The blanks between patterns, DwMararc.c:143-149. -/
def skipBlank : List Nat → Nat → Option (List Nat × Nat)
  | 32 :: c, max => if max + 1 ≥ 52 then none else skipBlank c (max + 1)
  | c, max => some (c, max)

/-- Pattern and what follows it, DwMararc.c:121-136. -/
def onePattern (c : List Nat) (max : Nat) : Option (Entry × List Nat) :=
  if cur c < 33 ∨ cur c > 126 then none
  else
    let p := patternProcess (cur c)
    let c := c.tail
    if 97 ≤ cur c ∧ cur c ≤ 122 then
      match setNewstate c with
      | none => none
      | some (s, c') => some (⟨p, 0, s⟩, c')
    else
      match setAction c (max + 1) with
      | none => none
      | some (a, s, c') => some (⟨p, a, s⟩, c')

/-- The loop of `dwm_set_fsm`, DwMararc.c:116-161; `n` bounds the turns (`max < 52`), `d` is the
number of patterns so far. -/
def setFsm : (n : Nat) → (c : List Nat) → (max d : Nat) → Option (List Entry × List Nat)
  | 0, _, _, _ => none
  | n + 1, c, max, d =>
    if max ≥ 52 then none
    else match onePattern c max with
      | none => none
      | some (e, c) =>
        match skipBlank c (max + 1) with
        | none => none
        | some (c, max) =>
          if cur c = 13 ∨ cur c = 10 then some ([e], c)
          else if d + 1 ≥ 7 then none
          else match setFsm n c (max + 1) (d + 1) with
            | none => none
            | some (es, c) => some (e :: es, c)

/-- The blanks after the state's name, DwMararc.c:193-199. -/
def skipLead : List Nat → Nat → List Nat × Nat
  | 32 :: c, max => if max < 52 then skipLead c (max + 1) else (32 :: c, max)
  | c, max => (c, max)

/-- `dwm_tokenize_line`, DwMararc.c:164-212: state, its patterns, pointer to the next line. -/
def tokenizeLine (c : List Nat) : Option (Nat × List Entry × List Nat) :=
  if cur c < 97 ∨ cur c > 122 then none
  else
    match (if cur c = 120 then
        (if cur c.tail < 97 ∨ cur c.tail > 122 then none else some (cur c.tail - 97 + 26, c.tail, 1))
      else some (cur c - 97, c, 0) : Option (Nat × List Nat × Nat)) with
    | none => none
    | some (b, c, max) =>
      if b > 51 then none
      else
        let c := c.tail
        if cur c ≠ 32 then none
        else
          let (c, max) := skipLead c max
          if max ≥ 52 then none
          else match setFsm 52 c max 0 with
            | none => none
            | some (es, c) => if cur c ≠ 13 ∧ cur c ≠ 10 then none else some (b, es, c.tail)

/-- `dwm_init_fsm`, DwMararc.c:214-241: all the lines, at most 52.  (A second line for a state
would overwrite the first from its start; there is none.) -/
def initLoop : Nat → List Nat → List (List Entry) → Option (List (List Entry))
  | 0, _, t => some t
  | n + 1, c, t =>
    match tokenizeLine c with
    | none => none
    | some (b, es, c) => if cur c = 0 then some (t.set b es) else initLoop n c (t.set b es)

def initFsm : Option (List (List Entry)) := initLoop 52 machine (List.replicate 52 [])

/-- `dwm_char_class`, DwMararc.c:253-295, and the macros, DwMararc.h:181-210.  (`EOF`, which is
`-1`, is in no class.) -/
def charClass (c cls : Nat) : Bool :=
  let lower := decide (97 ≤ c ∧ c ≤ 122)
  let upper := decide (65 ≤ c ∧ c ≤ 90)
  let digit := decide (48 ≤ c ∧ c ≤ 57)
  match cls with
  | 1 => lower || upper || c == 95
  | 2 => lower || upper || digit || c == 95
  | 4 => lower || upper || digit || c == 45 || c == 46 || c == 95
  | 9 => decide (32 ≤ c ∧ c ≤ 126) && c != 35 && c != 34
  | 14 => digit
  | 18 => c == 13
  | 19 => lower || upper || digit
  | 20 => c == 10
  | 23 => c == 32 || c == 9
  | 24 => decide (32 ≤ c ∧ c ≤ 126) || c == 9 || decide (127 < c)
  | 25 => lower || upper
  | _ => false

/-- The test inside the loop of `dwm_process_character`, DwMararc.c:317-334. -/
def matches' (c p : Nat) : Bool := if p < 32 then charClass c p else c == p

/-- `dwm_process_character`, DwMararc.c:301-350: the first pattern that matches gives action and
next state. -/
def processCharacter (t : List (List Entry)) (c : UInt8) (state : Nat) : Option (Nat × Nat) :=
  match t[state]? with
  | none => none
  | some es =>
    match es.find? (fun e => matches' c.toNat e.pattern) with
    | none => none
    | some e => if e.next ≥ 52 ∨ e.action > 4096 then none else some (e.action, e.next)

/-- The strings `actions[1]` to `actions[7]` of `dwm_parse_line`. -/
structure Acts where
  name : Option (List UInt8) := none
  key : Option (List UInt8) := none
  str : Option (List UInt8) := none
  num : Option (List UInt8) := none
  plus : Option (List UInt8) := none
  brace : Option (List UInt8) := none
  file : Option (List UInt8) := none
deriving DecidableEq, Repr

/-- `dwm_do_action`, DwMararc.c:718-726: the string is made with `dw_create(384)`, and the
result of `dw_addchar` is ignored, so that it holds at most 383 bytes (see `addchar_cap`). -/
def addTo (c : UInt8) (s : Option (List UInt8)) : Option (List UInt8) :=
  let l := s.getD []
  some (if l.length + 1 < 384 then l ++ [c] else l)

def doAction (c : UInt8) (action : Nat) (a : Acts) : Acts :=
  match action with
  | 1 => { a with name := addTo c a.name }
  | 2 => { a with key := addTo c a.key }
  | 3 => { a with str := addTo c a.str }
  | 4 => { a with num := addTo c a.num }
  | 5 => { a with plus := addTo c a.plus }
  | 6 => { a with brace := addTo c a.brace }
  | 7 => { a with file := addTo c a.file }
  | _ => a

/-- What `dwm_parse_line` finds: -/
inductive Line where
  /-- the file is at its end (return value 1) -/
  | end_
  /-- no such line (return value -1) -/
  | bad
  /-- the file ends within a line (return value -3) -/
  | cut
  /-- a line; the keys are set from these strings (return value 0) -/
  | line (a : Acts) (rest : List UInt8)
deriving DecidableEq, Repr

/-- The loop of `dwm_parse_line`, DwMararc.c:744-764; `c` is the character read last and `l` the
rest of the file.  At the end of the file after an end of line the code goes on with `EOF`,
which no pattern matches. -/
def lineLoop (t : List (List Entry)) : (l : List UInt8) → (c : UInt8) → (state : Nat) → Acts → Line
  | l, c, state, a =>
    match processCharacter t c state with
    | none => .bad
    | some (action, state) =>
      if action = 10 then .line a l
      else
        let a := if 0 < action ∧ action < 10 then doAction c action a else a
        match l with
        | [] => if c ≠ 13 ∧ c ≠ 10 then .cut else .bad
        | d :: l => lineLoop t l d state a

/-- `dwm_parse_line`, DwMararc.c:729-777, without the setting of the keys. -/
def parseLine (t : List (List Entry)) : List UInt8 → Line
  | [] => .end_
  | c :: l => lineLoop t l c 0 {}

/-- The names of the parameters, DwMararc.h:97-176. -/
def keyS : List String := ["bind_address", "ipv4_bind_addresses", "chroot_dir", "recursive_acl",
  "random_seed_file", "cache_file", "ip_blacklist", "ip_blocklist", "source_ip4",
  "blocked_hosts_hash_file"]
def keyD : List String := ["upstream_servers", "root_servers", "ip4", "ip6"]
def keyN : List String := ["maxprocs", "timeout_seconds", "dns_port", "upstream_port",
  "handle_overload", "handle_noreply", "recurse_min_bind_port", "recurse_number_ports",
  "hash_magic_number", "maximum_cache_elements", "maradns_uid", "maradns_gid", "resurrections",
  "num_retries", "verbose_level", "max_tcp_procs", "timeout_seconds_tcp", "tcp_listen",
  "max_ar_chain", "ttl_age", "max_inflights", "deliver_all", "filter_rfc1918", "ns_glueless_type",
  "reject_aaaa", "reject_mx", "truncation_hack", "reject_ptr", "min_ttl_incomplete_cname", "max_ttl",
  "min_ttl", "maxttl_reduce_labels", "rfc8482", "allow_block_hash_zero_key"]

/-- The bytes of a name. -/
def nameBytes (s : String) : List UInt8 := s.toList.map fun c => UInt8.ofNat c.toNat

/-- `dwm_grep_params`, DwMararc.c:412-446: the first name that is the same.  (The comparison is
`dw_issame`, see `issame_iff`; all names are shorter than the 64 bytes of the temporary.) -/
def grepParams (seek : List UInt8) (names : List String) : Option Nat :=
  names.findIdx? fun n => nameBytes n == seek

/-- The parameters: strings, dictionaries and numbers.  A dictionary is the map from keys to
values that `DwDict.c` is proved to be (`dict_is_map`), the newest entry first. -/
structure Conf where
  s : List (Option (List UInt8))
  d : List (Option (List (List UInt8 × List UInt8)))
  n : List Nat
deriving DecidableEq, Repr

/-- `dwm_init_mararc`, DwMararc.c:363-408. -/
def Conf.init : Conf :=
  { s := List.replicate 10 none, d := List.replicate 4 none
    n := [1024, 1, 53, 53, 1, 1, 15000, 4096, 1, 1024, 99, 99, 1, 5, 3, 8, 4, 0, 1, 1, 8, 1, 1, 1, 0, 1,
      1, 0, 3600, 86400, 60, 3, 1, 0] }

/-- What setting a key does. -/
inductive Set' where
  /-- the program stops (`dwm_fatal`) -/
  | fatal
  /-- undefined behaviour: the number does not fit -/
  | ub
  | ok (c : Conf)
deriving DecidableEq, Repr

/-- What `dwm_set_todo` decides, DwMararc.c:518-554. -/
inductive Todo where
  | bad | nothing | exec (name file : List UInt8) | setStr | addStr | setDict | addDict | setNum | initDict
deriving DecidableEq, Repr

def setTodo (a : Acts) : Todo :=
  match a.name with
  | none => .nothing
  | some name =>
    if a.brace ≠ none ∧ a.key = none then .initDict
    else match a.file with
      | some f => .exec name f
      | none =>
        if a.str = none then
          if a.num = none then .bad
          else if a.key ≠ none then .bad
          else if a.plus ≠ none then .bad
          else .setNum
        else if a.key ≠ none then
          if a.brace ≠ none then .nothing
          else if a.plus ≠ none then .addDict
          else .setDict
        else if a.plus ≠ none then .addStr
        else .setStr

/-- `dw_append` with the result ignored, into a block for 384 bytes (`append_exact`). -/
def appendCap (add tgt : List UInt8) : List UInt8 :=
  if tgt.length + add.length < 384 then tgt ++ add else tgt

/-- `dwd_fetch` on the map. -/
def fetch (m : List (List UInt8 × List UInt8)) (k : List UInt8) : Option (List UInt8) :=
  (m.find? fun e => e.1 == k).map (·.2)

/-- `dwm_dict_add`, DwMararc.c:567-621, for the cases `=` (3), `+=` (4) and `{}` (6). -/
def dictAdd (num : Nat) (key value : Option (List UInt8)) (todo : Todo) (c : Conf) : Set' :=
  if todo = .initDict ∧ (key ≠ none ∨ value ≠ none) then .fatal
  else match (c.d[num]?).join with
    | none => if todo = .initDict then .ok { c with d := c.d.set num (some []) } else .fatal
    | some m =>
      if todo = .initDict then .fatal
      else
        let k := key.getD []
        let v := value.getD []
        if todo ≠ .addDict then .ok { c with d := c.d.set num (some ((k, v) :: m)) }
        else match fetch m k with
          | none => .fatal
          | some old => .ok { c with d := c.d.set num (some ((k, appendCap v old) :: m)) }

/-- `dw_atoi(actions[4],0,10)` on a string of digits (DwStr.c:730-770): at most 99 digits are
looked at with success, and a number that does not fit in an `int32_t` is undefined behaviour
(see `Str2Model.lean`).  `none` inside is the return value -1. -/
def atoiLoop : (n out : Nat) → List UInt8 → Res Nat
  | 0, _, _ => .err
  | _ + 1, out, [] => .ok out
  | n + 1, out, c :: l =>
    if out * 10 + (c.toNat - 48) > 2147483647 then .ub else atoiLoop n (out * 10 + (c.toNat - 48)) l

/-- `dwm_set_keys`, DwMararc.c:661-715, except for `execfile`, which `parseFile` handles. -/
def setKeys (a : Acts) (c : Conf) : Set' :=
  let name := a.name.getD []
  let str := a.str.getD []
  match setTodo a with
  | .nothing => .ok c
  | .exec _ _ => .ok c
  | .bad => .fatal
  | .setDict => match grepParams name keyD with
    | none => .fatal
    | some num => dictAdd num a.key a.str .setDict c
  | .addDict => match grepParams name keyD with
    | none => .fatal
    | some num => dictAdd num a.key a.str .addDict c
  | .initDict => match grepParams name keyD with
    | none => .fatal
    | some num => dictAdd num a.key a.str .initDict c
  | .setNum => match atoiLoop 100 0 (a.num.getD []) with
    | .ub => .ub
    | .err => .fatal
    | .ok v => match grepParams name keyN with
      | none => .fatal
      | some num => .ok { c with n := c.n.set num v }
  | .setStr => match grepParams name keyS with
    | none => .fatal
    | some num => match (c.s[num]?).join with
      | none => .ok { c with s := c.s.set num (some str) }
      | some _ => .fatal
  | .addStr => match grepParams name keyS with
    | none => .fatal
    | some num => match (c.s[num]?).join with
      | none => .fatal
      | some old => .ok { c with s := c.s.set num (some (appendCap str old)) }

/-- The cleaning of the file name in `dwm_execfile`, DwMararc.c:484-497: a leading `/` and then,
in the first 200 bytes, all but `a`-`z`, `_` and `/` become `_`. -/
def cleanLoop : Nat → List UInt8 → List UInt8
  | 0, l => l
  | _ + 1, [] => []
  | n + 1, c :: l => (if (c < 97 ∨ c > 122) ∧ c ≠ 95 ∧ c ≠ 47 then 95 else c) :: cleanLoop n l

def cleanName : List UInt8 → List UInt8
  | [] => []
  | c :: l => cleanLoop 200 ((if c = 47 then 95 else c) :: l)

/-- The state of the reading of files. -/
structure World where
  conf : Conf
  /-- `dwm_file_depth` -/
  depth : Nat
  /-- the names given to `fopen`, newest first -/
  opened : List (List UInt8)
deriving DecidableEq, Repr

/-- What reading comes to: the program stops, undefined behaviour, or reading is done. -/
inductive Outcome where
  | fatal (w : World) | ub (w : World) | ok (w : World)
deriving DecidableEq, Repr

def Outcome.world : Outcome → World
  | .fatal w => w
  | .ub w => w
  | .ok w => w

mutual
/-- `dwm_parse_file`, DwMararc.c:781-817.  The file system is a function from names to
contents (`none`: the file cannot be opened, in which case the code forgets to take one off the
depth again).  `fuel` bounds nesting; the code's own bound is `depth ≤ 8`.
Changing the directory is taken to succeed. -/
def parseFile (t : List (List Entry)) (fs : List UInt8 → Option (List UInt8)) :
    (fuel : Nat) → (name : List UInt8) → World → Outcome
  | 0, _, w => .ok w
  | fuel + 1, name, w =>
    if w.depth > 8 then .ok w
    else
      let w := { w with depth := w.depth + 1, opened := name :: w.opened }
      match fs name with
      | none => .ok w
      | some bytes =>
        match parseLines t fs fuel bytes.length bytes w with
        | .ok w => .ok { w with depth := w.depth - 1 }
        | o => o

/-- The loop over the lines, DwMararc.c:793-811, and `dwm_execfile`, DwMararc.c:450-502. -/
def parseLines (t : List (List Entry)) (fs : List UInt8 → Option (List UInt8)) :
    (fuel : Nat) → (n : Nat) → (bytes : List UInt8) → World → Outcome
  | fuel, n, bytes, w =>
    match parseLine t bytes with
    | .end_ => .ok w
    | .bad => .fatal w
    | .cut => .fatal w
    | .line a rest =>
      match n with
      | 0 => .ok w
      | n + 1 =>
        match setTodo a with
        | .exec name file =>
          if name ≠ nameBytes "execfile" then .fatal w
          else match parseFile t fs fuel (cleanName file) w with
            | .ok w => parseLines t fs fuel n rest w
            | o => o
        | _ =>
          match setKeys a w.conf with
          | .fatal => .fatal w
          | .ub => .ub w
          | .ok c => parseLines t fs fuel n rest { w with conf := c }
end

end Rc
end Dw
