import Verif.Spec.ZoneFile
/-!
# Specification: the text of zone files

From doc/en/source/csv2.ej and csv2_txt.ej: how records and commands are written, and what they say.  Names and text are
ASCII here.
-/

namespace Spec
namespace ZoneText

/-! ## Between the fields -/

/-- White space, a pipe, or a comment with the end of its line. -/
inductive Piece
  | blank (c : UInt8)
  | pipe
  | comment (t : List UInt8) (e : UInt8)
deriving DecidableEq

namespace Piece

def text : Piece → List UInt8
  | blank c => [c]
  | pipe => [124]
  | comment t e => 35 :: (t ++ [e])

/-- Comments are shorter than 5000 bytes and do not contain `{`. -/
def Ok : Piece → Prop
  | blank c => c = 9 ∨ c = 10 ∨ c = 13 ∨ c = 32
  | pipe => True
  | comment t e => (e = 10 ∨ e = 13) ∧ t.length ≤ 4998 ∧ ∀ c ∈ t, c ≠ 10 ∧ c ≠ 13 ∧ c ≠ 123

def isPipe : Piece → Bool
  | pipe => true
  | _ => false

def isComment : Piece → Bool
  | comment _ _ => true
  | _ => false

/-- Does a line end here? -/
def endsLine : Piece → Bool
  | blank c => c = 10 ∨ c = 13
  | pipe => false
  | comment _ _ => true

end Piece

def pieces (l : List Piece) : List UInt8 := l.flatMap Piece.text

/-- What stands between two fields: at least one piece, at most one of them a pipe. -/
structure Gap where
  first : Piece
  rest : List Piece

namespace Gap

def text (g : Gap) : List UInt8 := g.first.text ++ pieces g.rest

structure Ok (g : Gap) : Prop where
  first : g.first.Ok
  rest : ∀ p ∈ g.rest, p.Ok
  pipes : (g.first :: g.rest).countP Piece.isPipe ≤ 1
  short : g.rest.length < 10000

end Gap

/-- What stands after a record: as a gap, with a tilde in it if tildes are used. -/
structure Sep where
  first : Piece
  before : List Piece
  tilde : Bool
  after : List Piece

namespace Sep

def text (s : Sep) : List UInt8 :=
  s.first.text ++ pieces s.before ++ (if s.tilde then [126] else []) ++ pieces s.after

structure Ok (s : Sep) : Prop where
  first : s.first.Ok
  before : ∀ p ∈ s.before, p.Ok
  after : ∀ p ∈ s.after, p.Ok
  pipes : (s.first :: (s.before ++ s.after)).countP Piece.isPipe ≤ 1
  short : s.before.length + s.after.length < 9999
  /-- without a tilde, there is nothing after it -/
  none : s.tilde = false → s.after = []

/-- The next record is at the beginning of a line. -/
def newLine (s : Sep) : Prop :=
  if s.tilde then ∃ p, s.after.getLast? = some p ∧ p.endsLine = true
  else ((s.first :: s.before).getLast (by simp)).endsLine = true

end Sep

/-! ## Fields -/

def isDigit (c : UInt8) : Bool := 48 ≤ c ∧ c ≤ 57

/-- Letters, digits, `-` and `_`. -/
def isPlain (c : UInt8) : Bool := isDigit c ∨ (65 ≤ c ∧ c ≤ 90) ∨ (97 ≤ c ∧ c ≤ 122) ∨ c = 45 ∨ c = 95

/-- The number that digits say. -/
def value (l : List UInt8) : Nat := l.foldl (fun v c => v * 10 + (c.toNat - 48)) 0

/-- A number up to 2147483647; zero is written with one digit. -/
structure NumOk (l : List UInt8) : Prop where
  digits : ∀ c ∈ l, isDigit c = true
  some : l ≠ []
  small : value l ≤ 2147483647
  zero : value l = 0 → l = [48]
  short : l.length ≤ 256

/-- A name: `*.` in front of it or not, labels, and `%` for the origin at its end or not. -/
structure NameText where
  star : Bool
  labels : Name
  relative : Bool

namespace NameText

def text (n : NameText) : List UInt8 :=
  (if n.star then [42, 46] else []) ++ dotted n.labels ++ (if n.relative then [37] else [])

/-- The name without the star. -/
def name (n : NameText) (origin : Name) : Name := n.labels ++ if n.relative then origin else []

structure Ok (n : NameText) (origin : Name) : Prop where
  labels : ∀ l ∈ n.labels, 1 ≤ l.length ∧ l.length ≤ 63 ∧ ∀ c ∈ l, isPlain c = true ∨ c = 47
  /-- commands begin with a slash -/
  first : n.text.head? ≠ some 47
  some : n.text ≠ []
  short : (encName (n.name origin)).length + (if n.star then 2 else 0) ≤ 255

end NameText

/-- An IPv4 address. -/
structure Ip4 where
  a : List UInt8
  b : List UInt8
  c : List UInt8
  d : List UInt8

namespace Ip4

def text (i : Ip4) : List UInt8 := i.a ++ 46 :: (i.b ++ 46 :: (i.c ++ 46 :: i.d))

def data (i : Ip4) : List UInt8 := [i.a, i.b, i.c, i.d].map fun l => UInt8.ofNat (value l)

def Ok (i : Ip4) : Prop :=
  i.text.length ≤ 256 ∧ ∀ l ∈ [i.a, i.b, i.c, i.d], l ≠ [] ∧ (∀ c ∈ l, isDigit c = true) ∧ value l ≤ 255

end Ip4

/-- The value of a hexadecimal digit. -/
def hexDigit (c : UInt8) : Option Nat :=
  if isDigit c then some (c.toNat - 48)
  else if 65 ≤ c ∧ c ≤ 70 then some (c.toNat - 55)
  else if 97 ≤ c ∧ c ≤ 102 then some (c.toNat - 87)
  else none

/-- An IPv6 address: eight groups, with a colon after the last one or not (fetchzone writes it), or some groups, two colons,
and some groups. -/
inductive Ip6
  | full (l : List (List UInt8))
  | trail (l : List (List UInt8))
  | short (l r : List (List UInt8))

namespace Ip6

def join : List (List UInt8) → List UInt8
  | [] => []
  | [g] => g
  | g :: r => g ++ 58 :: join r

def text : Ip6 → List UInt8
  | full l => join l
  | trail l => join l ++ [58]
  | short l r => join l ++ [58, 58] ++ join r

/-- The two bytes of a group. -/
def group (g : List UInt8) : List UInt8 :=
  let n := g.foldl (fun v c => v * 16 + (hexDigit c).getD 0) 0
  [UInt8.ofNat (n / 256), UInt8.ofNat n]

def data : Ip6 → List UInt8
  | full l => l.flatMap group
  | trail l => l.flatMap group
  | short l r => l.flatMap group ++ List.replicate (16 - 2 * (l.length + r.length)) 0 ++ r.flatMap group

def GroupOk (g : List UInt8) : Prop := 1 ≤ g.length ∧ g.length ≤ 4 ∧ ∀ c ∈ g, (hexDigit c).isSome

def Ok : Ip6 → Prop
  | full l => l.length = 8 ∧ ∀ g ∈ l, GroupOk g
  | trail l => l.length = 8 ∧ ∀ g ∈ l, GroupOk g
  | short l r => l.length + r.length ≤ 7 ∧ (∀ g ∈ l, GroupOk g) ∧ ∀ g ∈ r, GroupOk g

end Ip6

/-! ## Mail addresses -/

/-- A mail address: what is before the `@`, and the name after it. -/
structure Mail where
  user : List UInt8
  host : NameText

namespace Mail

/-- Dots before the `@` are written with a backslash. -/
def text (m : Mail) : List UInt8 := m.user.flatMap (fun c => if c = 46 then [92, 46] else [c]) ++ 64 :: m.host.text

def isUser (c : UInt8) : Bool := isPlain c ∨ c = 43 ∨ c = 37 ∨ c = 33 ∨ c = 94 ∨ c = 61

/-- No two dots in a row, none at the end. -/
def Single : List UInt8 → Prop
  | [] => True
  | 46 :: c :: r => isUser c = true ∧ Single r
  | [46] => False
  | c :: r => isUser c = true ∧ Single r

def data (m : Mail) (origin : Name) : List UInt8 := encName (m.user :: m.host.name origin)

structure Ok (m : Mail) (origin : Name) : Prop where
  first : ∃ c r, m.user = c :: r ∧ isPlain c = true ∧ Single r
  user : m.user.length ≤ 63
  host : m.host.Ok origin
  star : m.host.star = false
  short : (m.data origin).length ≤ 255

end Mail

/-! ## Strings -/

/-- The parts of strings: unquoted characters, quoted text, an escaped quote, octal and hexadecimal numbers. -/
inductive Bit
  | bare (c : UInt8)
  | quoted (l : List UInt8)
  | quote
  | oct (a b c : UInt8)
  | hex (a b : UInt8)

namespace Bit

def text : Bit → List UInt8
  | bare c => [c]
  | quoted l => 39 :: (l ++ [39])
  | quote => [92, 39]
  | oct a b c => [92, a, b, c]
  | hex a b => [92, 120, a, b]

def data : Bit → List UInt8
  | bare c => [c]
  | quoted l => l
  | quote => [39]
  | oct a b c => [UInt8.ofNat ((a.toNat - 48) * 64 + (b.toNat - 48) * 8 + (c.toNat - 48))]
  | hex a b => [UInt8.ofNat ((hexDigit a).getD 0 * 16 + (hexDigit b).getD 0)]

def isBare (c : UInt8) : Bool := isPlain c ∨ c = 43 ∨ c = 37 ∨ c = 33 ∨ c = 94 ∨ c = 61

/-- Quoted text is printable, without `'`, `#`, `|`, `{` and `~`. -/
def isQuotable (c : UInt8) : Bool := 32 ≤ c ∧ c ≤ 125 ∧ c ≠ 39 ∧ c ≠ 35 ∧ c ≠ 124 ∧ c ≠ 123

def Ok : Bit → Prop
  | bare c => isBare c = true
  | quoted l => ∀ c ∈ l, isQuotable c = true
  | quote => True
  | oct a b c => (48 ≤ a ∧ a ≤ 51) ∧ (48 ≤ b ∧ b ≤ 55) ∧ 48 ≤ c ∧ c ≤ 55
  | hex a b => (hexDigit a).isSome ∧ (hexDigit b).isSome

end Bit

/-- A string. -/
abbrev Str := List Bit

def Str.text (s : Str) : List UInt8 := s.flatMap Bit.text

def Str.data (s : Str) : List UInt8 := s.flatMap Bit.data

/-- Strings with semicolons between them. -/
def strsText : List Str → List UInt8
  | [] => []
  | [s] => Str.text s
  | s :: r => Str.text s ++ 59 :: strsText r

/-- A string as in the protocol: its length comes first. -/
def strData (s : Str) : List UInt8 := UInt8.ofNat (Str.data s).length :: Str.data s

structure StrsOk (l : List Str) : Prop where
  bits : ∀ s ∈ l, ∀ b ∈ s, b.Ok
  short : ∀ s ∈ l, (Str.data s).length ≤ 255
  some : strsText l ≠ []
  total : (l.flatMap strData).length ≤ 1511
  text : (strsText l).length < 5000

/-! ## Records -/

/-- The types of records by what their data look like. -/
def addrTypes : List (String × Nat) := [("a", 1), ("fqdn4", 65765)]
def addr6Types : List (String × Nat) := [("aaaa", 28), ("fqdn6", 65766)]
def nameTypes : List (String × Nat) := [("ns", 2), ("cname", 5), ("ptr", 12), ("mb", 7), ("nsap-ptr", 23)]
def prefTypes : List (String × Nat) := [("mx", 15), ("afsdb", 18), ("rt", 21)]
/-- Older types for mail; they are MX records with these priorities. -/
def mailTypes : List (String × Nat) := [("md", 0), ("mf", 10)]
def strTypes : List (String × Nat) := [("txt", 16), ("x25", 19), ("isdn", 20), ("spf", 99)]
/-- Types with a fixed number of strings. -/
def fixedTypes : List (String × Nat × Nat) := [("hinfo", 13, 2), ("gpos", 27, 3)]

/-- The word for a type, in any case. -/
def Says (w : List UInt8) (s : String) : Prop := w.map lower = ascii s

/-- A type and data, with what is between them. -/
inductive Body
  | bare (ip : Ip4)
  | addr (w : List UInt8) (k : String × Nat) (g : Gap) (ip : Ip4)
  | addr6 (w : List UInt8) (k : String × Nat) (g : Gap) (ip : Ip6)
  | name (w : List UInt8) (k : String × Nat) (g : Gap) (n : NameText)
  | pref (w : List UInt8) (k : String × Nat) (g : Gap) (p : List UInt8) (g' : Gap) (n : NameText)
  | mail (w : List UInt8) (k : String × Nat) (g : Gap) (n : NameText)
  | srv (w : List UInt8) (g : Gap) (a : List UInt8) (g1 : Gap) (b : List UInt8) (g2 : Gap) (c : List UInt8) (g3 : Gap) (n : NameText)
  | soa (w : List UInt8) (g : Gap) (n : NameText) (g1 : Gap) (m : Mail) (g2 : Gap)
      (serial : Option (List UInt8)) (g3 : Gap) (a : List UInt8) (g4 : Gap) (b : List UInt8) (g5 : Gap)
      (c : List UInt8) (g6 : Gap) (d : List UInt8)
  | strs (w : List UInt8) (k : String × Nat) (g : Gap) (l : List Str)
  | fixed (w : List UInt8) (k : String × Nat × Nat) (g : Gap) (l : List Str)
  | raw (w : List UInt8) (g : Gap) (t : List UInt8) (g' : Gap) (s : Str)

namespace Body

def serialText : Option (List UInt8) → List UInt8
  | some l => l
  | none => ascii "/serial"

def text : Body → List UInt8
  | bare ip => ip.text
  | addr w _ g ip => w ++ g.text ++ ip.text
  | addr6 w _ g ip => w ++ g.text ++ ip.text
  | name w _ g n => w ++ g.text ++ n.text
  | pref w _ g p g' n => w ++ g.text ++ p ++ g'.text ++ n.text
  | mail w _ g n => w ++ g.text ++ n.text
  | srv w g a g1 b g2 c g3 n => w ++ g.text ++ a ++ g1.text ++ b ++ g2.text ++ c ++ g3.text ++ n.text
  | soa w g n g1 m g2 s g3 a g4 b g5 c g6 d =>
    w ++ g.text ++ n.text ++ g1.text ++ m.text ++ g2.text ++ serialText s ++ g3.text ++ a ++ g4.text ++ b ++ g5.text ++
      c ++ g6.text ++ d
  | strs w _ g l => w ++ g.text ++ strsText l
  | fixed w _ g l => w ++ g.text ++ strsText l
  | raw w g t g' s => w ++ g.text ++ t ++ g'.text ++ Str.text s

def type : Body → Nat
  | bare _ => 1
  | addr _ k _ _ => k.2
  | addr6 _ k _ _ => k.2
  | name _ k _ _ => k.2
  | pref _ k _ _ _ _ => k.2
  | mail .. => 15
  | srv .. => 33
  | soa .. => 6
  | strs _ k _ _ => k.2
  | fixed _ k _ _ => k.2.1
  | raw _ _ t _ _ => value t

def num16 (n : Nat) : List UInt8 := [UInt8.ofNat (n / 256), UInt8.ofNat n]

/-- `serial` is the number for `/serial`. -/
def data (origin : Name) (serial : Nat) : Body → List UInt8
  | bare ip => ip.data
  | addr _ _ _ ip => ip.data
  | addr6 _ _ _ ip => ip.data
  | name _ _ _ n => encName (n.name origin)
  | pref _ _ _ p _ n => num16 (value p) ++ encName (n.name origin)
  | mail _ k _ n => num16 k.2 ++ encName (n.name origin)
  | srv _ _ a _ b _ c _ n => num16 (value a) ++ num16 (value b) ++ num16 (value c) ++ encName (n.name origin)
  | soa _ _ n _ m _ s _ a _ b _ c _ d =>
    encName (n.name origin) ++ m.data origin ++ num32 ((s.map value).getD serial) ++ num32 (value a) ++ num32 (value b) ++
      num32 (value c) ++ num32 (value d)
  | strs _ _ _ l => l.flatMap strData
  | fixed _ _ _ l => l.flatMap strData
  | raw _ _ _ _ s => Str.data s

/-- A name among the data: it has no star, and what follows `%` at once is not a comment. -/
structure NameOk (n : NameText) (origin : Name) (next : Piece) : Prop where
  ok : n.Ok origin
  star : n.star = false
  next : n.relative = true → next.isComment = false

/-- `next` is what follows. -/
def Ok (origin : Name) (next : Piece) : Body → Prop
  | bare ip => ip.Ok
  | addr w k g ip => k ∈ addrTypes ∧ Says w k.1 ∧ g.Ok ∧ ip.Ok
  | addr6 w k g ip => k ∈ addr6Types ∧ Says w k.1 ∧ g.Ok ∧ ip.Ok
  | name w k g n => k ∈ nameTypes ∧ Says w k.1 ∧ g.Ok ∧ NameOk n origin next
  | pref w k g p g' n => k ∈ prefTypes ∧ Says w k.1 ∧ g.Ok ∧ NumOk p ∧ value p ≤ 65535 ∧ g'.Ok ∧ NameOk n origin next ∧
      (encName (n.name origin)).length ≤ 253
  | mail w k g n => k ∈ mailTypes ∧ Says w k.1 ∧ g.Ok ∧ NameOk n origin next ∧ (encName (n.name origin)).length ≤ 253
  | srv w g a g1 b g2 c g3 n => Says w "srv" ∧ g.Ok ∧ (∀ l ∈ [a, b, c], NumOk l ∧ value l ≤ 65535) ∧ g1.Ok ∧ g2.Ok ∧ g3.Ok ∧
      NameOk n origin next ∧ (encName (n.name origin)).length ≤ 249
  | soa w g n g1 m g2 s g3 a g4 b g5 c g6 d => Says w "soa" ∧ g.Ok ∧ NameOk n origin g1.first ∧ g1.Ok ∧ m.Ok origin ∧
      (m.host.relative = true → g2.first.isComment = false) ∧ g2.Ok ∧ (∀ l, s = some l → NumOk l) ∧
      (s = none → g3.first.isComment = false) ∧ g3.Ok ∧ (∀ l ∈ [a, b, c, d], NumOk l) ∧ g4.Ok ∧ g5.Ok ∧ g6.Ok ∧
      (encName (n.name origin)).length + (m.data origin).length ≤ 491
  | strs w k g l => k ∈ strTypes ∧ Says w k.1 ∧ g.Ok ∧ StrsOk l
  | fixed w k g l => k ∈ fixedTypes ∧ Says w k.1 ∧ g.Ok ∧ StrsOk l ∧ l.length = k.2.2
  | raw w g t g' s => Says w "raw" ∧ g.Ok ∧ NumOk t ∧ value t ≤ 65535 ∧
      value t ∉ [255, 251, 252, 253, 254, 38, 39, 41] ∧ g'.Ok ∧ (∀ b ∈ s, b.Ok) ∧ s.text ≠ [] ∧ s.data.length ≤ 1511 ∧
      s.text.length < 10000 ∧ next.isComment = false

/-- Are the data strings that a tilde ends? -/
def isStrs : Body → Bool
  | strs .. => true
  | fixed .. => true
  | _ => false

/-- Strings with any number of parts cannot stand in the first line of a file, unless it is known that tildes are used. -/
def isFree : Body → Bool
  | strs .. => true
  | _ => false

end Body

/-- A record, or a command. -/
inductive Line
  | record (owner : NameText) (g : Gap) (ttl : Option (List UInt8 × Gap)) (classes : List (List UInt8 × Gap)) (body : Body)
  | ttl (g : Gap) (n : List UInt8)
  | origin (g : Gap) (n : NameText)
  | push (g : Gap) (n : NameText)
  | pop

namespace Line

def text : Line → List UInt8
  | record n g t cs b =>
    n.text ++ g.text ++ (match t with | some (l, g) => 43 :: (l ++ g.text) | none => []) ++
      cs.flatMap (fun c => c.1 ++ c.2.text) ++ b.text
  | ttl g n => ascii "/ttl" ++ g.text ++ n
  | origin g n => ascii "/origin" ++ g.text ++ n.text
  | push g n => ascii "/opush" ++ g.text ++ n.text
  | pop => ascii "/opop"

end Line

/-- What commands change. -/
structure Ctx where
  origin : Name
  stack : List Name
  ttl : Nat

/-- A command among the lines, or a record. -/
def step (serial : Nat) (c : Ctx) : Line → Ctx × List ZoneLine
  | .record n _ t _ b =>
    (c, [⟨n.star, n.name c.origin, b.type, (match t with | some (l, _) => value l | none => c.ttl), b.data c.origin serial⟩])
  | .ttl _ n => ({ c with ttl := value n }, [])
  | .origin _ n => ({ c with origin := n.name c.origin }, [])
  | .push _ n => ({ c with origin := n.name c.origin, stack := c.origin :: c.stack }, [])
  | .pop =>
    match c.stack with
    | o :: r => ({ c with origin := o, stack := r }, [])
    | [] => (c, [])

/-- What a file says. -/
def entries (serial : Nat) : Ctx → List (Line × Sep) → List ZoneLine
  | _, [] => []
  | c, (l, _) :: r => (step serial c l).2 ++ entries serial (step serial c l).1 r

/-- The text of a file: what comes before the first line, and the lines. -/
def fileText (head : List Piece) (l : List (Line × Sep)) : List UInt8 :=
  pieces head ++ l.flatMap fun x => x.1.text ++ x.2.text

namespace Line

/-- Is the line written as it should be?  `next` is what follows it. -/
def Ok (c : Ctx) (next : Piece) : Line → Prop
  | record n g t cs b => n.Ok c.origin ∧ (n.relative = true → g.first.isComment = false) ∧ g.Ok ∧
      (∀ x, t = some x → NumOk x.1 ∧ x.2.Ok) ∧ (∀ x ∈ cs, Says x.1 "in" ∧ x.2.Ok) ∧
      ((∃ ip, b = .bare ip) → cs = []) ∧ b.Ok c.origin next
  | ttl g n => g.first.isComment = false ∧ g.Ok ∧ NumOk n
  | origin g n => g.first.isComment = false ∧ g.Ok ∧ Body.NameOk n c.origin next ∧ n.name c.origin ≠ []
  | push g n => g.first.isComment = false ∧ g.Ok ∧ Body.NameOk n c.origin next ∧ n.name c.origin ≠ []
  | pop => c.stack ≠ [] ∧ next.isComment = false

def isPush : Line → Bool
  | push .. => true
  | _ => false

def isRecord : Line → Bool
  | record .. => true
  | _ => false

/-- Data that a tilde ends. -/
def isStrs : Line → Bool
  | record _ _ _ _ b => b.isStrs
  | _ => false

def isFree : Line → Bool
  | record _ _ _ _ b => b.isFree
  | _ => false

end Line

/-- Are all lines as they should be?  `tilde` says that tildes are used. -/
def LinesOk (serial : Nat) (tilde : Bool) : Ctx → List (Line × Sep) → Prop
  | _, [] => True
  | c, (l, s) :: r =>
    l.Ok c s.first ∧ s.Ok ∧ s.tilde = tilde ∧ (r ≠ [] → s.newLine) ∧
      (l.isStrs = true → tilde = true → s.before.length < 4000 ∧ ∀ p ∈ s.first :: s.before, p.isPipe = false) ∧
      LinesOk serial tilde (step serial c l).1 r

/-- A zone file: what comes before the first line, whether tildes are used, and the lines. -/
structure File where
  head : List Piece
  tilde : Bool
  lines : List (Line × Sep)

namespace File

def text (f : File) : List UInt8 := fileText f.head f.lines

/-- What the file of a zone says; `serial` is the number for `/serial`. -/
def records (serial : Nat) (zone : Name) (f : File) : List ZoneLine := entries serial ⟨zone, [], 86400⟩ f.lines

/-- Is the file written as it should be?  `mode` is the setting `csv2_tilde_handling`: 0 and 1 are without tildes, 3 is
with tildes, and with 2 the file decides. -/
structure Ok (mode serial : Nat) (zone : Name) (f : File) : Prop where
  head : ∀ p ∈ f.head, p.Ok
  pipes : f.head.countP Piece.isPipe ≤ 1
  short : f.head.length < 10000
  line : ∀ p, f.head.getLast? = some p → p.endsLine = true
  lines : LinesOk serial f.tilde ⟨zone, [], 86400⟩ f.lines
  style : if f.tilde then mode = 2 ∨ mode = 3 else mode ≤ 2
  /-- a record whose text may go on over several lines is not the first one while it is not known whether tildes are used -/
  first : mode = 2 → ∀ x, f.lines.head? = some x → x.1.isFree = false
  pushes : f.lines.countP (fun x => x.1.isPush) ≤ 8
  few : f.lines.countP (fun x => x.1.isRecord) < 100000

end File

end ZoneText
end Spec
