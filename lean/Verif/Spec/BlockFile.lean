import Verif.Spec.Packed
import Verif.Spec.HalfSip
import Verif.Spec.Wire
/-!
# Block files

The format on which the tool that makes the files and the resolver must agree (it is
not described outside their source): a header (magic number, two words of
hash key, number of buckets), a table with the place of the chain of every bucket (0 for
an empty one), and the chains: strings preceded by their 16-bit length, with a byte 255 at
the end.
-/

namespace Spec

/-- The bytes `l` are in the file from `o` on. -/
def At (file : List UInt8) (o : Nat) (l : List UInt8) : Prop := (file.drop o).take l.length = l

def encEntry (s : List UInt8) : List UInt8 := be16 s.length ++ s

def encChain (c : List (List UInt8)) : List UInt8 := c.flatMap encEntry ++ [255]

/-- A block file with the given key and chains. -/
structure BlockFile (file : List UInt8) (k1 k2 : UInt32) (chains : List (List (List UInt8))) : Prop where
  magic : At file 0 [0, 68, 119, 66]
  key1 : At file 4 (be32 k1.toNat)
  key2 : At file 8 (be32 k2.toNat)
  count : At file 12 (be32 chains.length)
  empty : ∀ i (h : i < chains.length), chains[i] = [] → At file (16 + 4 * i) (be32 0)
  full : ∀ i (h : i < chains.length), chains[i] ≠ [] → ∃ off, 0 < off ∧ off < 4294967296 ∧
    At file (16 + 4 * i) (be32 off) ∧ At file off (encChain chains[i])

/-- Every string is in the chain that its hash selects. -/
def Placed (k1 k2 : UInt32) (chains : List (List (List UInt8))) : Prop :=
  ∀ i (h : i < chains.length), ∀ s ∈ chains[i], (HalfSip.hash k1 k2 s).toNat % chains.length = i

end Spec

namespace Spec

/-- The text of a name without a dot at the end. -/
def nameText (ls : List (List UInt8)) : List UInt8 := [46].intercalate ls

/-- A byte that can be in a label in a list of names: not a dot, space, line end or zero. -/
def Plain (c : UInt8) : Prop := c ≠ 46 ∧ c ≠ 10 ∧ c ≠ 32 ∧ c ≠ 13 ∧ c ≠ 0

/-- The ends of lines in a list of names: perhaps a final dot, perhaps a carriage
return, a newline. -/
def LineEnd (t : List UInt8) : Prop := t = [10] ∨ t = [13, 10] ∨ t = [46, 10] ∨ t = [46, 13, 10]

/-- A line of a list of names. -/
structure Line where
  labels : List (List UInt8)
  tail : List UInt8

def Line.text (x : Line) : List UInt8 := nameText x.labels ++ x.tail

/-- A line that the tool takes: a name of one label or more, of at most 1009 bytes with
the end of line; it does not begin with a `#`. -/
structure Line.Ok (x : Line) : Prop where
  ne : x.labels ≠ []
  labels : LabelsOk x.labels
  plain : ∀ l ∈ x.labels, ∀ c ∈ l, Plain c
  first : (x.labels.head?.bind List.head?) ≠ some 35
  tail : LineEnd x.tail
  short : x.text.length ≤ 1009

/-- The name of a line in wire form and lower case. -/
def Line.name (x : Line) : List UInt8 := encName (x.labels.map fun l => l.map lower)

/-- A name is refused because of a list: the name itself, or the name made of its last
one, two or three labels, is in the list. -/
def Refused (names : List (List UInt8)) (ls : List (List UInt8)) : Prop :=
  encName ls ∈ names ∨ ∃ k, 1 ≤ k ∧ k ≤ 3 ∧ k < ls.length ∧ encName (ls.drop (ls.length - k)) ∈ names

end Spec
