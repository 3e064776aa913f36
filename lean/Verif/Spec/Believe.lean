import Verif.Spec.Packet
/-!
# Specification: what may be believed of a reply

Independent of the model.  A reply comes from the servers of some zone, and is an answer to one
question.
-/

namespace Spec

/-- A record with names of legal length. -/
structure Rec.Plain (r : Rec) : Prop where
  ok : r.Ok
  name : NameOk r.name
  names : ∀ n ∈ r.names, NameOk n

/-- `a` is a name below `b`, and not `b` itself. -/
def Under (a b : List (List UInt8)) : Prop := Below a b ∧ ¬ SameName b a

/-- The servers of `zone`, asked for `q`, may say who serves `z`: `z` is in their zone, and it is the
name asked for or one above it. -/
def MayDelegate (zone q z : List (List UInt8)) : Prop := Under z zone ∧ Below q z

/-- The name an NS or CNAME record points to. -/
def Rec.target (r : Rec) : List (List UInt8) := r.names.headD []

/-- The longest names that are compared: the lengths of the labels and two for each label are
together less than 260. -/
def cost (ls : List (List UInt8)) : Nat := (ls.map fun l => l.length + 2).sum

/-- The same name, and not too long to be compared. -/
def Alike (a b : List (List UInt8)) : Prop := SameName a b ∧ cost a < 260

instance (a b : List (List UInt8)) : Decidable (Below a b) :=
  inferInstanceAs (Decidable (List.IsSuffix _ _))

instance (a b : List (List UInt8)) : Decidable (Under a b) :=
  inferInstanceAs (Decidable (_ ∧ _))

instance (z q a : List (List UInt8)) : Decidable (MayDelegate z q a) :=
  inferInstanceAs (Decidable (_ ∧ _))

instance (a b : List (List UInt8)) : Decidable (Alike a b) :=
  inferInstanceAs (Decidable (_ ∧ _))

/-- An address record. -/
def Rec.isAddr (r : Rec) : Bool := r.type == 1 || r.type == 28

/-- Names the servers of a zone can speak for: those below the zone.  (Zones with names too long to be
compared have none.) -/
def Inside (zone n : List (List UInt8)) : Prop := Under n zone ∧ cost zone < 260

instance (a b : List (List UInt8)) : Decidable (Inside a b) :=
  inferInstanceAs (Decidable (_ ∧ _))

/-- A chain of aliases: the first is one for `n`, and every other one for what the one before it points
to. -/
def Chain : List (List UInt8) → List Rec → Prop
  | _, [] => True
  | n, r :: cs => r.type = 5 ∧ Alike n r.name ∧ Chain r.target cs

instance Chain.dec : ∀ (n : List (List UInt8)) (cs : List Rec), Decidable (Chain n cs)
  | _, [] => inferInstanceAs (Decidable True)
  | _, r :: cs =>
    let _ := Chain.dec r.target cs
    inferInstanceAs (Decidable (_ ∧ _ ∧ _))

/-- What is believed of the answers to the question for `q` and the type `t`, asked of the servers of
`zone`: the aliases `cs`, up to the first that leads out of the zone, and then, if none did, of the
other records `rest` those of the right type which belong to `q` or to where the aliases lead, `n`. -/
def believed (zone q : List (List UInt8)) (t : Nat) (rest : List Rec) : List (List UInt8) → List Rec → List Rec
  | n, [] => rest.filter fun r => r.type = t ∧ (Alike q r.name ∨ Alike n r.name)
  | _, r :: cs => r :: (if Inside zone r.target then believed zone q t rest r.target cs else [])

/-! ### Referrals -/

/-- The record says, as it may, who serves a zone. -/
def Rec.Delegates (zone q : List (List UInt8)) (r : Rec) : Prop :=
  r.type = 2 ∧ MayDelegate zone q r.name ∧ cost r.name < 260

instance (zone q : List (List UInt8)) (r : Rec) : Decidable (r.Delegates zone q) :=
  inferInstanceAs (Decidable (_ ∧ _ ∧ _))

/-- The servers a reply refers to: those of the first fifteen authority records. -/
def delegations (zone q : List (List UInt8)) (ns : List Rec) : List Rec :=
  (ns.take 15).filter fun r => r.Delegates zone q

/-- Their addresses, of the additional records. -/
def addresses (zone q : List (List UInt8)) (ns ar : List Rec) : List Rec :=
  ar.filter fun r => r.isAddr && decide (∃ d ∈ delegations zone q ns, Alike d.target r.name)

/-- Those without an address. -/
def nameless (zone q : List (List UInt8)) (ns ar : List Rec) : List Rec :=
  (delegations zone q ns).filter fun d => ¬ ∃ r ∈ ar, r.isAddr = true ∧ Alike d.target r.name

/-- Where things laid out one after another begin. -/
def place : Nat → List (List UInt8) → List Nat
  | _, [] => []
  | n, e :: es => n :: place (n + e.length) es

/-- An address as it is written in a referral. -/
def glueEntry (r : Rec) : List UInt8 := UInt8.ofNat r.type :: r.rdata

/-- A name as it is written in a referral. -/
def nameEntry (r : Rec) : List UInt8 := 2 :: (be16 (encName r.target).length ++ encName r.target)

/-- A referral as it is kept: the zone, the entries, their places, their number. -/
def referral (zone : List UInt8) (es : List (List UInt8)) : List UInt8 :=
  zone ++ es.flatten ++ (place zone.length es).flatMap be16 ++ [UInt8.ofNat es.length, 16]

/-- An alias as it is kept: the length of the name it points to, and that name. -/
def aliasEntry (r : Rec) : List UInt8 := be16 (encName r.target).length ++ encName r.target

/-- Aliases as they are kept: where the last one is follows them. -/
def aliases (rs : List Rec) : List UInt8 :=
  rs.flatMap aliasEntry ++ be16 ((place 0 (rs.map aliasEntry)).getLastD 0) ++ [17]

/-! ### What is kept of a reply -/

/-- What may be put in the cache because of a reply to the question for `q` and the type `t` from the
servers of `zone`: an answer to that question; where the name is an alias for; who serves a zone they may
delegate; and (as the code has it) that nobody serves the root. -/
def MayKeep (zone q : List (List UInt8)) (t : Nat) (key value : List UInt8) : Prop :=
  key = encName q ++ be16 t ∨ key = encName q ++ be16 65394 ∨
  (∃ z, MayDelegate zone q z ∧ key = encName z ++ be16 65395) ∨
  (key = encName [] ++ be16 65395 ∧ value = [0, 16])

/-- A denial as it is kept: the SOA and NS records and the addresses, and whether there is no such name
(1) or no such record (2). -/
def denial (p : Answers) : Answers :=
  ⟨[], p.ns.filter fun r => r.type == 2 || r.type == 6, p.ar.filter Rec.isAddr, if p.kind = 1 then 1 else 2⟩

/-- A lifetime within bounds. -/
def within (lo hi t : Int) : Int := min hi (max lo (max 30 t))

end Spec
