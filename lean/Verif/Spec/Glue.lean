import Verif.Spec.Packed
import Verif.Spec.Packet
/-!
# Specification: which address of an answer is used for a server that is known by its name

Independent of the model.
-/

namespace Spec

/-- Has the record an address? -/
def RR.address (r : RR) : Bool := r.type == 1 || r.type == 28

/-- The records with addresses among as many of the last records as there are in the answer section, at most sixteen; from the
last one on. -/
def Packed.addresses (p : Packed) : List RR := (p.all.reverse.take (min p.an.length 16)).filter RR.address

/-- The IPv4 address used, if the random number is `rnd`. -/
def Packed.pick (p : Packed) (rnd : Nat) : Option (List UInt8) :=
  match p.addresses[rnd % p.addresses.length]? with
  | some r => if r.type = 1 then some (r.rdata.take 4) else none
  | none => none

/-- A server in a list of servers: its address, or its name. -/
inductive NsHost where
  | addr (a : List UInt8)
  | named (n : List (List UInt8))
deriving Repr, DecidableEq

/-- As it is written in the list: the type (A, AAAA or NS), then the address, or the length of the name and the name. -/
def NsHost.enc : NsHost → List UInt8
  | .addr a => (if a.length = 4 then 1 else 28) :: a
  | .named n => 2 :: (be16 (encName n).length ++ encName n)

/-- Addresses have 4 or 16 bytes; names are names. -/
def NsHost.Ok : NsHost → Prop
  | .addr a => a.length = 4 ∨ a.length = 16
  | .named n => NameOk n

end Spec
