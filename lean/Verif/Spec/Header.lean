/-!
# DNS message header (RFC 1035 4.1.1, with the AD and CD bits of RFC 2535)
-/

namespace Spec

structure Header where
  id : Fin 65536
  qr : Bool
  opcode : Fin 16
  aa : Bool
  tc : Bool
  rd : Bool
  ra : Bool
  z : Bool
  ad : Bool
  cd : Bool
  rcode : Fin 16
  qdcount : Fin 65536
  ancount : Fin 65536
  nscount : Fin 65536
  arcount : Fin 65536
deriving DecidableEq

def bitVal (b : Bool) (v : Nat) : Nat := if b then v else 0

def word (n : Fin 65536) : List UInt8 := [UInt8.ofNat (n.val / 256), UInt8.ofNat n.val]

/-- First byte of the flags. -/
def flags1 (qr : Bool) (opcode : Fin 16) (aa tc rd : Bool) : UInt8 :=
  UInt8.ofNat (bitVal qr 128 + opcode.val * 8 + bitVal aa 4 + bitVal tc 2 + bitVal rd 1)

/-- Second byte of the flags. -/
def flags2 (ra z ad cd : Bool) (rcode : Fin 16) : UInt8 :=
  UInt8.ofNat (bitVal ra 128 + bitVal z 64 + bitVal ad 32 + bitVal cd 16 + rcode.val)

def Header.enc (h : Header) : List UInt8 :=
  word h.id ++ [flags1 h.qr h.opcode h.aa h.tc h.rd, flags2 h.ra h.z h.ad h.cd h.rcode] ++
    word h.qdcount ++ word h.ancount ++ word h.nscount ++ word h.arcount

end Spec
