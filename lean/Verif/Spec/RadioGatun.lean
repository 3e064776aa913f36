/-!
# RadioGatun[32]

After Bertoni, Daemen, Peeters, Van Assche, "RadioGatún, a belt-and-mill hash
function" (2006), with 32-bit words: a belt of 13 stages of 3 words and a mill of 19
words.
-/

namespace Spec
namespace RG

structure State where
  belt : Fin 13 → Fin 3 → UInt32
  mill : Fin 19 → UInt32

def zero : State := ⟨fun _ _ => 0, fun _ => 0⟩

/-- Rotation to the right by `r` places. -/
def rotr (x : UInt32) (r : Nat) : UInt32 := ⟨x.toBitVec.rotateRight r⟩

/-- Nonlinearity. -/
def gamma (a : Fin 19 → UInt32) : Fin 19 → UInt32 := fun i => a i ^^^ (a (i + 1) ||| ~~~ a (i + 2))
/-- Dispersion inside and between words. -/
def piRho (a : Fin 19 → UInt32) : Fin 19 → UInt32 := fun i => rotr (a (7 * i)) (i.val * (i.val + 1) / 2)
/-- Diffusion. -/
def theta (a : Fin 19 → UInt32) : Fin 19 → UInt32 := fun i => a i ^^^ a (i + 1) ^^^ a (i + 4)
/-- Asymmetry. -/
def iota (a : Fin 19 → UInt32) : Fin 19 → UInt32 := fun i => if i = 0 then a i ^^^ 1 else a i

def millFn (a : Fin 19 → UInt32) : Fin 19 → UInt32 := iota (theta (piRho (gamma a)))

/-- The word that the mill feeds to place `(stage, row)` of the belt: word `stage` goes
to row `(stage - 1) mod 3`, for stages 1 to 12. -/
def feed (a : Fin 19 → UInt32) (s : Fin 13) (r : Fin 3) : UInt32 :=
  if 1 ≤ s.val ∧ (s.val - 1) % 3 = r.val then a ⟨s.val, by omega⟩ else 0

/-- The round function. -/
def round (s : State) : State where
  belt st row := s.belt (st - 1) row ^^^ feed s.mill st row
  mill i := millFn s.mill i ^^^
    (if h : 13 ≤ i.val ∧ i.val < 16 then s.belt 12 ⟨i.val - 13, by omega⟩ else 0)

/-- Input of a block of three words. -/
def input (s : State) (p : Fin 3 → UInt32) : State where
  belt st row := if st = 0 then s.belt st row ^^^ p row else s.belt st row
  mill i := if h : 16 ≤ i.val then s.mill i ^^^ p ⟨i.val - 16, by omega⟩ else s.mill i

/-- Little-endian word. -/
def le32 (l : List UInt8) : UInt32 :=
  UInt32.ofNat ((l.getD 0 0).toNat + (l.getD 1 0).toNat * 256 + (l.getD 2 0).toNat * 65536 +
    (l.getD 3 0).toNat * 16777216)

/-- The blocks of a message: a byte 1 is appended, then zero bytes up to a multiple of
12 bytes. -/
def blocks (msg : List UInt8) : List (List UInt8) :=
  if msg.length < 12 then [msg ++ 1 :: List.replicate (11 - msg.length) 0]
  else msg.take 12 :: blocks (msg.drop 12)
termination_by msg.length

/-- The three words of a block. -/
def blockWords (b : List UInt8) : Fin 3 → UInt32 := fun r => le32 (b.drop (4 * r.val))

/-- Input of the whole message. -/
def absorb (s : State) (msg : List UInt8) : State :=
  (blocks msg).foldl (fun s b => round (input s (blockWords b))) s

def rounds : Nat → State → State
  | 0, s => s
  | n + 1, s => rounds n (round s)

/-- The state after input and the 16 blank rounds. -/
def start (msg : List UInt8) : State := rounds 16 (absorb zero msg)

/-- Bytes of a word, least significant first. -/
def leBytes (w : UInt32) : List UInt8 :=
  [UInt8.ofNat w.toNat, UInt8.ofNat (w.toNat / 256), UInt8.ofNat (w.toNat / 65536), UInt8.ofNat (w.toNat / 16777216)]

/-- The eight output bytes number `n`: words 1 and 2 of the mill after `n + 1` more
rounds. -/
def outBytes (msg : List UInt8) (n : Nat) : List UInt8 :=
  leBytes ((rounds (n + 1) (start msg)).mill 1) ++ leBytes ((rounds (n + 1) (start msg)).mill 2)

/-- Byte number `k` of the output stream. -/
def outByte (msg : List UInt8) (k : Nat) : UInt8 := (outBytes msg (k / 8)).getD (k % 8) 0

end RG
end Spec
