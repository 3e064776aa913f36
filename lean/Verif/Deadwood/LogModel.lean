/-!
# Model: the log of Deadwood

DwSys.c:100-345, as it is for Unix (what is printed goes to the standard output).  The calls are a list; where in the program
they are made is outside.
-/

namespace Dw
namespace Log

/-- A byte of `dw_log_dwstr_p`, DwSys.c:126-153. -/
def escByte (q : UInt8) : List UInt8 :=
  if q ≥ 46 ∧ q ≤ 126 ∧ q ≠ 92 ∧ q ≠ 123 ∧ q ≠ 125 then [q]
  else if q = 45 then [q]
  else if q = 32 then [123, q, 125]
  else [92, UInt8.ofNat (48 + q.toNat / 64), UInt8.ofNat (48 + q.toNat / 8 % 8), UInt8.ofNat (48 + q.toNat % 8)]

/-- `%d` of a byte. -/
def dec (b : UInt8) : List UInt8 :=
  (if b ≥ 100 then [UInt8.ofNat (48 + b.toNat / 100)] else []) ++
    (if b ≥ 10 then [UInt8.ofNat (48 + b.toNat / 10 % 10)] else []) ++ [UInt8.ofNat (48 + b.toNat % 10)]

def hexDigit (n : Nat) : UInt8 := UInt8.ofNat (if n < 10 then 48 + n else 87 + n)

/-- `%02x` of a byte. -/
def hex (b : UInt8) : List UInt8 := [hexDigit (b.toNat / 16), hexDigit (b.toNat % 16)]

/-- `ip_addr_T`, DwSocket.h:97-106: the length is a byte of its own. -/
structure Ip where
  len : UInt8
  ip : List UInt8

/-- The bytes with one character behind each, and another one behind the last. -/
def joined (f : UInt8 → List UInt8) (sep : UInt8) : List UInt8 → List UInt8
  | [] => []
  | [b] => f b ++ [32]
  | b :: r => f b ++ sep :: joined f sep r

/-- `dw_log_ip_p`, DwSys.c:157-203; `none` is the null pointer. -/
def showIp : Option Ip → List UInt8
  | none => [40, 110, 117, 108, 108, 32, 73, 80, 41, 10]
  | some a =>
    if a.len = 4 then joined dec 46 (a.ip.take 4)
    else if a.len = 16 then joined hex 58 (a.ip.take 16)
    else [73, 80, 32, 111, 102, 32, 108, 101, 110, 103, 116, 104, 32] ++ dec a.len

/-- A call. -/
inductive Call
  /-- `dw_log_string` -/
  | text (s : List UInt8) (min : Int)
  /-- `dw_log_dwstr_str`, and `dw_log_dwstr` with nothing behind -/
  | bytes (front : List UInt8) (str : Option (List UInt8)) (back : List UInt8) (min : Int)
  /-- `dw_log_ip` -/
  | ip (front : List UInt8) (ip : Option Ip) (min : Int)
  /-- `dw_log_dwstrip` -/
  | dotted (front : List UInt8) (str : Option (List UInt8)) (min : Int)

/-- `dw_log_dwstr_p`, DwSys.c:101-155, without the level. -/
def showStr : Option (List UInt8) → List UInt8
  | none => [40, 110, 117, 108, 108, 32, 100, 119, 95, 115, 116, 114, 41]
  | some l => l.flatMap escByte

/-- The level from which on a call writes. -/
def Call.min : Call → Int
  | .text _ m => m
  | .bytes _ _ _ m => m
  | .ip _ _ m => m
  | .dotted _ _ m => m

/-- What a call writes if the level is high enough: DwSys.c:206-318. -/
def Call.body : Call → List UInt8
  | .text s _ => s ++ [10]
  | .bytes f s b _ => f ++ (showStr s ++ (b ++ [10]))
  | .ip f a _ => f ++ (32 :: (showIp a ++ [10]))
  | .dotted f s _ => f ++ ((s.getD []).flatMap (fun b => dec b ++ [46]) ++ [10])

/-- What a call writes; `level` is `verbose_level`. -/
def Call.write (level : Int) (c : Call) : List UInt8 := if level ≤ 0 ∨ level < c.min then [] else c.body

/-- The log of a sequence of calls. -/
def log (level : Int) (cs : List Call) : List UInt8 := cs.flatMap (Call.write level)

end Log
end Dw
