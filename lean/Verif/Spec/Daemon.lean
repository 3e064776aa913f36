/-!
# Specification: how a program ends (C128)
-/

namespace Spec
namespace Daemon

/-- How a program ends: with a code, or by a signal, perhaps leaving its memory behind. -/
inductive Ending where
  | code (c : Nat)
  | signal (s : Nat) (core : Bool)

/-- The endings there are. -/
def Ending.Ok : Ending → Prop
  | .code c => c < 256
  | .signal s _ => 1 ≤ s ∧ s < 127

/-- The number `waitpid` gives for an ending on Unix systems: the code in the second byte, or the signal in the first
one, with 128 added if memory was left behind. -/
def Ending.status : Ending → Nat
  | .code c => 256 * c
  | .signal s core => s + if core then 128 else 0

/-- The program wants to be started again: it ended with the code 8, or by the signal HUP. -/
def Ending.Again : Ending → Prop
  | .code c => c = 8
  | .signal s _ => s = 1

/-- The code duende itself ends with after any other ending. -/
def Ending.pass : Ending → Nat
  | .code c => c
  | .signal _ _ => 1

end Daemon
end Spec
