/-!
# Model of `tools/duende.c`

What the process that logs makes of the output of the program, and what is done when the program ends.  Processes, signals
sent to duende itself, and the system log are not in the model.
-/

namespace Mara
namespace Duende

/-- `fgets`, with room for `n` bytes: what is read and what is left. -/
def fgets : Nat → List UInt8 → List UInt8 × List UInt8
  | 0, r => ([], r)
  | _ + 1, [] => ([], [])
  | n + 1, b :: r => if b = 10 then ([b], r) else (b :: (fgets n r).1, (fgets n r).2)

/-- The loop of `log_helper`, tools/duende.c:98-108: the messages given to `syslog`.  `"%s"` stops at a null.  `f` bounds the
number of messages.  At the end of the output the loop goes on without logging. -/
def messages : Nat → List UInt8 → List (List UInt8)
  | 0, _ => []
  | _ + 1, [] => []
  | f + 1, s => (fgets 1019 s).1.takeWhile (· != 0) :: messages f (fgets 1019 s).2

/-- All messages for an output. -/
def logged (s : List UInt8) : List (List UInt8) := messages s.length s

/-- What is done after an ending. -/
inductive Deed where
  | restart
  | quit (code : Nat)
deriving DecidableEq

/-- `handle_child_exited`, tools/duende.c:120-145, with the macros of `sys/wait.h`: `WIFEXITED`, `WEXITSTATUS`,
`WIFSIGNALED`, `WTERMSIG`, `WIFSTOPPED`. -/
def afterEnd (status : Nat) : Deed :=
  if status % 128 = 0 ∧ status / 256 % 256 ≠ 8 then .quit (status / 256 % 256)
  else if (status % 128 ≠ 0 ∧ status % 128 ≠ 127) ∧ status % 128 ≠ 1 then .quit 1
  else if status % 256 = 127 then .quit 2
  else .restart

/-- The outer loop of `main`, tools/duende.c:206-282, for the statuses of the program one after another: how often the
program is started, and the code duende ends with, if it does.  Only endings of the program are in this model, not those
of the process that logs. -/
def supervise : List Nat → Nat × Option Nat
  | [] => (1, none)
  | s :: r =>
    match afterEnd s with
    | .quit c => (1, some c)
    | .restart => ((supervise r).1 + 1, (supervise r).2)

end Duende
end Mara
