import Verif.Mara.DuendeModel
/-!
# Model of the loops of duende with its processes and signals

The processes are numbered in the order they are started.  `fork`, `pipe`, `kill` and `waitpid` do not fail here.
-/

namespace Mara
namespace Duende

/-- What duende knows and has done: the number of processes started, the two it looks after, the processes sent TERM or HUP,
those that ended, the two flags set by signals, and the code it ended with. -/
structure St where
  started : Nat
  pid : Nat
  logPid : Nat
  termed : List Nat
  huped : List Nat
  ended : List Nat
  hup : Bool
  term : Bool
  exit : Option Nat

/-- The top of the outer loop, tools/duende.c:206-244: the daemon and the logger are started. -/
def spawn (s : St) : St := { s with started := s.started + 2, pid := s.started, logPid := s.started + 1 }

/-- The start, tools/duende.c:199-206. -/
def begin : St := spawn ⟨0, 0, 0, [], [], [], false, false, none⟩

/-- `handle_child_exited` and what follows it, tools/duende.c:120-145 and 263-274. -/
def handle (s : St) (status alive exited : Nat) : St :=
  match afterEnd status with
  | .quit c =>
    if status % 256 = 127 then { s with termed := alive :: exited :: s.termed, exit := some c }
    else { s with termed := alive :: s.termed, exit := some c }
  | .restart => spawn { s with termed := alive :: s.termed }

/-- One round: signals that come to duende, and what `waitpid` gives. -/
structure Round where
  hup : Bool
  term : Bool
  wait : Option (Nat × Nat)

/-- `handle_hup` and `handle_term`, tools/duende.c:51-59: the flags are set.  Here signals come at the top of a round. -/
def flags (s : St) (r : Round) : St := { s with hup := s.hup || r.hup, term := s.term || r.term }

/-- `waitpid` and what follows it, tools/duende.c:262-279. -/
def reap (s : St) : Option (Nat × Nat) → St
  | none => s
  | some (w, status) =>
    let s := { s with ended := w :: s.ended }
    if w = s.pid then handle s status s.logPid s.pid
    else if w = s.logPid then handle s status s.pid s.logPid
    else s

/-- One round of the inner loop, tools/duende.c:245-280. -/
def round (s : St) (r : Round) : St :=
  if s.exit.isSome then s
  else
    let s := flags s r
    if s.hup then reap { s with huped := s.pid :: s.huped, hup := false } r.wait
    else if s.term then { s with termed := s.pid :: s.logPid :: s.termed, exit := some 0 }
    else reap s r.wait

/-- Rounds one after another. -/
def rounds (rs : List Round) : St := rs.foldl round begin

end Duende
end Mara
