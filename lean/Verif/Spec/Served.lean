import Verif.Spec.Message
/-!
# Specification: an answer that is given again and again

Independent of the model: the order and the time to live of the records.
-/

namespace Spec
namespace Answers

/-- The next order of the records: aliases in front stay, and the first other record goes to the end.
Only if there are no authority and no additional records, and not for the types Deadwood reserves. -/
def turned (p : Answers) : Answers :=
  if p.ns ≠ [] ∨ p.ar ≠ [] then p
  else match p.an.dropWhile (fun r => r.type == 5) with
    | r :: q :: post =>
      if reserved r.type then p
      else { p with an := p.an.takeWhile (fun r => r.type == 5) ++ (q :: post) ++ [r] }
    | _ => p

/-- The order after `n` turns. -/
def turnedBy : Nat → Answers → Answers
  | 0, p => p
  | n + 1, p => (turnedBy n p).turned

/-- The answer records with the time to live `t`. -/
def withTtl (p : Answers) (t : Nat) : Answers := { p with an := p.an.map fun r => { r with ttl := t } }

/-- The answer `p` when it is given for the `n`th time with `left` seconds to live: `turns` tells whether
the order changes from time to time, and `ages` whether the time to live is what is left (at least five
seconds). -/
def given (turns ages : Bool) (n left : Nat) (p : Answers) : Answers :=
  let p := if turns then p.turnedBy n else p
  if ages then p.withTtl (max 5 left) else p

end Answers
end Spec
