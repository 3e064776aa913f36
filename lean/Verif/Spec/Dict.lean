/-!
# Specification: a dictionary

A dictionary with strings for keys, and what its operations answer.
-/

namespace Dict

variable {ν : Type}

/-- What is asked of a dictionary; `grow` may be asked for at any time and changes nothing that
can be seen. -/
inductive Op (ν : Type) where
  | put (k : List UInt8) (v : ν)
  | get (k : List UInt8)
  | remove (k : List UInt8)
  | grow

/-- What it answers. -/
inductive Ans (ν : Type) where
  | done
  | refused
  | value (v : Option ν)

/-- One operation. -/
def step (m : List UInt8 → Option ν) : Op ν → Ans ν × (List UInt8 → Option ν)
  | .put k v => if (m k).isSome then (.refused, m) else (.done, fun x => if x = k then some v else m x)
  | .get k => (.value (m k), m)
  | .remove k => (.value (m k), fun x => if x = k then none else m x)
  | .grow => (.done, m)

/-- A sequence of operations on a dictionary: the answers. -/
def run : (List UInt8 → Option ν) → List (Op ν) → List (Ans ν)
  | _, [] => []
  | m, o :: l => (step m o).1 :: run (step m o).2 l

/-- The number of entries asked to be put in. -/
def puts : List (Op ν) → Nat
  | [] => 0
  | .put _ _ :: l => puts l + 1
  | _ :: l => puts l

end Dict
