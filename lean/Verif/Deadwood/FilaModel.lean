import Verif.Deadwood.StrModel
/-!
# The recency ring of the Deadwood cache at pointer level

Source: `/repo/deadwood-github/src/DwHash.c` lines 285-379.  `HashModel` uses a
list for the "fila"; this file models the circular doubly linked list itself.
Nodes are named by numbers (their addresses); `nx`/`lt` are the `next`/`last`
fields of all nodes, `head` is `hash->fila` (`none` = null pointer).
-/

namespace Dw

/-- The heap fields of `dw_fila` nodes and `hash->fila`, DwHash.h. -/
structure Fila where
  nx : Nat → Nat
  lt : Nat → Nat
  head : Option Nat

namespace Fila

/-- Assignment to one field of one node. -/
def upd (f : Nat → Nat) (a v : Nat) : Nat → Nat := fun x => if x = a then v else f x

/-- `dwh_fila_new`, DwHash.c:285-316 (`n` is the newly allocated node). -/
def new (r : Fila) (n : Nat) : Fila :=
  match r.head with
  | none => { nx := upd r.nx n n, lt := upd r.lt n n, head := some n }
  | some a =>
    let nx1 := upd r.nx n a          -- new->next = hash->fila
    let lt1 := upd r.lt n (r.lt a)   -- new->last = hash->fila->last
    let nx2 := upd nx1 (lt1 a) n     -- hash->fila->last->next = new
    let lt2 := upd lt1 a n           -- hash->fila->last = new
    { nx := nx2, lt := lt2, head := some n }

/-- The pointer part of `dwh_fila_zap`, DwHash.c:334-342. -/
def zap (r : Fila) (z : Nat) : Fila :=
  let change := r.nx z
  let nx1 := upd r.nx (r.lt z) change       -- zap->last->next = change
  let lt1 := upd r.lt change (r.lt z)       -- change->last = zap->last
  let head1 := if r.head = some z then some change else r.head
  let head2 := if head1 = some z then none else head1
  { nx := nx1, lt := lt1, head := head2 }

/-- `dwh_fila_fetch`, DwHash.c:354-379. -/
def fetch (r : Fila) (g : Nat) : Fila :=
  match r.head with
  | none => r
  | some a =>
    if g = a then r
    else
      let change := r.nx g
      let nx1 := upd r.nx (r.lt g) (r.nx g) -- get->last->next = get->next
      let lt1 := upd r.lt change (r.lt g)   -- change->last = get->last
      let lt2 := upd lt1 g (lt1 a)          -- get->last = hash->fila->last
      let nx2 := upd nx1 g a                -- get->next = hash->fila
      let nx3 := upd nx2 (lt2 a) g          -- hash->fila->last->next = get
      let lt3 := upd lt2 a g                -- hash->fila->last = get
      { nx := nx3, lt := lt3, head := some g }

/-- `hash->fila->last`, the eviction victim, DwHash.c:603. -/
def victim (r : Fila) : Option Nat := r.head.map r.lt

/-- Calls on the ring. -/
inductive Op where
  | new (n : Nat) | zap (n : Nat) | fetch (n : Nat)
deriving Repr, DecidableEq

/-- One call. -/
def step (r : Fila) : Op → Fila
  | .new n => r.new n
  | .zap n => r.zap n
  | .fetch n => r.fetch n

/-- A newly initialised hash has no ring, DwHash.c:272. -/
def empty : Fila := { nx := fun _ => 0, lt := fun _ => 0, head := none }

end Fila
end Dw
