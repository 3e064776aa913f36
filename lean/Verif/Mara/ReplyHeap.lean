import Verif.Mara.ReplyFit
import Mathlib.Data.List.Perm.Subperm
/-!
# The records of the authoritative server: chains and what they hold

What is assumed about the records in memory (`Good`), and that following chains ends.
-/

namespace Mara
namespace Reply

open Spec
open Dw (Res)

/-- The node holds the record: name and type, class IN, time to live, data. -/
structure Holds (p : Node) (r : Rec) : Prop where
  query : p.query = encName r.name ++ be16 r.type
  type : p.type = r.type
  cls : r.cls = be16 1
  ttl : p.ttl = r.ttl
  data : p.data = r.rdata
  sound : r.Sound

/-- The records one gets to from a place. -/
inductive Chain (h : Heap) : Option Nat → List Nat → Prop
  | nil : Chain h none []
  | cons {i : Nat} {p : Node} {l : List Nat} : h[i]? = some p → Chain h p.next l → Chain h (some i) (i :: l)

/-- Records as the server has them in memory: `rec i` is the record at place `i`.  Records that are
chained have the same name and type, except that name servers follow them; only name servers follow
name servers.  Chains end. -/
structure Good (h : Heap) (rec : Nat → Rec) : Prop where
  holds : ∀ (i : Nat) (p : Node), h[i]? = some p → Holds p (rec i)
  next : ∀ (i : Nat) (p : Node) (j : Nat), h[i]? = some p → p.next = some j →
    ∃ q : Node, h[j]? = some q ∧ (p.type = 2 → q.type = 2) ∧ (q.type ≠ 2 → q.query = p.query)
  ip : ∀ (i : Nat) (p : Node) (j : Nat), h[i]? = some p → p.ip = some j → j < h.length
  ip6 : ∀ (i : Nat) (p : Node) (j : Nat), h[i]? = some p → p.ip6 = some j → j < h.length
  list : ∀ (i : Nat) (p : Node) (t j : Nat), h[i]? = some p → (t, some j) ∈ p.list → j < h.length
  ends : ∃ f : Nat → Nat, ∀ (i : Nat) (p : Node) (j : Nat), h[i]? = some p → p.next = some j → f j < f i

theorem Chain.unique {h : Heap} {i : Option Nat} {l l' : List Nat} (a : Chain h i l) (b : Chain h i l') : l = l' := by
  induction a generalizing l' with
  | nil => cases b; rfl
  | cons hp _ ih =>
    cases b with
    | cons hp' hc' =>
      rw [hp] at hp'
      cases hp'
      rw [ih hc']

theorem Good.chain {h : Heap} {rec : Nat → Rec} (g : Good h rec) : ∀ i, i < h.length → ∃ l, Chain h (some i) (i :: l) := by
  obtain ⟨f, hf⟩ := g.ends
  intro i
  induction hk : f i using Nat.strongRecOn generalizing i with
  | _ k ih =>
    intro hi
    have hp : h[i]? = some h[i] := List.getElem?_eq_getElem hi
    match hn : h[i].next with
    | none => exact ⟨[], .cons hp (by rw [hn]; exact .nil)⟩
    | some j =>
      obtain ⟨q, hq, -, -⟩ := g.next i _ j hp hn
      have hlt := hf i _ j hp hn
      obtain ⟨l, hl⟩ := ih (f j) (by omega) j rfl (by
        obtain ⟨hj, -⟩ := List.getElem?_eq_some_iff.1 hq; exact hj)
      exact ⟨j :: l, .cons hp (by rw [hn]; exact hl)⟩

/-- Also from nowhere. -/
theorem Good.chainOpt {h : Heap} {rec : Nat → Rec} (g : Good h rec) {o : Option Nat} (ho : ∀ j, o = some j → j < h.length) :
    ∃ l, Chain h o l := by
  match o with
  | none => exact ⟨[], .nil⟩
  | some j =>
    obtain ⟨l, hl⟩ := g.chain j (ho j rfl)
    exact ⟨_, hl⟩

theorem Chain.lt {h : Heap} {o : Option Nat} {l : List Nat} (c : Chain h o l) : ∀ j ∈ l, j < h.length := by
  induction c with
  | nil => intro j hj; cases hj
  | cons hp _ ih =>
    intro j hj
    rcases List.mem_cons.1 hj with rfl | hj
    · obtain ⟨hi, -⟩ := List.getElem?_eq_some_iff.1 hp; exact hi
    · exact ih j hj

theorem Chain.nodup {h : Heap} {rec : Nat → Rec} (g : Good h rec) {o : Option Nat} {l : List Nat} (c : Chain h o l) : l.Nodup := by
  obtain ⟨f, hf⟩ := g.ends
  have key : ∀ {o : Option Nat} {l : List Nat}, Chain h o l → ∀ i, o = some i → ∀ j ∈ l, f j ≤ f i := by
    intro o l c
    induction c with
    | nil => intro i hi; cases hi
    | @cons i p l hp hc ih =>
      intro i' hi' j hj
      cases hi'
      rcases List.mem_cons.1 hj with rfl | hj
      · omega
      · match hn : p.next with
        | none => rw [hn] at hc; cases hc; cases hj
        | some k =>
          have := ih k hn j hj
          have := hf i p k hp hn
          omega
  induction c with
  | nil => exact List.nodup_nil
  | @cons i p l hp hc ih =>
    refine List.nodup_cons.2 ⟨?_, ih⟩
    intro hi
    match hn : p.next with
    | none => rw [hn] at hc; cases hc; cases hi
    | some k =>
      have := key hc k hn i hi
      have := hf i p k hp hn
      omega

theorem Chain.length_le {h : Heap} {rec : Nat → Rec} (g : Good h rec) {o : Option Nat} {l : List Nat} (c : Chain h o l) :
    l.length ≤ h.length := by
  have hs : List.Subperm l (List.range h.length) :=
    (c.nodup g).subperm (fun j hj => List.mem_range.2 (c.lt j hj))
  simpa using hs.length_le

/-- The chain behind a record of a chain. -/
theorem Chain.suffix {h : Heap} {o : Option Nat} {pre l : List Nat} {i : Nat} (c : Chain h o (pre ++ i :: l)) : Chain h (some i) (i :: l) := by
  induction pre generalizing o with
  | nil => cases c with | cons hp hc => exact .cons hp hc
  | cons a pre ih => cases c with | cons hp hc => exact ih hc

/-- The bytes of a record as `udpsuccess` appends them. -/
theorem put_eq {p : Node} {r : Rec} (h : Holds p r) (max : Nat) (out : List UInt8) :
    put max out p = if out.length + r.toRR.enc.length ≥ max then none else some (out ++ r.toRR.enc) := by
  have e : r.toRR.enc = p.query ++ put16 1 ++ put32 p.ttl ++ put16 p.data.length ++ p.data := by
    unfold RR.enc Rec.toRR
    rw [h.query, h.ttl, h.data, h.cls]
    simp [put16_be16, put32, be32]
  rw [e]
  unfold put append
  simp only [List.length_append, Option.bind_eq_bind]
  by_cases h1 : out.length + p.query.length ≥ max
  · rw [if_pos h1, if_pos (by omega)]; rfl
  rw [if_neg h1]
  simp only [Option.bind_some, List.length_append]
  by_cases h2 : out.length + p.query.length + (put16 1).length ≥ max
  · rw [if_pos h2, if_pos (by omega)]; rfl
  rw [if_neg h2]
  simp only [Option.bind_some, List.length_append]
  by_cases h3 : out.length + p.query.length + (put16 1).length + (put32 p.ttl).length ≥ max
  · rw [if_pos h3, if_pos (by omega)]; rfl
  rw [if_neg h3]
  simp only [Option.bind_some, List.length_append]
  by_cases h4 : out.length + p.query.length + (put16 1).length + (put32 p.ttl).length + (put16 p.data.length).length ≥ max
  · rw [if_pos h4, if_pos (by omega)]; rfl
  rw [if_neg h4]
  simp only [Option.bind_some, List.length_append]
  by_cases h5 : out.length + p.query.length + (put16 1).length + (put32 p.ttl).length + (put16 p.data.length).length + p.data.length ≥ max
  · rw [if_pos h5, if_pos (by omega)]
  rw [if_neg h5, if_neg (by omega)]
  simp

end Reply
end Mara
