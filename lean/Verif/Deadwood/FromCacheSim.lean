import Verif.Deadwood.FromCacheModel
import Verif.Deadwood.HashProps
/-!
# Programs on the cache: the hash and the abstract cache do the same
-/

namespace Dw
namespace FromCache
open Spec (Cache Entry)
open Cachespec

/-- Calls that are made while Deadwood runs: nothing is added for ever, and the clock is not before the
epoch. -/
def CalmOp : HOp → Prop
  | .put now _ _ _ => 0 ≤ now
  | .pin _ _ _ => False
  | _ => True

namespace Prog

/-- The program run on the abstract cache; `none` is undefined behaviour. -/
def spec {α : Type} : Prog α → Cache → Option (α × Cache)
  | ret a, c => some (a, c)
  | ub, _ => none
  | call op k, c => (k (step c op).1).spec (step c op).2

/-- Only such calls are made. -/
def Calm {α : Type} : Prog α → Prop
  | ret _ => True
  | ub => True
  | call op k => CalmOp op ∧ ∀ o, (k o).Calm

theorem spec_bind {α β : Type} (p : Prog α) (f : α → Prog β) : ∀ c : Cache,
    (p.bind f).spec c = (p.spec c).bind (fun x => (f x.1).spec x.2) := by
  induction p with
  | ret a => intro c; rfl
  | ub => intro c; rfl
  | call op k ih => intro c; exact ih _ _

theorem Calm.bind {α β : Type} {p : Prog α} {f : α → Prog β} (hf : ∀ a, (f a).Calm) : p.Calm → (p.bind f).Calm := by
  induction p with
  | ret a => intro _; exact hf a
  | ub => intro _; trivial
  | call op k ih => intro h; exact ⟨h.1, fun o => ih o (h.2 o)⟩

end Prog

/-- The sizes: less entries than the capacity, and no chain can become too long. -/
structure Book (c : Cache) : Prop where
  pos : 0 < c.cap
  short : c.lru.length < c.cap
  small : c.cap + c.perm.length ≤ 32000

theorem CalmOp.legal {op : HOp} (h : CalmOp op) (c : Cache) : LegalOp c op := by
  cases op <;> first | exact h | exact h.elim | trivial

theorem CalmOp.pins {op : HOp} (h : CalmOp op) : pins [op] = 0 := by
  cases op <;> first | rfl | exact h.elim

theorem Book.step {c : Cache} (b : Book c) {op : HOp} (h : CalmOp op) : Book (step c op).2 := by
  obtain ⟨h1, h2, h3, -⟩ := step_book c op ((c.lru ++ c.perm).map Entry.key) b.pos b.short
    (fun e he => List.mem_map_of_mem he)
  rw [h.pins] at h3
  have := b.small
  exact ⟨by rw [h1]; exact b.pos, by rw [h1]; exact h2, by rw [h1]; omega⟩

theorem short_of {hf : List UInt8 → Nat} {m : Nat} {h : Hash} {c : Cache} {es ps : List Elem}
    (R : Hash.Rel hf m h c es ps) (b : Book c) : h.Short := by
  have := b.short; have := b.small
  exact Hash.short_of_noFlood R (ks := (c.lru ++ c.perm).map Entry.key) (n := 32000) (noFlood_small (Nat.le_refl _))
    (fun e he => List.mem_map_of_mem he) (by omega)

theorem step_run {hf : List UInt8 → Nat} {m : Nat} {h : Hash} {c : Cache} {es ps : List Elem}
    (R : Hash.Rel hf m h c es ps) (b : Book c) {op : HOp} (hop : CalmOp op) :
    ∃ h' es' ps', h.step hf op = .ok ((step c op).1, h') ∧ Hash.Rel hf m h' (step c op).2 es' ps' ∧
      Book (step c op).2 := by
  obtain ⟨h', es', ps', e, R'⟩ := Hash.step_sim R (short_of R b) op (hop.legal c)
  exact ⟨h', es', ps', e, R', b.step hop⟩

/-- Hash and abstract cache give the same results. -/
theorem prog_run {hf : List UInt8 → Nat} {m : Nat} {α : Type} (p : Prog α) : ∀ {h : Hash} {c : Cache} {es ps : List Elem}
    (_ : Hash.Rel hf m h c es ps) (_ : Book c) (_ : p.Calm) {a : α} {c' : Cache} (_ : p.spec c = some (a, c')),
    ∃ h' es' ps', p.run hf h = .ok (a, h') ∧ Hash.Rel hf m h' c' es' ps' ∧ Book c' := by
  induction p with
  | ret a =>
    intro h c es ps R b _ a' c' hs
    cases hs
    exact ⟨h, es, ps, rfl, R, b⟩
  | ub => intro h c es ps _ _ _ a c' hs; cases hs
  | call op k ih =>
    intro h c es ps R b hp a c' hs
    obtain ⟨h1, es1, ps1, e, R1, b1⟩ := step_run R b hp.1
    obtain ⟨h2, es2, ps2, e2, R2, b2⟩ := ih (step c op).1 R1 b1 (hp.2 _) hs
    exact ⟨h2, es2, ps2, by simp only [Prog.run, e, e2], R2, b2⟩

/-- Events one after the other on the abstract cache. -/
def sessionS (cfg : Cfg) : List Event → Cache → Option (List Outcome × Cache)
  | [], c => some ([], c)
  | .ask now a :: es, c => ((reply cfg now a).spec c).bind fun x =>
    (sessionS cfg es x.2).map fun y => (x.1 :: y.1, y.2)
  | .op o :: es, c => sessionS cfg es (step c o).2

/-! ## The programs make such calls only -/

theorem calm_attempt {α β : Type} {r : Res α} {k : Option α → Prog β} (h : ∀ o, (k o).Calm) : (attempt r k).Calm := by
  cases r
  · exact h _
  · exact h _
  · trivial

theorem calm_look {β : Type} {now : Int} {key : List UInt8} {b : Bool} {k : Option (List UInt8) → Prog β}
    (h : ∀ o, (k o).Calm) : (look now key b k).Calm := by
  refine ⟨trivial, ?_⟩
  rintro (_ | v)
  · trivial
  · exact h _

theorem calm_ttl {β : Type} {now : Int} {key : List UInt8} {k : Int → Prog β}
    (h : ∀ o, (k o).Calm) : (ttl now key k).Calm := by
  refine ⟨trivial, ?_⟩
  rintro (_ | v)
  · exact h _
  · trivial

theorem calm_again {β : Type} {now : Int} (hn : 0 ≤ now) {key v : List UInt8} {k : Prog β} (h : k.Calm) :
    (again now key v k).Calm := ⟨hn, fun _ => h⟩

theorem calm_drop {β : Type} {key : List UInt8} {k : Prog β} (h : k.Calm) : (drop key k).Calm := ⟨trivial, fun _ => h⟩

theorem calm_turn (cfg : Cfg) {now : Int} (hn : 0 ≤ now) (key : List UInt8) (action : Nat) : (turn cfg now key action).Calm := by
  unfold turn
  split
  · refine calm_look ?_
    rintro (_ | v)
    · trivial
    · refine calm_attempt ?_
      rintro (_ | w)
      · trivial
      · refine calm_ttl fun t => ?_
        split
        · trivial
        · exact calm_again hn trivial
  · trivial

theorem calm_process (cfg : Cfg) {now : Int} (hn : 0 ≤ now) (key : List UInt8) (action : Nat) :
    (process cfg now key action).Calm := by
  unfold process
  refine calm_look ?_
  rintro (_ | v)
  · trivial
  · refine calm_attempt fun kind => ?_
    split
    · trivial
    · split
      · refine calm_ttl fun t => ?_
        split
        · trivial
        · refine calm_attempt ?_
          rintro (_ | w)
          · trivial
          · exact calm_again hn (calm_turn cfg hn key action)
      · exact calm_turn cfg hn key action

theorem calm_refuse (a : Ask) : (refuse a).Calm := by
  unfold refuse
  split
  · refine calm_attempt ?_
    rintro (_ | c) <;> trivial
  · trivial

theorem calm_deliver (cfg : Cfg) (a : Ask) (key : List UInt8) (comp : DwStr) : (deliver cfg a key comp).Calm := by
  unfold deliver
  split
  · exact calm_drop trivial
  · refine calm_attempt fun o => ?_
    split <;> trivial

theorem calm_found (cfg : Cfg) {now : Int} (hn : 0 ≤ now) (a : Ask) (q : DwStr) : (found cfg now a q).Calm := by
  unfold found
  refine Prog.Calm.bind (fun _ => calm_look ?_) (calm_process cfg hn _ _)
  rintro (_ | v)
  · trivial
  · refine calm_attempt fun kind => ?_
    split
    · exact calm_refuse a
    · split
      · refine calm_attempt ?_
        rintro (_ | c)
        · trivial
        · exact calm_deliver cfg a _ _
      · refine calm_drop (calm_attempt ?_)
        rintro (_ | c)
        · trivial
        · exact calm_deliver cfg a _ _

theorem calm_reply (cfg : Cfg) {now : Int} (hn : 0 ≤ now) (a : Ask) : (reply cfg now a).Calm := by
  unfold reply
  split
  · trivial
  · refine calm_attempt fun q => calm_attempt fun type => ?_
    split
    · trivial
    · split
      · refine calm_attempt ?_
        rintro (_ | q)
        · trivial
        · refine calm_look fun v => calm_attempt fun kind => calm_attempt ?_
          rintro (_ | q)
          · trivial
          · simp only
            split
            · exact calm_refuse a
            · exact calm_found cfg hn a q
      · exact calm_found cfg hn a _

/-- Events that happen while Deadwood runs. -/
def CalmEvent : Event → Prop
  | .ask now _ => 0 ≤ now
  | .op o => CalmOp o

/-- Hash and abstract cache give the same results over any events. -/
theorem session_run {hf : List UInt8 → Nat} {m : Nat} (cfg : Cfg) (evs : List Event) : ∀ {h : Hash} {c : Cache}
    {es ps : List Elem} (_ : Hash.Rel hf m h c es ps) (_ : Book c) (_ : ∀ ev ∈ evs, CalmEvent ev) {os : List Outcome}
    {c' : Cache} (_ : sessionS cfg evs c = some (os, c')),
    ∃ h' es' ps', session hf cfg evs h = .ok (os, h') ∧ Hash.Rel hf m h' c' es' ps' ∧ Book c' := by
  induction evs with
  | nil =>
    intro h c es ps R b _ os c' hs
    cases hs
    exact ⟨h, es, ps, rfl, R, b⟩
  | cons ev evs ih =>
    intro h c es ps R b hc os c' hs
    have hc0 := hc ev (by simp)
    have hc1 := fun x hx => hc x (List.mem_cons_of_mem _ hx)
    cases ev with
    | ask now a =>
      rw [sessionS, Option.bind_eq_some_iff] at hs
      obtain ⟨⟨o, c1⟩, e1, hs⟩ := hs
      rw [Option.map_eq_some_iff] at hs
      obtain ⟨⟨os1, c2⟩, e2, hs⟩ := hs
      cases hs
      obtain ⟨h1, es1, ps1, f1, R1, b1⟩ := prog_run _ R b (calm_reply cfg hc0 a) e1
      obtain ⟨h2, es2, ps2, f2, R2, b2⟩ := ih R1 b1 hc1 e2
      exact ⟨h2, es2, ps2, by simp only [session, f1, Res.ok_bind, f2], R2, b2⟩
    | op o =>
      obtain ⟨h1, es1, ps1, f1, R1, b1⟩ := step_run R b hc0
      obtain ⟨h2, es2, ps2, f2, R2, b2⟩ := ih R1 b1 hc1 hs
      exact ⟨h2, es2, ps2, by simp only [session, f1, Res.ok_bind, f2], R2, b2⟩

theorem sessionS_append (cfg : Cfg) (a b : List Event) : ∀ c : Cache, sessionS cfg (a ++ b) c =
    (sessionS cfg a c).bind fun x => (sessionS cfg b x.2).map fun y => (x.1 ++ y.1, y.2) := by
  induction a with
  | nil => intro c; simp [sessionS]
  | cons ev a ih =>
    intro c
    cases ev with
    | ask now q =>
      simp only [List.cons_append, sessionS]
      cases (reply cfg now q).spec c with
      | none => rfl
      | some x =>
        simp only [Option.bind_some, ih]
        cases sessionS cfg a x.2 with
        | none => rfl
        | some y =>
          simp only [Option.bind_some, Option.map_some]
          cases sessionS cfg b y.2 <;> rfl
    | op o => simp only [List.cons_append, sessionS, ih]

theorem marks_spec : ∀ (l : List (List UInt8 × List UInt8)) {c : Cache} (_ : c.lru = []),
    Legal c (l.map fun x => HOp.pin 0 x.1 x.2) ∧ (run c (l.map fun x => HOp.pin 0 x.1 x.2)).2.lru = [] ∧
    (run c (l.map fun x => HOp.pin 0 x.1 x.2)).2.cap = c.cap ∧
    (run c (l.map fun x => HOp.pin 0 x.1 x.2)).2.perm.length ≤ c.perm.length + l.length ∧
    (∀ e ∈ (run c (l.map fun x => HOp.pin 0 x.1 x.2)).2.perm, e ∈ c.perm ∨ (e.key, e.val) ∈ l) ∧
    (∀ e ∈ c.perm, e ∈ (run c (l.map fun x => HOp.pin 0 x.1 x.2)).2.perm) ∧
    ∀ x ∈ l, (Cache.find (run c (l.map fun x => HOp.pin 0 x.1 x.2)).2.perm x.1).isSome := by
  intro l
  induction l with
  | nil => intro c h; exact ⟨trivial, h, rfl, Nat.le_refl _, fun e he => Or.inl he, fun e he => he, by simp⟩
  | cons x l ih =>
    intro c h
    have hstep : ∃ c', (step c (HOp.pin 0 x.1 x.2)).2 = c' ∧ c'.lru = [] ∧ c'.cap = c.cap ∧
        c'.perm.length ≤ c.perm.length + 1 ∧ (∀ e ∈ c'.perm, e ∈ c.perm ∨ (e.key, e.val) = x) ∧
        (∀ e ∈ c.perm, e ∈ c'.perm) ∧ ∃ e ∈ c'.perm, e.key = x.1 := by
      simp only [step, Cache.pin]
      split
      · next hp =>
        refine ⟨_, rfl, ?_⟩
        split at hp
        · cases hp
        · cases hp
          exact ⟨h, rfl, by simp, fun e he => by
            rcases List.mem_cons.1 he with rfl | he
            · exact Or.inr rfl
            · exact Or.inl he, fun e he => List.mem_cons_of_mem _ he, _, List.mem_cons_self, rfl⟩
      · next hp =>
        refine ⟨_, rfl, ?_⟩
        split at hp
        · next hs =>
          obtain ⟨e, he⟩ := Option.isSome_iff_exists.1 hs
          obtain ⟨he1, he2⟩ := find_some_mem he
          exact ⟨h, rfl, by simp, fun e he => Or.inl he, fun e he => he, e, he1, he2⟩
        · cases hp
    obtain ⟨c', e, g1, g2, g3, g4, g5, e0, g6, g7⟩ := hstep
    obtain ⟨i1, i2, i3, i4, i5, i6, i7⟩ := ih g1
    simp only [List.map_cons, Legal, run, e]
    refine ⟨⟨by simp [LegalOp, h, Cache.find], i1⟩, i2, i3.trans g2, by simp; omega, ?_, fun e he => i6 e (g5 e he), ?_⟩
    · intro e he
      rcases i5 e he with h1 | h1
      · rcases g4 e h1 with h2 | h2
        · exact Or.inl h2
        · exact Or.inr (by rw [h2]; simp)
      · exact Or.inr (List.mem_cons_of_mem _ h1)
    · intro y hy
      rcases List.mem_cons.1 hy with rfl | hy
      · by_contra hn
        rw [Option.not_isSome_iff_eq_none, find_eq_none] at hn
        exact hn e0 (i6 _ g6) g7
      · exact i7 y hy

/-- After start-up, when entries that stay for ever (`marks`) have been added. -/
theorem start_run {hf : List UInt8 → Nat} (cs n : Nat) (marks : List (List UInt8 × List UInt8))
    (hn : (Hash.init cs n).max + marks.length ≤ 32000) :
    ∃ outs h c es ps, (Hash.init cs n).run hf (marks.map fun x => HOp.pin 0 x.1 x.2) = .ok (outs, h) ∧
      Hash.Rel hf (Hash.init cs n).mask h c es ps ∧ Book c ∧ KN c ∧ c.cap = (Hash.init cs n).max ∧ c.lru = [] ∧
      (∀ e ∈ c.perm, (e.key, e.val) ∈ marks) ∧ (∀ x ∈ marks, (Cache.find c.perm x.1).isSome) ∧
      c.perm.length ≤ marks.length := by
  obtain ⟨i1, i2, i3, i4, i5, -, i7⟩ := marks_spec marks (c := fresh0 cs n) rfl
  have hp : pins (marks.map fun x => HOp.pin 0 x.1 x.2) = marks.length := by
    clear i1 i2 i3 i4 i5 i7 hn
    induction marks with
    | nil => rfl
    | cons x l ih => simp [pins, ih]
  have g : Good hf cs n (marks.map fun x => HOp.pin 0 x.1 x.2) :=
    ⟨noFlood_small (by rw [hp]; exact hn), i1⟩
  obtain ⟨h, es, ps, e, R, hl, -, -⟩ := g.sim
  refine ⟨_, h, _, es, ps, e, R, ⟨?_, ?_, ?_⟩, (KN.empty _).run i1, i3, i2, ?_, i7, ?_⟩
  · rw [i3]; exact Hash.max_pos cs n
  · rw [i3]; exact hl
  · rw [i3]; simp only [List.length_nil] at i4; change (Hash.init cs n).max + _ ≤ _; omega
  · intro e he
    rcases i5 e he with h1 | h1
    · simp at h1
    · exact h1
  · simpa using i4

end FromCache
end Dw
