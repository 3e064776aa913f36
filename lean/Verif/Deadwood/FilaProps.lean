import Verif.Deadwood.FilaModel
import Mathlib.Data.List.Nodup
import Mathlib.Tactic.SplitIfs
/-! # The recency ring implements a list (C50) -/

namespace Dw
namespace Fila

/-- Consecutive nodes point at each other. -/
def Path (nx lt : Nat → Nat) : List Nat → Prop
  | a :: b :: l => nx a = b ∧ lt b = a ∧ Path nx lt (b :: l)
  | _ => True

/-- A cyclic doubly linked list through the given (non-empty) nodes. -/
def Cyc (nx lt : Nat → Nat) (l : List Nat) : Prop :=
  ∃ h : l ≠ [], Path nx lt l ∧ nx (l.getLast h) = l.head h ∧ lt (l.head h) = l.getLast h

theorem path_congr {nx lt nx' lt' : Nat → Nat} : ∀ {l : List Nat}, Path nx lt l →
    (∀ x ∈ l.dropLast, nx' x = nx x) → (∀ x ∈ l.tail, lt' x = lt x) → Path nx' lt' l
  | [], _, _, _ => trivial
  | [_], _, _, _ => trivial
  | a :: b :: l, h, h1, h2 => by
    refine ⟨?_, ?_, path_congr h.2.2 ?_ ?_⟩
    · rw [h1 a (by simp)]; exact h.1
    · rw [h2 b (by simp)]; exact h.2.1
    · intro x hx; exact h1 x (by rw [List.dropLast_cons_of_ne_nil (by simp)]; simp [hx])
    · intro x hx; exact h2 x (by simp only [List.tail_cons] at hx ⊢; simp [hx])

theorem path_append {nx lt : Nat → Nat} : ∀ {a b : List Nat} (ha : a ≠ []) (hb : b ≠ []),
    Path nx lt (a ++ b) ↔ Path nx lt a ∧ Path nx lt b ∧ nx (a.getLast ha) = b.head hb ∧
      lt (b.head hb) = a.getLast ha
  | [x], y :: b, _, _ => by simp [Path]; tauto
  | x :: y :: a, b, _, hb => by
    have ih := path_append (nx := nx) (lt := lt) (a := y :: a) (b := b) (by simp) hb
    simp only [List.cons_append] at ih
    simp only [List.cons_append, Path, ih]
    simp only [List.getLast_cons (List.cons_ne_nil y a)]
    tauto

/-- A cycle can be read from any starting point. -/
theorem cyc_rotate {nx lt : Nat → Nat} {a b : List Nat} : Cyc nx lt (a ++ b) → Cyc nx lt (b ++ a) := by
  rintro ⟨h, hp, h1, h2⟩
  by_cases ha : a = []
  · subst ha; simp at h h1 h2 hp ⊢; exact ⟨h, hp, h1, h2⟩
  by_cases hb : b = []
  · subst hb; simp at h h1 h2 hp ⊢; exact ⟨h, hp, h1, h2⟩
  rw [path_append ha hb] at hp
  rw [List.getLast_append_of_ne_nil _ hb, List.head_append_of_ne_nil ha] at h1 h2
  refine ⟨by simp [hb], (path_append hb ha).2 ⟨hp.2.1, hp.1, h1, h2⟩, ?_, ?_⟩
  · rw [List.getLast_append_of_ne_nil _ ha, List.head_append_of_ne_nil hb]; exact hp.2.2.1
  · rw [List.getLast_append_of_ne_nil _ ha, List.head_append_of_ne_nil hb]; exact hp.2.2.2

theorem getLast_not_mem_dropLast {l : List Nat} (hn : l.Nodup) (h : l ≠ []) :
    l.getLast h ∉ l.dropLast := by
  have := hn
  rw [← List.dropLast_append_getLast h, List.nodup_append] at this
  intro hm
  exact this.2.2 _ hm _ (by simp) rfl

/-- Inserting a node before `a`. -/
theorem cyc_insert {nx lt : Nat → Nat} {a n : Nat} {t : List Nat} (hc : Cyc nx lt (a :: t))
    (hn : (n :: a :: t).Nodup) :
    Cyc (upd (upd nx n a) ((upd lt n (lt a)) a) n) (upd (upd lt n (lt a)) a n) (n :: a :: t) := by
  obtain ⟨_, hp, h1, h2⟩ := hc
  simp only [List.head_cons] at h1 h2
  have hna : n ≠ a := by simp at hn; tauto
  have hnl : n ∉ a :: t := (List.nodup_cons.1 hn).1
  have hnd : (a :: t).Nodup := (List.nodup_cons.1 hn).2
  have hz : (upd lt n (lt a)) a = (a :: t).getLast (by simp) := by
    simp [upd, Ne.symm hna, h2]
  rw [hz]
  have hlast : (a :: t).getLast (by simp) ≠ n := fun h => hnl (h ▸ List.getLast_mem _)
  refine ⟨by simp, ⟨?_, ?_, ?_⟩, ?_, ?_⟩
  · simp [upd, Ne.symm hlast]
  · simp [upd]
  · refine path_congr hp ?_ ?_
    · intro x hx
      have h3 : x ≠ (a :: t).getLast (by simp) :=
        fun h => getLast_not_mem_dropLast hnd (by simp) (h ▸ hx)
      have h4 : x ≠ n := fun h => hnl (h ▸ List.dropLast_subset _ hx)
      simp [upd, h3, h4]
    · intro x hx
      simp only [List.tail_cons] at hx
      have h3 : x ≠ a := fun h => (List.nodup_cons.1 hnd).1 (h ▸ hx)
      have h4 : x ≠ n := fun h => hnl (h ▸ List.mem_cons_of_mem _ hx)
      simp [upd, h3, h4]
  · simp only [List.getLast_cons (List.cons_ne_nil a t), List.head_cons]
    simp [upd]
  · simp only [List.getLast_cons (List.cons_ne_nil a t), List.head_cons]
    simp [upd, hna, h2]

/-- Removing a node from a cycle of at least two. -/
theorem cyc_remove {nx lt : Nat → Nat} {z c : Nat} {t : List Nat} (hc : Cyc nx lt (z :: c :: t))
    (hn : (z :: c :: t).Nodup) :
    Cyc (upd nx (lt z) (nx z)) (upd lt (nx z) (lt z)) (c :: t) := by
  obtain ⟨_, ⟨hz, _, hp⟩, _, h2⟩ := hc
  simp only [List.head_cons, List.getLast_cons (List.cons_ne_nil c t)] at h2
  have hnd : (c :: t).Nodup := (List.nodup_cons.1 hn).2
  rw [h2, hz]
  refine ⟨by simp, path_congr hp ?_ ?_, ?_, ?_⟩
  · intro x hx
    have h3 : x ≠ (c :: t).getLast (by simp) :=
      fun h => getLast_not_mem_dropLast hnd (by simp) (h ▸ hx)
    simp [upd, h3]
  · intro x hx
    simp only [List.tail_cons] at hx
    have h3 : x ≠ c := fun h => (List.nodup_cons.1 hnd).1 (h ▸ hx)
    simp [upd, h3]
  · simp [upd]
  · simp [upd]

/-- The ring represents the list `l` (most recent first). -/
structure Repr (r : Fila) (l : List Nat) : Prop where
  head : r.head = l.head?
  nodup : l.Nodup
  cyc : l ≠ [] → Cyc r.nx r.lt l

/-- **C50.** A new node goes to the front of the represented list. -/
theorem repr_new {r : Fila} {l : List Nat} (h : Repr r l) {n : Nat} (hn : n ∉ l) :
    Repr (r.new n) (n :: l) := by
  cases l with
  | nil =>
    have : r.head = none := h.head
    refine ⟨by simp [new, this], by simp, fun _ => ⟨by simp, trivial, ?_, ?_⟩⟩ <;>
      simp [new, this, upd]
  | cons a t =>
    have hh : r.head = some a := h.head
    have hnd : (n :: a :: t).Nodup := List.nodup_cons.2 ⟨hn, h.nodup⟩
    refine ⟨by simp [new, hh], hnd, fun _ => ?_⟩
    simp only [new, hh]
    exact cyc_insert (h.cyc (by simp)) hnd

/-- **C50.** Removing a node removes exactly it from the represented list. -/
theorem repr_zap {r : Fila} {l : List Nat} (h : Repr r l) {z : Nat} (hz : z ∈ l) :
    Repr (r.zap z) (l.erase z) := by
  obtain ⟨A, B, hl, hzA⟩ := List.eq_append_cons_of_mem hz
  have hnd := h.nodup
  have her : l.erase z = A ++ B := by
    rw [hl, List.erase_append_right _ hzA, List.erase_cons_head]
  have hcyc : Cyc r.nx r.lt (z :: (B ++ A)) := by
    have := h.cyc (List.ne_nil_of_mem hz)
    rw [hl] at this
    simpa using cyc_rotate this
  have hnd2 : (z :: (B ++ A)).Nodup := by
    rw [hl] at hnd
    have : (A ++ z :: B).Perm (z :: (B ++ A)) :=
      List.perm_middle.trans ((List.perm_append_comm).cons z)
    exact this.nodup_iff.1 hnd
  have hnd3 : (A ++ B).Nodup := by
    have := (List.nodup_cons.1 hnd2).2
    exact (List.perm_append_comm).nodup_iff.1 this
  rw [her]
  cases hC : B ++ A with
  | nil =>
    have hB : B = [] := by simp at hC; tauto
    have hA : A = [] := by simp at hC; tauto
    subst hA; subst hB
    have hh : r.head = some z := by rw [h.head, hl]; rfl
    rw [hC] at hcyc
    obtain ⟨_, _, h1, h2⟩ := hcyc
    simp at h1 h2
    refine ⟨?_, by simp, by simp⟩
    simp [zap, hh, h1]
  | cons c t =>
    have hcyc' := hcyc
    rw [hC] at hcyc' hnd2
    have hrem := cyc_remove hcyc' hnd2
    rw [← hC] at hrem
    refine ⟨?_, hnd3, fun _ => cyc_rotate hrem⟩
    have hzc : z ≠ c := by simp at hnd2; tauto
    have hnxz : r.nx z = c := by obtain ⟨_, ⟨h1, _⟩, _⟩ := hcyc'; exact h1
    cases A with
    | nil =>
      have hh : r.head = some z := by rw [h.head, hl]; rfl
      simp at hC
      subst hC
      simp [zap, hh, hnxz, Ne.symm hzc]
    | cons a A' =>
      have hh : r.head = some a := by rw [h.head, hl]; rfl
      have haz : a ≠ z := fun hx => hzA (by simp [hx])
      simp [zap, hh, haz]

/-- **C50.** Using a node moves it to the front of the represented list. -/
theorem repr_fetch {r : Fila} {l : List Nat} (h : Repr r l) {g : Nat} (hg : g ∈ l) :
    Repr (r.fetch g) (g :: l.erase g) := by
  cases l with
  | nil => simp at hg
  | cons a t =>
    have hh : r.head = some a := h.head
    by_cases hga : g = a
    · subst hga
      simp only [fetch, hh, if_true, List.erase_cons_head]
      exact h
    · have hz := repr_zap h hg
      have her : (a :: t).erase g = a :: t.erase g := by
        rw [List.erase_cons_tail]; simpa using Ne.symm hga
      rw [her] at hz ⊢
      have hnotin : g ∉ a :: t.erase g := by
        rw [← her]; exact h.nodup.not_mem_erase
      have hi := cyc_insert (hz.cyc (by simp)) (List.nodup_cons.2 ⟨hnotin, hz.nodup⟩)
      refine ⟨by simp [fetch, hh, hga], List.nodup_cons.2 ⟨hnotin, hz.nodup⟩, fun _ => ?_⟩
      have hcomm : ∀ (f : Nat → Nat) (v w : Nat) , upd (upd f g v) g w = upd f g w := by
        intro f v w; funext x; simp only [upd]; split_ifs <;> rfl
      simp only [fetch, hh, if_neg hga]
      simpa [zap] using hi

/-- **C50.** The node evicted is the last of the represented list. -/
theorem repr_victim {r : Fila} {l : List Nat} (h : Repr r l) : r.victim = l.getLast? := by
  cases l with
  | nil => simp [victim, h.head]
  | cons a t =>
    obtain ⟨_, _, _, h2⟩ := h.cyc (by simp)
    simp only [List.head_cons] at h2
    rw [victim, h.head]
    simp only [List.head?_cons, Option.map_some, h2, List.getLast?_eq_getLast_of_ne_nil (List.cons_ne_nil a t)]

/-- The list operations the ring is meant to perform. -/
def listStep (l : List Nat) : Op → List Nat
  | .new n => n :: l
  | .zap n => l.erase n
  | .fetch n => n :: l.erase n

/-- Calls as the cache makes them: new nodes are not in the ring, the others are. -/
def Allowed (l : List Nat) : List Op → Prop
  | [] => True
  | .new n :: ops => n ∉ l ∧ Allowed (listStep l (.new n)) ops
  | .zap n :: ops => n ∈ l ∧ Allowed (listStep l (.zap n)) ops
  | .fetch n :: ops => n ∈ l ∧ Allowed (listStep l (.fetch n)) ops

/-- **C50.** After any sequence of calls the ring is a well-formed circular
doubly linked list representing exactly the list computed by front insertion,
removal and move-to-front, and its victim is the last of that list. -/
theorem ring_is_list (ops : List Op) (h : Allowed [] ops) :
    Repr (ops.foldl step empty) (ops.foldl listStep []) ∧
    (ops.foldl step empty).victim = (ops.foldl listStep []).getLast? := by
  have key : ∀ (ops : List Op) (r : Fila) (l : List Nat), Repr r l → Allowed l ops →
      Repr (ops.foldl step r) (ops.foldl listStep l) := by
    intro ops
    induction ops with
    | nil => intro r l h _; exact h
    | cons op ops ih =>
      intro r l h ha
      cases op with
      | new n => exact ih _ _ (repr_new h ha.1) ha.2
      | zap n => exact ih _ _ (repr_zap h ha.1) ha.2
      | fetch n => exact ih _ _ (repr_fetch h ha.1) ha.2
  have hr := key ops empty [] ⟨rfl, by simp, by simp⟩ h
  exact ⟨hr, repr_victim hr⟩

example : Allowed [] [.new 1, .new 2, .fetch 1, .new 3, .zap 2, .fetch 3, .zap 3, .zap 1] := by
  simp [Allowed, listStep]

example : (([.new 1, .new 2, .fetch 1, .new 3] : List Op).foldl step empty).victim = some 2 := by
  decide

end Fila
end Dw
