import Verif.Mara.ReplyTotal
import Verif.Spec.Reply
/-!
# Lemmas: which records a reply shows
-/

namespace Mara
namespace Reply

open Spec
open Dw (Res)

/-- The part of a chain before the name servers. -/
def front (rec : Nat → Rec) (l : List Nat) : List Nat := l.takeWhile fun i => (rec i).type != 2

/-- What holds while records are put into a reply: `n` answers and name servers so far, with `gs` as the
groups of their addresses. -/
structure Puts (cfg : Cfg) (n : Nat) (gs : List (List Nat)) (a : Acc) : Prop where
  total : a.total = n + a.ar.length
  most : a.total ≤ cfg.maxTotal
  seen : a.seen = (a.ar.take 250).reverse
  once : cfg.maxTotal ≤ 250 → a.ar.Nodup
  from_ : ∀ j ∈ a.ar, ∃ g ∈ gs, j ∈ g
  each : ∀ g ∈ gs, (∀ j ∈ g, j ∈ a.ar) ∨ cfg.maxAr ≤ g.countP (· ∈ a.ar) ∨ a.total = cfg.maxTotal
  many : a.ar.length ≤ cfg.maxAr * gs.length

/-- What addresses for one more record change. -/
structure Adds (cfg : Cfg) (rec : Nat → Rec) (l : List Nat) (cnt : Nat) (a a' : Acc) : Prop where
  an : a'.an = a.an
  ns : a'.ns = a.ns
  pre : a.ar <+: a'.ar
  total : a'.total + a.ar.length = a.total + a'.ar.length
  most : a.total ≤ cfg.maxTotal → a'.total ≤ cfg.maxTotal
  seen : a.seen = (a.ar.take 250).reverse → a'.seen = (a'.ar.take 250).reverse
  once : cfg.maxTotal ≤ 250 → a.ar.length ≤ a.total → a.total ≤ cfg.maxTotal → a.seen = (a.ar.take 250).reverse → a.ar.Nodup → a'.ar.Nodup
  from_ : ∀ j ∈ a'.ar, j ∈ a.ar ∨ j ∈ front rec l
  each : a.total ≤ cfg.maxTotal → a.seen = (a.ar.take 250).reverse →
    (∀ j ∈ front rec l, j ∈ a'.ar) ∨ cfg.maxAr - cnt ≤ (front rec l).countP (· ∈ a'.ar) ∨ a'.total = cfg.maxTotal
  many : a'.ar.length ≤ a.ar.length + (cfg.maxAr - cnt)

theorem Adds.same {cfg : Cfg} {rec : Nat → Rec} {l : List Nat} {cnt : Nat} {a : Acc}
    (h : a.total ≤ cfg.maxTotal → front rec l = [] ∨ cnt ≥ cfg.maxAr ∨ a.total = cfg.maxTotal) : Adds cfg rec l cnt a a where
  an := rfl
  ns := rfl
  pre := List.prefix_rfl
  total := rfl
  most := id
  seen := id
  once := fun _ _ _ _ h => h
  from_ := fun _ h => .inl h
  each := by
    intro h1 _
    rcases h h1 with h | h | h
    · left; rw [h]; simp
    · right; left; omega
    · right; right; exact h
  many := by omega

theorem front_cons {rec : Nat → Rec} {i : Nat} (l : List Nat) (h : (rec i).type ≠ 2) : front rec (i :: l) = i :: front rec l := by
  unfold front; simp [h]

theorem front_stop {rec : Nat → Rec} {i : Nat} (l : List Nat) (h : (rec i).type = 2) : front rec (i :: l) = [] := by
  unfold front; simp [h]

theorem addrsA_adds (cfg : Cfg) (rec : Nat → Rec) : ∀ (l : List Nat) (cnt : Nat) (a : Acc), Adds cfg rec l cnt a (addrsA cfg rec l cnt a)
  | [], cnt, a => Adds.same (fun _ => .inl rfl)
  | i :: l, cnt, a => by
    unfold addrsA
    by_cases h1 : (rec i).type = 2
    · rw [if_pos h1]
      exact Adds.same (fun _ => .inl (front_stop l h1))
    rw [if_neg h1]
    by_cases h2 : i ∈ a.seen
    · rw [if_pos h2]
      have ih := addrsA_adds cfg rec l cnt a
      refine ⟨ih.an, ih.ns, ih.pre, ih.total, ih.most, ih.seen, ih.once, ?_, ?_, ih.many⟩
      · intro j hj
        rw [front_cons l h1]
        rcases ih.from_ j hj with h | h
        · exact .inl h
        · exact .inr (List.mem_cons_of_mem i h)
      · intro ht hs
        have hi : i ∈ (addrsA cfg rec l cnt a).ar := by
          rw [hs, List.mem_reverse] at h2
          exact ih.pre.subset (List.mem_of_mem_take h2)
        rw [front_cons l h1]
        rcases ih.each ht hs with h | h | h
        · left
          intro j hj
          rcases List.mem_cons.1 hj with rfl | hj
          · exact hi
          · exact h j hj
        · right; left
          rw [List.countP_cons]
          omega
        · right; right; exact h
    rw [if_neg h2]
    by_cases h3 : cnt ≥ cfg.maxAr ∨ a.total ≥ cfg.maxTotal
    · rw [if_pos h3]
      exact Adds.same (by intro ht; right; omega)
    rw [if_neg h3]
    have ih := addrsA_adds cfg rec l (cnt + 1)
      { a with ar := a.ar ++ [i], total := a.total + 1, seen := if a.seen.length < 250 then i :: a.seen else a.seen }
    have hpre : i ∈ (addrsA cfg rec l (cnt + 1)
      { a with ar := a.ar ++ [i], total := a.total + 1, seen := if a.seen.length < 250 then i :: a.seen else a.seen }).ar :=
      ih.pre.subset (by simp)
    have hseen : a.seen = (a.ar.take 250).reverse →
        (if a.seen.length < 250 then i :: a.seen else a.seen) = ((a.ar ++ [i]).take 250).reverse := by
      intro hs
      rw [hs, List.length_reverse, List.length_take]
      by_cases h : a.ar.length < 250
      · rw [if_pos (by omega), List.take_of_length_le (by omega), List.take_of_length_le (by simp; omega)]
        simp
      · rw [if_neg (by omega), List.take_append_of_le_length (by omega)]
    refine ⟨ih.an, ih.ns, (List.prefix_append a.ar [i]).trans ih.pre, ?_, ?_, ?_, ?_, ?_, ?_, ?_⟩
    · have := ih.total
      simp only [List.length_append, List.length_singleton] at this
      omega
    · intro h
      exact ih.most (by simp only; omega)
    · intro h
      exact ih.seen (hseen h)
    · intro hm hle ht hs hnd
      refine ih.once hm (by simp; omega) (by simp only; omega) (hseen hs) ?_
      simp only
      rw [List.nodup_append]
      refine ⟨hnd, by simp, ?_⟩
      rintro x hx y hy rfl
      simp only [List.mem_singleton] at hy
      subst hy
      apply h2
      rw [hs, List.mem_reverse, List.take_of_length_le (by omega)]
      exact hx
    · intro j hj
      rw [front_cons l h1]
      rcases ih.from_ j hj with h | h
      · simp only [List.mem_append, List.mem_singleton] at h
        rcases h with h | rfl
        · exact .inl h
        · exact .inr (by simp)
      · exact .inr (List.mem_cons_of_mem i h)
    · intro ht hs
      rw [front_cons l h1]
      rcases ih.each (by simp only; omega) (hseen hs) with h | h | h
      · left
        intro j hj
        rcases List.mem_cons.1 hj with rfl | hj
        · exact hpre
        · exact h j hj
      · right; left
        rw [List.countP_cons, if_pos (decide_eq_true hpre)]
        omega
      · right; right; exact h
    · have := ih.many
      simp only [List.length_append, List.length_singleton] at this
      omega

/-- The groups of addresses of a record. -/
def groups (cfg : Cfg) (rec : Nat → Rec) (h : Heap) (i : Nat) : List (List Nat) :=
  match h[i]? with
  | none => []
  | some p => if p.type = 5 then [] else front rec (chainOf h p.ip) :: if cfg.v6 then [front rec (chainOf h p.ip6)] else []

/-- The records an alias leads to. -/
def aliases (rec : Nat → Rec) (h : Heap) (t i : Nat) : List Nat :=
  match h[i]? with
  | none => []
  | some p => if p.type = 5 then lead rec t 100 (chainOf h (onList t p.list)) else []

/-- One group of addresses. -/
theorem Puts.group {cfg : Cfg} {rec : Nat → Rec} {n : Nat} {gs : List (List Nat)} {a : Acc} (l : List Nat)
    (hp : Puts cfg n gs a) : Puts cfg n (gs ++ [front rec l]) (addrsA cfg rec l 0 a) := by
  have had := addrsA_adds cfg rec l 0 a
  have hpre := had.pre.length_le
  have ht := had.total
  have hm := had.most hp.most
  refine ⟨?_, hm, had.seen hp.seen, fun h => had.once h (by have := hp.total; omega) hp.most hp.seen (hp.once h), ?_, ?_, ?_⟩
  · have := hp.total; omega
  · intro j hj
    rcases had.from_ j hj with h | h
    · obtain ⟨g, hg, hjg⟩ := hp.from_ j h
      exact ⟨g, by simp [hg], hjg⟩
    · exact ⟨_, by simp, h⟩
  · intro g hg
    rcases List.mem_append.1 hg with hg | hg
    · rcases hp.each g hg with h | h | h
      · exact .inl fun j hj => had.pre.subset (h j hj)
      · right; left
        refine Nat.le_trans h (List.countP_mono_left ?_)
        intro j _ hj
        exact decide_eq_true (had.pre.subset (of_decide_eq_true hj))
      · right; right; omega
    · simp only [List.mem_singleton] at hg
      subst hg
      exact had.each hp.most hp.seen
  · have := had.many
    have := hp.many
    rw [List.length_append, Nat.mul_add]
    simp only [List.length_singleton]
    omega

theorem addrsA_an (cfg : Cfg) (rec : Nat → Rec) (l : List Nat) (cnt : Nat) (a : Acc) : (addrsA cfg rec l cnt a).an = a.an :=
  (addrsA_adds cfg rec l cnt a).an

/-- One record. -/
theorem entryH_puts {cfg : Cfg} {rec : Nat → Rec} {h : Heap} (hg : Good h rec) {t n i : Nat} {inNs : Bool} {gs : List (List Nat)} {a : Acc}
    (hi : i < h.length) (hp : Puts cfg n gs a) (hlt : a.total < cfg.maxTotal) (h5 : inNs = true → (rec i).type = 2) :
    Puts cfg (n + 1) (gs ++ groups cfg rec h i) (entryH cfg rec h t inNs i a) ∧
    (entryH cfg rec h t inNs i a).an = (if inNs then a.an else a.an ++ i :: aliases rec h t i) ∧
    (entryH cfg rec h t inNs i a).ns = (if inNs then a.ns ++ [i] else a.ns) := by
  have hq : h[i]? = some h[i] := List.getElem?_eq_getElem hi
  have hty := (hg.holds i _ hq).type
  unfold entryH groups aliases
  rw [hq]
  simp only
  unfold entryA
  simp only
  rw [hty]
  have hp1 : ∀ an ns, Puts cfg (n + 1) gs { a with total := a.total + 1, an := an, ns := ns } := by
    intro an ns
    refine ⟨by have := hp.total; simp only; omega, by simp only; omega, hp.seen, hp.once, hp.from_, ?_, hp.many⟩
    intro g hg
    rcases hp.each g hg with h | h | h
    · exact .inl h
    · exact .inr (.inl h)
    · omega
  by_cases h55 : (rec i).type = 5
  · rw [if_pos h55, if_pos h55, if_pos h55]
    have hin : inNs = false := by
      cases hb : inNs with
      | false => rfl
      | true => have := h5 hb; omega
    subst hin
    refine ⟨?_, ?_, ?_⟩
    · rw [List.append_nil]; exact hp1 _ _
    · simp
    · simp
  · rw [if_neg h55, if_neg h55, if_neg h55]
    refine ⟨?_, ?_, ?_⟩
    · cases cfg.v6
      · simp only [Bool.false_eq_true, if_false]
        exact (hp1 _ _).group _
      · simp only [if_true]
        have := ((hp1 (if inNs then a.an else a.an ++ [i]) (if inNs then a.ns ++ [i] else a.ns)).group (rec := rec) (chainOf h h[i].ip)).group (rec := rec) (chainOf h h[i].ip6)
        rw [List.append_assoc] at this
        exact this
    · split <;> simp only [addrsA_an] <;> cases inNs <;> simp
    · split <;> simp only [addrsA_ns]

/-- A section. -/
theorem sectA_puts {cfg : Cfg} {rec : Nat → Rec} {h : Heap} (hg : Good h rec) {t : Nat} {inNs on : Bool} :
    ∀ (l : List Nat) (cnt n : Nat) (gs : List (List Nat)) (a : Acc), (∀ i ∈ l, i < h.length) → (inNs = true → ∀ i ∈ l, (rec i).type = 2) →
    cnt ≤ cfg.maxChain → Puts cfg n gs a →
    ∃ k, k ≤ l.length ∧ cnt + k ≤ cfg.maxChain ∧ (on = false → k = 0) ∧
      Puts cfg (n + k) (gs ++ (l.take k).flatMap (groups cfg rec h)) (sectA cfg rec h t inNs on l cnt a) ∧
      (sectA cfg rec h t inNs on l cnt a).an = (if inNs then a.an else a.an ++ (l.take k).flatMap fun i => i :: aliases rec h t i) ∧
      (sectA cfg rec h t inNs on l cnt a).ns = (if inNs then a.ns ++ l.take k else a.ns) ∧
      (on = true → k = l.length ∨ cnt + k = cfg.maxChain ∨ (sectA cfg rec h t inNs on l cnt a).total = cfg.maxTotal)
  | [], cnt, n, gs, a, _, _, hc, hp => by
    refine ⟨0, by simp, hc, fun _ => rfl, ?_, ?_, ?_, fun _ => .inl rfl⟩
    · simpa [sectA] using hp
    · simp [sectA]
    · simp [sectA]
  | i :: l, cnt, n, gs, a, hl, hty, hc, hp => by
    unfold sectA
    by_cases hgo : cnt < cfg.maxChain ∧ a.total < cfg.maxTotal ∧ on = true
    · rw [if_pos hgo]
      obtain ⟨p1, p2, p3⟩ := entryH_puts (t := t) (inNs := inNs) hg (hl i (by simp)) hp hgo.2.1 (fun h => hty h i (by simp))
      obtain ⟨k, k1, k2, k3, k4, k5, k6, k7⟩ := sectA_puts hg (t := t) (inNs := inNs) (on := on) l (cnt + 1) (n + 1) _ _
        (fun j hj => hl j (List.mem_cons_of_mem i hj)) (fun h j hj => hty h j (List.mem_cons_of_mem i hj)) (by omega) p1
      refine ⟨k + 1, by simp; omega, by omega, ?_, ?_, ?_, ?_, ?_⟩
      · intro h; rw [hgo.2.2] at h; cases h
      · rw [List.take_succ_cons, List.flatMap_cons, ← List.append_assoc, show n + (k + 1) = n + 1 + k by omega]
        exact k4
      · rw [k5, p2, List.take_succ_cons, List.flatMap_cons]
        cases inNs <;> simp
      · rw [k6, p3, List.take_succ_cons]
        cases inNs <;> simp
      · intro h
        rcases k7 h with h | h | h
        · left; simp only [List.length_cons]; omega
        · right; left; omega
        · right; right; exact h
    · rw [if_neg hgo]
      -- once at the limit, nothing more is shown
      have stay : ∀ m : List Nat, sectA cfg rec h t inNs on m cnt a = a := by
        intro m
        induction m with
        | nil => rfl
        | cons x m ih =>
          unfold sectA
          rw [if_neg hgo]; exact ih
      rw [stay l]
      refine ⟨0, by simp, hc, fun _ => rfl, ?_, ?_, ?_, ?_⟩
      · simpa using hp
      · simp
      · simp
      · intro hon
        right
        have := hp.most
        by_cases h : cnt < cfg.maxChain
        · right
          have : ¬a.total < cfg.maxTotal := fun h' => hgo ⟨h, h', hon⟩
          omega
        · left; omega

/-- What the reply to a question goes by. -/
def source (cfg : Cfg) (rec : Nat → Rec) (h : Heap) (t : Nat) (on : Bool) (as nss : List Nat) (first : Nat) : Source where
  chain := cfg.maxChain
  total := cfg.maxTotal
  addrs := cfg.maxAr
  tellNs := on
  answers := as
  servers := nss
  leads := aliases rec h t
  hosts := fun i => groups cfg rec (if i ∈ as then h else (after cfg t h as nss first).1) i

theorem flatMap_congr' {l : List Nat} {f g : Nat → List (List Nat)} (h : ∀ i ∈ l, f i = g i) : l.flatMap f = l.flatMap g := by
  induction l with
  | nil => rfl
  | cons x l ih =>
    rw [List.flatMap_cons, List.flatMap_cons, h x (by simp), ih (fun i hi => h i (List.mem_cons_of_mem x hi))]

theorem flatMap_length_le {l : List Nat} {f : Nat → List (List Nat)} {k : Nat} (h : ∀ i, (f i).length ≤ k) : (l.flatMap f).length ≤ k * l.length := by
  induction l with
  | nil => simp
  | cons x l ih =>
    rw [List.flatMap_cons, List.length_append, List.length_cons, Nat.mul_add]
    have := h x
    omega

/-- The lists the loop comes to are what a reply is to show. -/
theorem shown {cfg : Cfg} {rec : Nat → Rec} {h : Heap} {t first : Nat} {on : Bool} {as nss : List Nat} (hg : Good h rec)
    (hc : Chain h (some first) (as ++ nss)) (hp : Parts h t as nss) :
    ∃ a b, (source cfg rec h t on as nss first).Shown a b
      (sectA cfg rec (after cfg t h as nss first).1 t true on nss 0 (sectA cfg rec h t false true as 0 {})).an
      (sectA cfg rec (after cfg t h as nss first).1 t true on nss 0 (sectA cfg rec h t false true as 0 {})).ns
      (sectA cfg rec (after cfg t h as nss first).1 t true on nss 0 (sectA cfg rec h t false true as 0 {})).ar := by
  obtain ⟨hg', hc'⟩ := after_good (cfg := cfg) hg hc hp
  have hnd := hc.nodup hg
  have p0 : Puts cfg 0 [] {} := ⟨rfl, by simp, rfl, by simp, by simp, by simp, by simp⟩
  obtain ⟨a, a1, a2, -, a4, a5, a6, a7⟩ := sectA_puts hg (cfg := cfg) (t := t) (inNs := false) (on := true) as 0 0 [] {}
    (fun i hi => hc.lt i (by simp [hi])) (by simp) (by omega) p0
  obtain ⟨b, b1, b2, b3, b4, b5, b6, b7⟩ := sectA_puts hg' (cfg := cfg) (t := t) (inNs := true) (on := on) nss 0 _ _ _
    (fun i hi => hc'.lt i (by simp [hi])) (by
      intro _ i hi
      obtain ⟨q, hq⟩ : ∃ q : Node, h[i]? = some q := ⟨_, List.getElem?_eq_getElem (hc.lt i (by simp [hi]))⟩
      rw [← (hg.holds i _ hq).type]
      rcases hp with ⟨-, hn⟩ | ⟨-, -, hN⟩
      · rw [hn] at hi; cases hi
      · exact hN i hi _ hq) (by omega) a4
  refine ⟨a, b, ?_⟩
  have hle := (sectA_le cfg rec (after cfg t h as nss first).1 t true on nss 0 (sectA cfg rec h t false true as 0 {})).ar.length_le
  generalize sectA cfg rec (after cfg t h as nss first).1 t true on nss 0 (sectA cfg rec h t false true as 0 {}) = A at *
  generalize hB : sectA cfg rec h t false true as 0 {} = B at *
  have htot := b4.total
  have hmost := b4.most
  have hgs : as.take a ++ nss.take b = as.take a ++ nss.take b := rfl
  have e : [] ++ (as.take a).flatMap (groups cfg rec h) ++ (nss.take b).flatMap (groups cfg rec (after cfg t h as nss first).1) =
      (as.take a ++ nss.take b).flatMap (source cfg rec h t on as nss first).hosts := by
    rw [List.nil_append, List.flatMap_append]
    congr 1
    · apply flatMap_congr'
      intro i hi
      show _ = groups cfg rec (if i ∈ as then h else _) i
      rw [if_pos (List.mem_of_mem_take hi)]
    · apply flatMap_congr'
      intro i hi
      show _ = groups cfg rec (if i ∈ as then h else _) i
      rw [if_neg]
      intro hm
      rw [List.nodup_append] at hnd
      exact hnd.2.2 i hm i (List.mem_of_mem_take hi) rfl
  have hBle : B.total ≤ A.total := by
    have h1 := a4.total; have h2 := b4.total; omega
  rw [e] at b4
  refine ⟨?_, ?_, ?_, ?_, ?_, ?_, ?_, ?_, ?_, ?_, ?_⟩
  · rw [b5, a5]; simp; rfl
  · rw [b6, a6]; simp; rfl
  · exact ⟨a1, by simpa [source] using a2, b1, by simpa [source] using b2⟩
  · show a + b + A.ar.length ≤ cfg.maxTotal
    omega
  · exact b3
  · show a = as.length ∨ a = cfg.maxChain ∨ b = 0 ∧ a + A.ar.length = cfg.maxTotal
    rcases a7 rfl with h | h | h
    · exact .inl h
    · right; left; omega
    · right; right; have := a4.total; omega
  · intro hon
    show b = nss.length ∨ b = cfg.maxChain ∨ a + b + A.ar.length = cfg.maxTotal
    rcases b7 hon with h | h | h
    · exact .inl h
    · right; left; omega
    · right; right; omega
  · intro j hj
    obtain ⟨g, hgm, hjg⟩ := b4.from_ j hj
    obtain ⟨i, hi, hgi⟩ := List.mem_flatMap.1 hgm
    exact ⟨i, hi, g, hgi, hjg⟩
  · intro i hi g hgi
    show _ ∨ cfg.maxAr ≤ _ ∨ a + b + A.ar.length = cfg.maxTotal
    rcases b4.each g (List.mem_flatMap.2 ⟨i, hi, hgi⟩) with h | h | h
    · exact .inl h
    · exact .inr (.inl h)
    · right; right; omega
  · exact b4.once
  · intro k hk
    have h1 := b4.many
    have h2 := flatMap_length_le (l := as.take a ++ nss.take b) hk
    have h3 : (as.take a ++ nss.take b).length = a + b := by simp; omega
    rw [h3] at h2
    show A.ar.length ≤ k * cfg.maxAr * (a + b)
    calc A.ar.length ≤ cfg.maxAr * ((as.take a ++ nss.take b).flatMap (source cfg rec h t on as nss first).hosts).length := h1
      _ ≤ cfg.maxAr * (k * (a + b)) := Nat.mul_le_mul_left _ h2
      _ = k * cfg.maxAr * (a + b) := by rw [← Nat.mul_assoc, Nat.mul_comm cfg.maxAr k]

end Reply
end Mara
