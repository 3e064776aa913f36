import Verif.Mara.ReplyHeap
/-!
# Lemmas: the records of a reply, without the strings they are written to
-/

namespace Mara
namespace Reply

open Spec
open Dw (Res)

/-- The places of the records shown in each section. -/
structure Acc where
  an : List Nat := []
  ns : List Nat := []
  ar : List Nat := []
  seen : List Nat := []
  total : Nat := 0

/-- Records one after another. -/
def enc (rec : Nat → Rec) (l : List Nat) : List UInt8 := (l.map fun i => (rec i).toRR).flatMap RR.enc

theorem enc_append (rec : Nat → Rec) (l m : List Nat) : enc rec (l ++ m) = enc rec l ++ enc rec m := by
  unfold enc; simp

theorem enc_one (rec : Nat → Rec) (i : Nat) : enc rec [i] = (rec i).toRR.enc := by
  unfold enc; simp

/-- `addrs` on the chain it follows. -/
def addrsA (cfg : Cfg) (rec : Nat → Rec) : List Nat → Nat → Acc → Acc
  | [], _, a => a
  | i :: l, cnt, a =>
    if (rec i).type = 2 then a
    else if i ∈ a.seen then addrsA cfg rec l cnt a
    else if cnt ≥ cfg.maxAr ∨ a.total ≥ cfg.maxTotal then a
    else addrsA cfg rec l (cnt + 1)
      { a with ar := a.ar ++ [i], total := a.total + 1, seen := if a.seen.length < 250 then i :: a.seen else a.seen }

/-- The records of a type at the start of a chain, at most `n`. -/
def lead (rec : Nat → Rec) (t : Nat) (n : Nat) (l : List Nat) : List Nat := (l.takeWhile fun i => (rec i).type == t).take n

/-- `entry`: `als`, `v4` and `v6` are the chains of the alias and of the addresses. -/
def entryA (cfg : Cfg) (rec : Nat → Rec) (t : Nat) (inNs : Bool) (i : Nat) (als v4 v6 : List Nat) (a : Acc) : Acc :=
  let a := { a with total := a.total + 1, an := if inNs then a.an else a.an ++ [i], ns := if inNs then a.ns ++ [i] else a.ns }
  if (rec i).type = 5 then { a with an := a.an ++ lead rec t 100 als }
  else
    let a := addrsA cfg rec v4 0 a
    if cfg.v6 then addrsA cfg rec v6 0 a else a

/-- What is written so far is what the lists say. -/
structure Sim (rec : Nat → Rec) (base : List UInt8) (s : St) (a : Acc) : Prop where
  most : s.most = base ++ enc rec a.an ++ enc rec a.ns
  ar : s.ar = enc rec a.ar
  an : s.an = a.an.length
  ns : s.ns = a.ns.length
  arc : s.arc = a.ar.length
  seen : s.seen = a.seen
  total : s.total = a.total
  ok : s.bad = false

/-- It fits the strings. -/
def Room (rec : Nat → Rec) (base : List UInt8) (a : Acc) : Prop :=
  (base ++ enc rec a.an ++ enc rec a.ns).length < 1024 ∧ (enc rec a.ar).length < 5000

/-- A step does what the lists say, or fails because a string is too small. -/
def Step (rec : Nat → Rec) (base : List UInt8) (s : St) (a : Acc) (r : Res St) : Prop :=
  ∃ s', r = .ok s' ∧ s'.heap = s.heap ∧ s'.head = s.head ∧
    ((Sim rec base s' a ∧ Room rec base a) ∨ (s'.bad = true ∧ ¬Room rec base a))

/-- There is more in `b` than in `a`. -/
structure Le (a b : Acc) : Prop where
  an : a.an <+: b.an
  ns : a.ns <+: b.ns
  ar : a.ar <+: b.ar

theorem Le.refl (a : Acc) : Le a a := ⟨List.prefix_rfl, List.prefix_rfl, List.prefix_rfl⟩

theorem Le.trans {a b c : Acc} (h : Le a b) (h' : Le b c) : Le a c :=
  ⟨h.an.trans h'.an, h.ns.trans h'.ns, h.ar.trans h'.ar⟩

theorem enc_prefix (rec : Nat → Rec) {l m : List Nat} (h : l <+: m) : (enc rec l).length ≤ (enc rec m).length := by
  obtain ⟨x, rfl⟩ := h
  rw [enc_append, List.length_append]; omega

theorem Le.room {rec : Nat → Rec} {base : List UInt8} {a b : Acc} (h : Le a b) (hr : Room rec base b) : Room rec base a := by
  have h1 := enc_prefix rec h.an
  have h2 := enc_prefix rec h.ns
  have h3 := enc_prefix rec h.ar
  unfold Room at *
  simp only [List.length_append] at *
  omega

theorem addrsA_le (cfg : Cfg) (rec : Nat → Rec) : ∀ (l : List Nat) (cnt : Nat) (a : Acc), Le a (addrsA cfg rec l cnt a)
  | [], _, a => Le.refl a
  | i :: l, cnt, a => by
    unfold addrsA
    split
    · exact Le.refl a
    · split
      · exact addrsA_le cfg rec l cnt a
      · split
        · exact Le.refl a
        · refine Le.trans ?_ (addrsA_le cfg rec l _ _)
          exact ⟨List.prefix_rfl, List.prefix_rfl, List.prefix_append _ _⟩

theorem addrs_step {cfg : Cfg} {rec : Nat → Rec} {base : List UInt8} : ∀ (l : List Nat) (n : Nat) (o : Option Nat) (cnt : Nat) (s : St) (a : Acc),
    Good s.heap rec → Chain s.heap o l → l.length < n → Sim rec base s a → Room rec base a →
    Step rec base s (addrsA cfg rec l cnt a) (addrs cfg n o cnt s)
  | [], n, o, cnt, s, a, _, hc, hn, hs, hr => by
    cases hc
    match n with
    | n + 1 => exact ⟨s, rfl, rfl, rfl, .inl ⟨hs, hr⟩⟩
  | i :: l, n + 1, o, cnt, s, a, hg, hc, hn, hs, hr => by
    cases hc with
    | @cons _ p _ hp hc =>
      have hh := hg.holds i p hp
      unfold addrs addrsA deref
      rw [hp]
      simp only [Res.ok_bind]
      rw [hh.type]
      by_cases h1 : (rec i).type = 2
      · rw [if_pos h1, if_pos h1]; exact ⟨s, rfl, rfl, rfl, .inl ⟨hs, hr⟩⟩
      rw [if_neg h1, if_neg h1, hs.seen]
      by_cases h2 : i ∈ a.seen
      · rw [if_pos h2, if_pos h2]
        exact addrs_step l n _ cnt s a hg hc (by simp at hn; omega) hs hr
      rw [if_neg h2, if_neg h2, hs.total]
      by_cases h3 : cnt ≥ cfg.maxAr ∨ a.total ≥ cfg.maxTotal
      · rw [if_pos h3, if_pos h3]; exact ⟨s, rfl, rfl, rfl, .inl ⟨hs, hr⟩⟩
      rw [if_neg h3, if_neg h3, put_eq hh, hs.ar]
      have henc : enc rec (a.ar ++ [i]) = enc rec a.ar ++ (rec i).toRR.enc := by rw [enc_append, enc_one]
      by_cases h4 : (enc rec a.ar).length + (rec i).toRR.enc.length ≥ 5000
      · rw [if_pos h4]
        refine ⟨_, rfl, rfl, rfl, .inr ⟨rfl, ?_⟩⟩
        intro hroom
        have := (addrsA_le cfg rec l (cnt + 1)
          { a with ar := a.ar ++ [i], total := a.total + 1, seen := if a.seen.length < 250 then i :: a.seen else a.seen }).room hroom
        have := this.2
        simp only at this
        rw [henc, List.length_append] at this
        omega
      · rw [if_neg h4]
        simp only
        have := addrs_step (cfg := cfg) l n p.next (cnt + 1)
          { s with ar := enc rec a.ar ++ (rec i).toRR.enc, total := a.total + 1, arc := s.arc + 1,
                   seen := if a.seen.length < 250 then i :: a.seen else a.seen }
          { a with ar := a.ar ++ [i], total := a.total + 1, seen := if a.seen.length < 250 then i :: a.seen else a.seen }
          hg hc (by simp at hn; omega)
          ⟨hs.most, by simp only [henc], hs.an, hs.ns, by simp [hs.arc], rfl, rfl, hs.ok⟩
          ⟨hr.1, by simp only [henc, List.length_append]; omega⟩
        obtain ⟨s', e1, e2, e3, e4⟩ := this
        exact ⟨s', e1, e2, e3, e4⟩

theorem lead_cons_pos (rec : Nat → Rec) {t i : Nat} (l : List Nat) (n : Nat) (h : (rec i).type = t) :
    lead rec t (n + 1) (i :: l) = i :: lead rec t n l := by
  unfold lead
  rw [List.takeWhile_cons_of_pos (by simp [h]), List.take_succ_cons]

theorem lead_cons_neg (rec : Nat → Rec) {t i : Nat} (l : List Nat) (n : Nat) (h : ¬(rec i).type = t) : lead rec t n (i :: l) = [] := by
  unfold lead
  rw [List.takeWhile_cons_of_neg (by simp [h]), List.take_nil]

theorem alias_step {rec : Nat → Rec} {base : List UInt8} {t : Nat} : ∀ (n : Nat) (l : List Nat) (o : Option Nat) (s : St) (a : Acc),
    Good s.heap rec → Chain s.heap o l → Sim rec base s a → Room rec base a → a.ns = [] →
    Step rec base s { a with an := a.an ++ lead rec t n l } (follow t n o s)
  | 0, l, o, s, a, _, _, hs, hr, _ => by
    have : lead rec t 0 l = [] := by unfold lead; exact List.take_zero
    rw [this, List.append_nil]
    exact ⟨s, rfl, rfl, rfl, .inl ⟨hs, hr⟩⟩
  | n + 1, [], o, s, a, _, hc, hs, hr, _ => by
    cases hc
    have : lead rec t (n + 1) [] = [] := by unfold lead; simp
    rw [this, List.append_nil]
    exact ⟨s, rfl, rfl, rfl, .inl ⟨hs, hr⟩⟩
  | n + 1, i :: l, o, s, a, hg, hc, hs, hr, hns => by
    cases hc with
    | @cons _ p _ hp hc =>
      have hh := hg.holds i p hp
      unfold follow deref
      rw [hp]
      simp only [Res.ok_bind]
      rw [hh.type]
      by_cases h1 : (rec i).type = t
      · rw [if_neg (by simp [h1]), lead_cons_pos rec l n h1, put_eq hh]
        have hm : s.most = base ++ enc rec a.an := by rw [hs.most, hns]; simp [enc]
        rw [hm]
        by_cases h4 : (base ++ enc rec a.an).length + (rec i).toRR.enc.length ≥ 1024
        · rw [if_pos h4]
          refine ⟨_, rfl, rfl, rfl, .inr ⟨rfl, ?_⟩⟩
          intro hroom
          have := hroom.1
          simp only [List.length_append] at this h4
          rw [show a.an ++ i :: lead rec t n l = a.an ++ [i] ++ lead rec t n l by simp, enc_append, enc_append, enc_one] at this
          simp only [List.length_append] at this
          omega
        · rw [if_neg h4]
          simp only
          have := alias_step (base := base) (t := t) n l p.next
            { s with most := base ++ enc rec a.an ++ (rec i).toRR.enc, an := s.an + 1 }
            { a with an := a.an ++ [i] } hg hc
            ⟨by simp only [hns, enc_append, enc_one]; simp [enc], hs.ar, by simp [hs.an], hs.ns, hs.arc, hs.seen, hs.total, hs.ok⟩
            ⟨by simp only [hns, enc_append, enc_one, List.length_append] at h4 ⊢; simp [enc] at h4 ⊢; omega, hr.2⟩ hns
          simp only [List.append_assoc, List.singleton_append] at this
          obtain ⟨s', e1, e2, e3, e4⟩ := this
          refine ⟨s', ?_, e2, e3, e4⟩
          rw [List.append_assoc]
          exact e1
      · rw [if_pos (by simpa using h1), lead_cons_neg rec l _ h1, List.append_nil]
        exact ⟨s, rfl, rfl, rfl, .inl ⟨hs, hr⟩⟩

theorem entryA_le (cfg : Cfg) (rec : Nat → Rec) (t : Nat) (inNs : Bool) (i : Nat) (als v4 v6 : List Nat) (a : Acc) :
    Le a (entryA cfg rec t inNs i als v4 v6 a) := by
  have h0 : Le a { a with total := a.total + 1, an := if inNs then a.an else a.an ++ [i], ns := if inNs then a.ns ++ [i] else a.ns } := by
    cases inNs
    · exact ⟨List.prefix_append _ _, List.prefix_rfl, List.prefix_rfl⟩
    · exact ⟨List.prefix_rfl, List.prefix_append _ _, List.prefix_rfl⟩
  unfold entryA
  simp only
  split
  · exact h0.trans ⟨List.prefix_append _ _, List.prefix_rfl, List.prefix_rfl⟩
  · split
    · exact h0.trans ((addrsA_le cfg rec v4 0 _).trans (addrsA_le cfg rec v6 0 _))
    · exact h0.trans (addrsA_le cfg rec v4 0 _)

theorem entry_step {cfg : Cfg} {rec : Nat → Rec} {base : List UInt8} {t i : Nat} {inNs : Bool} {p : Node} {als v4 v6 : List Nat} {s : St} {a : Acc}
    (hg : Good s.heap rec) (hp : s.heap[i]? = some p) (hals : Chain s.heap (onList t p.list) als) (h4 : Chain s.heap p.ip v4)
    (h6 : Chain s.heap p.ip6 v6) (hns : inNs = false → a.ns = []) (h5 : inNs = true → p.type ≠ 5)
    (hs : Sim rec base s a) (hr : Room rec base a) :
    Step rec base s (entryA cfg rec t inNs i als v4 v6 a) (entry cfg t inNs p s) := by
  have hh := hg.holds i p hp
  have hle := entryA_le cfg rec t inNs i als v4 v6 a
  unfold entry
  simp only
  rw [put_eq hh, hs.most]
  let a1 : Acc := { a with total := a.total + 1, an := if inNs then a.an else a.an ++ [i], ns := if inNs then a.ns ++ [i] else a.ns }
  have he1 : base ++ enc rec a1.an ++ enc rec a1.ns = base ++ enc rec a.an ++ enc rec a.ns ++ (rec i).toRR.enc := by
    cases hI : inNs
    · have := hns hI
      simp [a1, hI, this, enc]
    · simp [a1, hI, enc_append, enc_one]
  have hle1 : Le a1 (entryA cfg rec t inNs i als v4 v6 a) := by
    unfold entryA
    simp only
    split
    · exact ⟨List.prefix_append _ _, List.prefix_rfl, List.prefix_rfl⟩
    · split
      · exact (addrsA_le cfg rec v4 0 _).trans (addrsA_le cfg rec v6 0 _)
      · exact addrsA_le cfg rec v4 0 _
  by_cases hfull : (base ++ enc rec a.an ++ enc rec a.ns).length + (rec i).toRR.enc.length ≥ 1024
  · rw [if_pos hfull]
    refine ⟨_, rfl, rfl, rfl, .inr ⟨rfl, ?_⟩⟩
    intro hroom
    have := (hle1.room hroom).1
    rw [he1, List.length_append] at this
    omega
  rw [if_neg hfull]
  simp only
  let s1 : St := { s with
    most := base ++ enc rec a.an ++ enc rec a.ns ++ (rec i).toRR.enc,
    an := if inNs = true then s.an else s.an + 1, ns := if inNs = true then s.ns + 1 else s.ns, total := s.total + 1 }
  have hs1 : Sim rec base s1 a1 := by
    refine ⟨he1.symm, hs.ar, ?_, ?_, hs.arc, hs.seen, ?_, hs.ok⟩
    · cases inNs <;> simp [s1, a1, hs.an]
    · cases inNs <;> simp [s1, a1, hs.ns]
    · simp [s1, a1, hs.total]
  have hr1 : Room rec base a1 := by
    refine ⟨?_, hr.2⟩
    rw [he1, List.length_append]; omega
  by_cases ht : p.type = 5
  · rw [if_pos ht]
    have hI : inNs = false := by
      cases hI : inNs with
      | false => rfl
      | true => exact absurd ht (h5 hI)
    have hn1 : a1.ns = [] := by simp [a1, hI, hns hI]
    have := alias_step (t := t) 100 als (onList t p.list) s1 a1 hg hals hs1 hr1 hn1
    have e : entryA cfg rec t inNs i als v4 v6 a = { a1 with an := a1.an ++ lead rec t 100 als } := by
      unfold entryA; simp only; rw [if_pos (by rw [← hh.type]; exact ht)]
    rw [e]
    obtain ⟨s', e1, e2, e3, e4⟩ := this
    exact ⟨s', e1, e2, e3, e4⟩
  · rw [if_neg ht]
    have e : entryA cfg rec t inNs i als v4 v6 a = if cfg.v6 then addrsA cfg rec v6 0 (addrsA cfg rec v4 0 a1) else addrsA cfg rec v4 0 a1 := by
      unfold entryA; simp only; rw [if_neg (by rw [← hh.type]; exact ht)]
    obtain ⟨s2, e1, e2, e3, e4⟩ := addrs_step (cfg := cfg) v4 (s1.heap.length + 1) p.ip 0 s1 a1 hg h4
      (by have := h4.length_le hg; simp only [s1]; omega) hs1 hr1
    show Step rec base s _ ((addrs cfg (s1.heap.length + 1) p.ip 0 s1).bind fun s => if s.bad = true ∨ cfg.v6 = false then .ok s else addrs cfg (s.heap.length + 1) p.ip6 0 s)
    rw [e1]
    show Step rec base s _ (if s2.bad = true ∨ cfg.v6 = false then .ok s2 else addrs cfg (s2.heap.length + 1) p.ip6 0 s2)
    cases hv : cfg.v6 with
    | false =>
      rw [hv] at e
      rw [if_neg (by simp)] at e
      rw [e, if_pos (by simp)]
      exact ⟨s2, rfl, e2, e3, e4⟩
    | true =>
      rw [hv] at e
      rw [if_pos rfl] at e
      rw [e]
      rcases e4 with ⟨hs2, hr2⟩ | ⟨hbad, hnr⟩
      · rw [if_neg (by rw [hs2.ok]; simp)]
        obtain ⟨s3, k1, k2, k3, k4⟩ := addrs_step (cfg := cfg) v6 (s2.heap.length + 1) p.ip6 0 s2 _ (by rw [e2]; exact hg)
          (by rw [e2]; exact h6) (by have := h6.length_le hg; rw [e2]; simp only [s1]; omega) hs2 hr2
        exact ⟨s3, k1, k2.trans e2, k3.trans e3, k4⟩
      · rw [if_pos (.inl hbad)]
        refine ⟨s2, rfl, e2, e3, .inr ⟨hbad, ?_⟩⟩
        intro hroom
        exact hnr ((addrsA_le cfg rec v6 0 _).room hroom)

end Reply
end Mara
