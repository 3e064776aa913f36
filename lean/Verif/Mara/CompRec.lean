import Verif.Mara.CompName
/-!
# Compression: records
-/

namespace Mara
namespace Comp

open Spec
open Dw (Res)
open Lookup (encName_cons_length encName_pos encName_lower ofNat_len len_facts)

/-- The two reasons why a message is not compressed: its size, and the number of its labels. -/
def Bad (u : List UInt8) (N : Nat) : Prop := 4100 ≤ u.length ∨ 150 < N

/-- What is known between two parts of a message: `k` labels are still to come. -/
structure Inv (h : Option Nat) (N : Nat) (s : St) (k : Nat) : Prop where
  le : s.out.length ≤ s.off
  lo : 12 ≤ s.out.length
  pts : ∀ p ∈ s.points, PtOk h s.out p
  cap : s.points.length ≤ 150
  sum : s.points.length + k ≤ N
  hole : HoleOk h s.out

theorem Inv.app {h : Option Nat} {N k : Nat} {s : St} (hi : Inv h N s k) (n : Nat) (x : List UInt8) (hx : x.length ≤ n) :
    Inv h N ⟨s.off + n, s.out ++ x, s.points⟩ k where
  le := by have := hi.le; rw [List.length_append]; simp only; omega
  lo := by have := hi.lo; rw [List.length_append]; omega
  pts := fun p hp => (hi.pts p hp).append x
  cap := hi.cap
  sum := hi.sum
  hole := hi.hole.append x

theorem Piece.points {h : Option Nat} {c : List UInt8} {points : List Nat} {ls : Name} {x : List UInt8} {ls' : Name}
    (hh : HoleOk h c) (hpt : ∀ p ∈ points, PtOk h c p) (h12 : 12 ≤ c.length) (h150 : points.length ≤ 150) (hok : NameOk ls)
    (hroom : Room h c) (hp : Piece h c points ls x ls') :
    (addPoints (c ++ x) 257 c.length points = .err ∧ 150 < points.length + nameCount ls) ∨
    ∃ new, addPoints (c ++ x) 257 c.length points = .ok (points ++ new) ∧ new.length ≤ nameCount ls ∧
      (points ++ new).length ≤ 150 ∧ ∀ p ∈ new, PtOk h (c ++ x) p := by
  have hl := Lookup.Fits.labels hok.1
  have h2 := hok.2
  unfold nameCount
  cases hp with
  | full =>
    have := addPoints_ok (b := []) (b' := []) (t := [0]) hpt hroom (.inl ⟨rfl, rfl, rfl⟩) ls hok.1 [] points 257
      (by simpa using hh) (by intro e; rw [List.append_nil, e]; exact .here) h12 (by omega) h150
    simpa using this
  | @ptr a b b' p he hb hmem hlt hn hs =>
    subst he
    rw [List.length_append] at hl ⊢
    have := addPoints_ok (b := b) (b' := b') hpt hroom (.inr ⟨p, hmem, hlt, rfl, hn, sameName_ne hs hb⟩) a (LabelsOk.app.1 hok.1).1 [] points 257
      (by simpa using hh) (by intro e; rw [List.append_nil, e]; exact .here) h12 (by omega) h150
    simp only [List.append_nil] at this
    rcases this with ⟨h1, h2⟩ | ⟨new, h1, h2, h3, h4⟩
    · left; exact ⟨h1, by omega⟩
    · right; exact ⟨new, h1, by omega, h3, h4⟩

/-- `compress_dlabel`. -/
theorem dlabel_step {h : Option Nat} {N k um : Nat} {s : St} {u pre rest : List UInt8} {ls : Name}
    (hi : Inv h N s (nameCount ls + k)) (hroom : Room h s.out) (hok : NameOk ls) (hu : u = pre ++ (encName ls ++ rest))
    (hoff : s.off = pre.length) (hum : u.length < um) :
    (dlabel u um s = .err ∧ Bad u N) ∨
    ∃ x s' ls', dlabel u um s = .ok s' ∧ s'.off = s.off + (encName ls).length ∧ s'.out = s.out ++ x ∧
      Piece h s.out s.points ls x ls' ∧ Inv h N s' k := by
  obtain ⟨off, out, points⟩ := s
  simp only at hoff
  subst hoff
  have hul : u.length = pre.length + ((encName ls).length + rest.length) := by rw [hu]; simp
  have hle := hi.le
  have hsum := hi.sum
  simp only at hle hsum
  have hrun := run_piece (begin := pre.length) hi.pts hi.cap hum ls hok.1 [] (by intro l hl; cases hl) pre rest (u.length + 1) hu
    (by have := Lookup.Fits.labels hok.1; omega) hok.2
  simp only [show encLabels [] = [] from rfl, List.append_nil, List.nil_append] at hrun
  unfold dlabel
  rcases hrun with ⟨h1, h2⟩ | ⟨x, ls', e, h1, h2, h3⟩
  · left
    refine ⟨by simp only [h1]; rfl, .inl (by omega)⟩
  · simp only [h1, Res.ok_bind]
    have hlen := h2.length hok.1
    cases e with
    | true =>
      right
      refine ⟨x, _, ls', rfl, rfl, rfl, h2, ?_⟩
      have := hi.app (encName ls).length x hlen.1
      exact ⟨this.le, this.lo, this.pts, this.cap, by simp only; omega, this.hole⟩
    | false =>
      simp only [Bool.false_eq_true, if_false]
      rcases h2.points hi.hole hi.pts hi.lo hi.cap hok hroom with ⟨h4, h5⟩ | ⟨new, h4, h5, h6, h7⟩
      · left
        simp only at h4
        rw [h4]
        simp only at h5
        exact ⟨rfl, .inr (by omega)⟩
      · right
        simp only at h4
        rw [h4]
        refine ⟨x, _, ls', rfl, rfl, rfl, h2, ?_⟩
        have := hi.app (encName ls).length x hlen.1
        refine ⟨this.le, this.lo, ?_, h6, ?_, this.hole⟩
        · intro p hp
          rcases List.mem_append.1 hp with hp | hp
          · exact this.pts p hp
          · exact h7 p hp
        · rw [List.length_append]; omega

/-- Fixed fields. -/
theorem fixed_run {u rest : List UInt8} {um rdlen N : Nat} {cmp : Bool} {fs : List Field} : ∀ (ns : List Nat),
    (∀ n ∈ ns, 1 ≤ n) → ∀ (b pre out : List UInt8) (points : List Nat) (tot : Nat) (ctot : Int), b.length = ns.sum →
    u = pre ++ (b ++ rest) → out.length ≤ pre.length →
    (runFields u um rdlen cmp (ns.map .fixed ++ fs) ⟨pre.length, out, points⟩ tot ctot = .err ∧ Bad u N) ∨
    runFields u um rdlen cmp (ns.map .fixed ++ fs) ⟨pre.length, out, points⟩ tot ctot =
      runFields u um rdlen cmp fs ⟨pre.length + b.length, out ++ b, points⟩ (tot + b.length) (ctot + b.length)
  | [], _, b, pre, out, points, tot, ctot, hb, hu, hle => by
    right
    have : b = [] := List.eq_nil_of_length_eq_zero (by simpa using hb)
    subst this
    simp
  | n :: ns, hn, b, pre, out, points, tot, ctot, hb, hu, hle => by
    have h1 := hn n (by simp)
    rw [List.sum_cons] at hb
    have hx : (b.take n).length = n := by rw [List.length_take]; omega
    have hsplit : b = b.take n ++ b.drop n := (List.take_append_drop n b).symm
    have hu' : u = pre ++ (b.take n ++ (b.drop n ++ rest)) := by rw [hu, ← List.append_assoc (b.take n), ← hsplit]
    have hul : u.length = pre.length + (b.length + rest.length) := by rw [hu]; simp
    have hs := substrAppend_eq pre (b.take n) (b.drop n ++ rest) out (by omega)
    rw [← hu', hx] at hs
    rw [List.map_cons, List.cons_append, runFields]
    rcases hs with ⟨hs, hbig⟩ | hs
    · left
      simp only [hs]
      exact ⟨rfl, .inl (by omega)⟩
    · simp only [hs, Res.ok_bind]
      have ih := fixed_run (u := u) (rest := rest) (um := um) (rdlen := rdlen) (N := N) (cmp := cmp) (fs := fs) ns
        (fun m hm => hn m (by simp [hm])) (b.drop n) (pre ++ b.take n) (out ++ b.take n) points (tot + n) (ctot + n)
        (by rw [List.length_drop]; omega) (by rw [hu']; simp) (by simp only [List.length_append]; omega)
      rw [List.length_append, hx, List.append_assoc out, ← hsplit, List.length_drop] at ih
      rcases ih with ih | ih
      · left; exact ih
      · right
        rw [ih, show pre.length + n + (b.length - n) = pre.length + b.length by omega,
          show tot + n + (b.length - n) = tot + b.length by omega,
          show ctot + (n : Int) + ((b.length - n : Nat) : Int) = ctot + (b.length : Int) by omega]

/-- One name in the data. -/
theorem name_step {h : Option Nat} {N k um rdlen : Nat} {s : St} {u pre rest : List UInt8} {ls : Name} {cmp : Bool} {fs : List Field}
    {tot : Nat} {ctot : Int}
    (hi : Inv h N s (nameCount ls + k)) (hbase : Base h s.out) (hok : NameOk ls) (hu : u = pre ++ (encName ls ++ rest))
    (hoff : s.off = pre.length) (hum : u.length < um) :
    (runFields u um rdlen cmp (.name :: fs) s tot ctot = .err ∧ Bad u N) ∨
    ∃ x s' ls', runFields u um rdlen cmp (.name :: fs) s tot ctot =
        runFields u um rdlen cmp fs s' (tot + (encName ls).length) (ctot + x.length) ∧
      s'.off = s.off + (encName ls).length ∧ s'.out = s.out ++ x ∧
      Piece h s.out s.points ls x ls' ∧ Inv h N s' k := by
  have hdl := Lookup.dlabel_name hok.1 pre rest pre.length 256 0 (by omega)
    (by have := Lookup.Fits.labels hok.1; have := hok.2; omega) (by have := hok.2; omega)
  rw [← hu, Nat.zero_add, ← hoff] at hdl
  have hpos := encName_pos ls
  have hul : u.length = pre.length + ((encName ls).length + rest.length) := by rw [hu]; simp
  rw [runFields, hdl]
  simp only
  rw [if_neg (by omega)]
  cases cmp with
  | true =>
    simp only [if_true]
    rcases dlabel_step hi (.inr hbase) hok hu hoff hum with ⟨h1, h2⟩ | ⟨x, s', ls', h1, h2, h3, h4, h5⟩
    · left
      simp only [h1]
      exact ⟨rfl, h2⟩
    · right
      refine ⟨x, s', ls', ?_, h2, h3, h4, h5⟩
      simp only [h1, Res.ok_bind]
      have := h4.dlabel hok
      rw [← h3] at this
      rw [this]
  | false =>
    simp only [Bool.false_eq_true, if_false]
    have hs := substrAppend_eq pre (encName ls) rest s.out hpos
    rw [← hu, ← hoff] at hs
    have hle := hi.le
    have hsum := hi.sum
    rcases hs with ⟨hs, hbig⟩ | hs
    · left
      simp only [hs]
      exact ⟨rfl, .inl (by omega)⟩
    · simp only [hs, Res.ok_bind]
      have hpc : Piece h s.out s.points ls (encName ls) ls := .full
      rcases hpc.points hi.hole hi.pts hi.lo hi.cap hok (.inr hbase) with ⟨h4, h5⟩ | ⟨new, h4, h5, h6, h7⟩
      · left
        simp only [h4]
        exact ⟨rfl, .inr (by omega)⟩
      · right
        simp only [h4, Res.ok_bind]
        refine ⟨encName ls, ⟨s.off + (encName ls).length, s.out ++ encName ls, s.points ++ new⟩, ls, rfl, rfl, rfl, hpc, ?_⟩
        have := hi.app (encName ls).length (encName ls) (by omega)
        refine ⟨this.le, this.lo, ?_, h6, ?_, this.hole⟩
        · intro p hp
          rcases List.mem_append.1 hp with hp | hp
          · exact this.pts p hp
          · exact h7 p hp
        · rw [List.length_append]; omega

/-- The names in the data. -/
theorem names_run {h : Option Nat} {N um rdlen k : Nat} {u rest : List UInt8} {cmp : Bool} {fs : List Field}
    (hum : u.length < um) : ∀ (names : List Name), (∀ n ∈ names, NameOk n) → ∀ (s : St) (pre : List UInt8) (tot : Nat) (ctot : Int),
    Inv h N s ((names.map nameCount).sum + k) → Base h s.out → u = pre ++ (names.flatMap encName ++ rest) → s.off = pre.length →
    (runFields u um rdlen cmp (List.replicate names.length .name ++ fs) s tot ctot = .err ∧ Bad u N) ∨
    ∃ x s' names', runFields u um rdlen cmp (List.replicate names.length .name ++ fs) s tot ctot =
        runFields u um rdlen cmp fs s' (tot + (names.flatMap encName).length) (ctot + x.length) ∧
      s'.off = s.off + (names.flatMap encName).length ∧ s'.out = s.out ++ x ∧ Inv h N s' k ∧
      NamesVia (Firm (view h s'.out)) (view h s'.out) s.out.length names' s'.out.length ∧ SameNames names names' ∧
      x.length ≤ (names.flatMap encName).length ∧ (x.length = (names.flatMap encName).length ∨ 2 ≤ x.length)
  | [], _, s, pre, tot, ctot, hi, hbase, hu, hoff => by
    right
    refine ⟨[], s, [], ?_, by simp, by simp, by simpa using hi, .nil, trivial, by simp, by simp⟩
    simp
  | ls :: names, hok, s, pre, tot, ctot, hi, hbase, hu, hoff => by
    have hu' : u = pre ++ (encName ls ++ (names.flatMap encName ++ rest)) := by rw [hu]; simp
    rw [List.map_cons, List.sum_cons, Nat.add_assoc] at hi
    rw [List.length_cons, List.replicate_succ, List.cons_append]
    rcases name_step (rdlen := rdlen) (cmp := cmp) (fs := List.replicate names.length .name ++ fs) (tot := tot) (ctot := ctot)
      hi hbase (hok ls (by simp)) hu' hoff hum with ⟨h1, h2⟩ | ⟨x, s', ls', h1, h2, h3, h4, h5⟩
    · left; exact ⟨h1, h2⟩
    · have hlsok := (hok ls (by simp)).1
      have hlen := h4.length hlsok
      obtain ⟨hr1, hr2⟩ := h4.read hi.hole hi.pts hlsok
      rcases names_run (rdlen := rdlen) (cmp := cmp) (fs := fs) (rest := rest) hum names (fun n hn => hok n (by simp [hn]))
        s' (pre ++ encName ls) (tot + (encName ls).length) (ctot + x.length) h5 (by rw [h3]; exact hbase.append x) (by rw [hu']; simp)
        (by rw [h2, hoff]; simp) with ⟨g1, g2⟩ | ⟨y, s2, names', g1, g2, g3, g4, g5, g6, g7, g8⟩
      · left; rw [h1]; exact ⟨g1, g2⟩
      · right
        refine ⟨x ++ y, s2, ls' :: names', ?_, ?_, ?_, g4, ?_, ⟨h4.same, g6⟩, ?_, ?_⟩
        · rw [h1, g1, List.flatMap_cons, List.length_append, List.length_append, Nat.add_assoc]
          congr 1
          push_cast
          omega
        · rw [g2, h2, List.flatMap_cons, List.length_append]; omega
        · rw [g3, h3, List.append_assoc]
        · rw [← h3] at hr1 hr2
          have hsub := view_append h s'.out y
          rw [← g3] at hsub
          exact .cons (hsub.firm hr1) (hsub.ends hr2) g5
        · rw [List.flatMap_cons, List.length_append, List.length_append]; omega
        · rw [List.flatMap_cons, List.length_append, List.length_append]; omega

theorem fields_known {t l k tl : Nat} (h : rdLayout t = some (l, k, tl)) :
    ∃ (A B : List Nat) (cmp : Bool), fields t = some (A.map .fixed ++ (List.replicate k .name ++ B.map .fixed), cmp) ∧ A.sum = l ∧ B.sum = tl ∧
      (∀ n ∈ A, 1 ≤ n) ∧ (∀ n ∈ B, 1 ≤ n) := by
  unfold rdLayout at h
  split at h <;> first
    | (cases h; done)
    | (cases h
       first
        | exact ⟨[], [], _, rfl, rfl, rfl, by simp, by simp⟩
        | exact ⟨[2], [], _, rfl, rfl, rfl, by simp, by simp⟩
        | exact ⟨[2, 2, 2], [], _, rfl, rfl, rfl, by simp, by simp⟩
        | exact ⟨[], [4, 4, 4, 4, 4], _, rfl, rfl, rfl, by simp, by simp⟩)

theorem fields_unknown {t : Nat} (h : rdLayout t = none) : t = 1 ∨ t = 16 ∨ fields t = none := by
  unfold fields
  split <;> first
    | (left; rfl)
    | (right; left; rfl)
    | (right; right; rfl)
    | (exfalso; revert h; decide)

end Comp
end Mara
