import Verif.Mara.CompLemmas
/-!
# Compression: one name
-/

namespace Mara
namespace Comp

open Spec
open Dw (Res)
open Lookup (encName_cons_length encName_pos encName_lower ofNat_len len_facts)

/-- A place that a pointer may refer to. -/
structure PtOk (h : Option Nat) (c : List UInt8) (p : Nat) : Prop where
  lo : 12 ≤ p
  hi : p < c.length
  place : Placed (view h c) p
  name : ∃ ls, Firm (view h c) p ls
  first : ∃ z, view h c p = some z ∧ ¬ 192 ≤ z

theorem PtOk.append {h : Option Nat} {c : List UInt8} {p : Nat} (hp : PtOk h c p) (x : List UInt8) : PtOk h (c ++ x) p := by
  obtain ⟨ls, hn⟩ := hp.name
  obtain ⟨z, hz, hz'⟩ := hp.first
  exact ⟨hp.lo, by have := hp.hi; rw [List.length_append]; omega, (view_append h c x).placed hp.place, ⟨ls, (view_append h c x).firm hn⟩, z, view_append h c x _ _ hz, hz'⟩

/-- What the name `ls` becomes: the bytes added to the message and the name they stand for. -/
inductive Piece (h : Option Nat) (c : List UInt8) (points : List Nat) (ls : Name) : List UInt8 → Name → Prop
  | full : Piece h c points ls (encLabels ls ++ [0]) ls
  | ptr {a b b' : Name} {p : Nat} : ls = a ++ b → b ≠ [] → p ∈ points → p < 16384 → Firm (view h c) p b' →
      SameName b b' →
      Piece h c points ls (encLabels a ++ [UInt8.ofNat (192 + p / 256), UInt8.ofNat p]) (a ++ b')

theorem encName_append (a b : Name) : encName (a ++ b) = encLabels a ++ encName b := by
  rw [encName, Spec.encLabels_append, encName, List.append_assoc]

theorem LabelsOk.app {a b : Name} : LabelsOk (a ++ b) ↔ LabelsOk a ∧ LabelsOk b := by
  constructor
  · intro h
    exact ⟨fun l hl => h l (List.mem_append_left _ hl), fun l hl => h l (List.mem_append_right _ hl)⟩
  · rintro ⟨h1, h2⟩ l hl
    rcases List.mem_append.1 hl with h | h
    · exact h1 l h
    · exact h2 l h

theorem Piece.length {h : Option Nat} {c : List UInt8} {points : List Nat} {ls : Name} {x : List UInt8} {ls' : Name}
    (hok : LabelsOk ls) (hp : Piece h c points ls x ls') :
    x.length ≤ (encName ls).length ∧ (x.length = (encName ls).length ∨ 2 ≤ x.length) ∧ 1 ≤ x.length := by
  cases hp with
  | full => simp [encName]
  | @ptr a b b' p he hb _ _ _ _ =>
    subst he
    rw [encName_append]
    have h1 := Lookup.Fits.labels (LabelsOk.app.1 hok).2
    have h2 : 1 ≤ b.length := List.length_pos_iff.2 hb
    simp only [List.length_append, List.length_cons, List.length_nil]
    omega

theorem Piece.same {h : Option Nat} {c : List UInt8} {points : List Nat} {ls : Name} {x : List UInt8} {ls' : Name}
    (hp : Piece h c points ls x ls') : SameName ls ls' := by
  cases hp with
  | full => rfl
  | @ptr a b b' p he hb _ _ _ hs =>
    subst he
    unfold SameName at *
    rw [List.map_append, List.map_append, hs]

theorem ptr_bytes {p : Nat} (hp : p < 16384) :
    192 ≤ UInt8.ofNat (192 + p / 256) ∧
    (UInt8.ofNat (192 + p / 256)).toNat % 64 * 256 + (UInt8.ofNat p).toNat = p := by
  constructor
  · rw [UInt8.le_iff_toNat_le, UInt8.toNat_ofNat']
    have : (192 : UInt8).toNat = 192 := rfl
    omega
  · rw [UInt8.toNat_ofNat', UInt8.toNat_ofNat']
    omega

theorem sameName_ne {b b' : Name} (h : SameName b b') (hb : b ≠ []) : b' ≠ [] := by
  intro e
  subst e
  unfold SameName at h
  cases b with
  | nil => exact hb rfl
  | cons l b => cases h

/-- The name can be read, and where its bytes end. -/
theorem Piece.read {h : Option Nat} {c : List UInt8} {points : List Nat} {ls : Name} {x : List UInt8} {ls' : Name}
    (hh : HoleOk h c) (hpt : ∀ p ∈ points, PtOk h c p) (hok : LabelsOk ls) (hp : Piece h c points ls x ls') :
    Firm (view h (c ++ x)) c.length ls' ∧ EndsAt (view h (c ++ x)) c.length (c ++ x).length := by
  cases hp with
  | full =>
    have h0 : view h (c ++ (encLabels ls ++ [0])) (c.length + (encLabels ls).length) = some 0 := by
      rw [view_right hh]; simp
    constructor
    · have := firm_labels hok hh [0] [] (.root h0)
      simpa using this
    · have := endsAt_labels hok hh [0] _ (.root h0)
      simpa [Nat.add_assoc] using this
  | @ptr a b b' p he hb hmem hlt hn hs =>
    subst he
    have hok := (LabelsOk.app.1 hok).1
    have hpp := hpt p hmem
    obtain ⟨hf1, hf2⟩ := ptr_bytes hlt
    have h0 : view h (c ++ (encLabels a ++ [UInt8.ofNat (192 + p / 256), UInt8.ofNat p])) (c.length + (encLabels a).length)
        = some (UInt8.ofNat (192 + p / 256)) := by
      rw [view_right hh]; simp
    have h1 : view h (c ++ (encLabels a ++ [UInt8.ofNat (192 + p / 256), UInt8.ofNat p])) (c.length + (encLabels a).length + 1)
        = some (UInt8.ofNat p) := by
      rw [Nat.add_assoc, view_right hh]; simp
    constructor
    · obtain ⟨z, hz, hz'⟩ := hpp.first
      refine firm_labels hok hh _ _ (.pointer h0 hf1 h1 ?_ ?_ ?_ ?_ hz' (sameName_ne hs hb) ?_)
      · rw [hf2]; have := hpp.hi; omega
      · rw [hf2]; exact hpp.lo
      · rw [hf2]; exact (view_append _ _ _).placed hpp.place
      · rw [hf2]; exact view_append _ _ _ _ _ hz
      · rw [hf2]; exact (view_append _ _ _).firm hn
    · have := endsAt_labels hok hh _ _ (.pointer h0 hf1)
      simpa [Nat.add_assoc] using this

/-- `dlabel_length` of a name that ends with a pointer. -/
theorem dlabel_ptr : ∀ {a : Name}, LabelsOk a → ∀ (pre : List UInt8) (x y : UInt8) (o n k : Nat), 192 ≤ x → pre.length = k + o →
    a.length < n → k + (encLabels a).length < 256 →
    Lookup.dlabel (pre ++ (encLabels a ++ [x, y])) o n k = some (k + (encLabels a).length + 2)
  | [], _, pre, x, y, o, n + 1, k, hx, hp, _, hk => by
    unfold Lookup.dlabel
    have : (pre ++ (encLabels [] ++ [x, y]))[k + o]? = some x := by
      rw [← hp]; simp [encLabels]
    rw [this]
    simp only [encLabels, List.flatMap_nil, List.length_nil, List.nil_append, Nat.add_zero] at hk ⊢
    have hx' := UInt8.le_iff_toNat_le.1 hx
    have e192 : (192 : UInt8).toNat = 192 := rfl
    rw [if_pos ⟨hk, by
        rw [gt_iff_lt, UInt8.lt_iff_toNat_lt]
        have : (0 : UInt8).toNat = 0 := rfl
        omega, by
        intro e
        rw [e] at hx'
        have : (95 : UInt8).toNat = 95 := rfl
        omega⟩, if_pos hx, if_pos (by simp; omega)]
  | l :: ls, h, pre, x, y, o, n + 1, k, hx, hp, hn, hk => by
    have h1 := h.head
    have hf := len_facts ⟨l.length, by omega⟩ (by simp; intro e; simp [e] at h1)
    have hlen := encLabels_length l ls
    have ih := dlabel_ptr h.tail (pre ++ UInt8.ofNat l.length :: l) x y o n (k + l.length + 1) hx
      (by simp; omega) (by simpa using hn) (by omega)
    have e : pre ++ (encLabels (l :: ls) ++ [x, y]) = pre ++ UInt8.ofNat l.length :: l ++ (encLabels ls ++ [x, y]) := by
      rw [encLabels_cons']; simp
    unfold Lookup.dlabel
    have h0 : (pre ++ (encLabels (l :: ls) ++ [x, y]))[k + o]? = some (UInt8.ofNat l.length) := by
      rw [← hp, encLabels_cons']; simp
    rw [h0]
    simp only at hf ⊢
    rw [if_pos ⟨by omega, hf.2.2.2.1, hf.1⟩, if_neg hf.2.2.2.2, if_neg hf.2.1, ofNat_len h1.2, e, ih, hlen]
    congr 1
    omega

theorem Piece.dlabel {h : Option Nat} {c : List UInt8} {points : List Nat} {ls : Name} {x : List UInt8} {ls' : Name}
    (hok : NameOk ls) (hp : Piece h c points ls x ls') : Lookup.dlabel (c ++ x) c.length 256 0 = some x.length := by
  have hl := Lookup.Fits.labels hok.1
  have h2 := hok.2
  cases hp with
  | full =>
    have := Lookup.dlabel_name hok.1 c [] c.length 256 0 (by omega) (by omega) (by omega)
    simpa [encName] using this
  | @ptr a b b' p he hb _ hlt _ _ =>
    subst he
    rw [encName_append, List.length_append] at h2
    have := encName_pos b
    rw [List.length_append] at hl
    have := dlabel_ptr (LabelsOk.app.1 hok.1).1 c _ (UInt8.ofNat p) c.length 256 0 (ptr_bytes hlt).1 (by omega)
      (by rw [encName_append, List.length_append] at hl; omega) (by omega)
    rw [this]
    simp

theorem append_eq (out l : List UInt8) :
    (append out l = .err ∧ 4100 ≤ out.length + l.length) ∨ append out l = .ok (out ++ l) := by
  unfold append
  by_cases h : out.length + l.length ≥ 4100
  · exact .inl ⟨if_pos h, h⟩
  · exact .inr (if_neg h)

theorem substrAppend_eq (pre x rest out : List UInt8) (hx : 1 ≤ x.length) :
    (substrAppend (pre ++ (x ++ rest)) out pre.length x.length = .err ∧ 4100 ≤ out.length + x.length) ∨
    substrAppend (pre ++ (x ++ rest)) out pre.length x.length = .ok (out ++ x) := by
  unfold substrAppend
  rw [if_neg (by simp), if_neg (by simp; omega), List.drop_left, List.take_left]
  exact append_eq out x

theorem seek_ok (u out : List UInt8) (off begin : Nat) : ∀ (n : Nat) (ps : List Nat), ps.length < n →
    ∃ r, seek u out off begin n ps = .ok r ∧ ∀ p, r = some p → p ∈ ps ∧ same u out off p = true
  | n + 1, [], _ => ⟨none, rfl, by intro p hp; cases hp⟩
  | n + 1, p :: ps, hn => by
    unfold seek
    by_cases h1 : p ≥ begin
    · exact ⟨none, by rw [if_pos h1], by intro p hp; cases hp⟩
    · rw [if_neg h1]
      by_cases h2 : same u out off p = true
      · refine ⟨some p, by rw [if_pos h2], ?_⟩
        intro q hq
        cases hq
        exact ⟨by simp, h2⟩
      · rw [if_neg h2]
        obtain ⟨r, hr, hr'⟩ := seek_ok u out off begin n ps (by simpa using hn)
        refine ⟨r, hr, ?_⟩
        intro q hq
        exact ⟨List.mem_cons_of_mem _ (hr' q hq).1, (hr' q hq).2⟩

/-- The loop over the labels of a name. -/
theorem run_piece {h : Option Nat} {c : List UInt8} {points : List Nat} {u : List UInt8} {um begin : Nat}
    (hpt : ∀ p ∈ points, PtOk h c p) (hlen : points.length ≤ 150) (hum : u.length < um) :
    ∀ (b : Name), LabelsOk b → ∀ (a : Name), LabelsOk a → ∀ (pre rest : List UInt8) (n : Nat),
    u = pre ++ (encName b ++ rest) → b.length < n → (encName b).length ≤ 255 →
    (dlabelRun u um begin n ⟨pre.length, c ++ encLabels a, points⟩ = .err ∧
      4100 ≤ c.length + (encName (a ++ b)).length) ∨
    ∃ x ls' e, dlabelRun u um begin n ⟨pre.length, c ++ encLabels a, points⟩ =
        .ok (⟨pre.length + (encName b).length, c ++ x, points⟩, e) ∧
      Piece h c points (a ++ b) x ls' ∧ (e = true → rest = [] ∧ b ≠ []) := by
  intro b
  induction b with
  | nil =>
    intro hb a ha pre rest n hu hn h255
    obtain ⟨n, rfl⟩ : ∃ m, n = m + 1 := ⟨n - 1, by simp at hn; omega⟩
    have e0 : encName [] = [0] := rfl
    have hget : u[pre.length]? = some 0 := by rw [hu, e0]; simp
    have hul : u.length = pre.length + (1 + rest.length) := by rw [hu, e0]; simp; omega
    have hs := substrAppend_eq pre [0] rest (c ++ encLabels a) (by simp)
    rw [show pre ++ ([0] ++ rest) = u by rw [hu, e0], show ([0] : List UInt8).length = 1 from rfl] at hs
    unfold dlabelRun subDlabel
    simp only [hget, if_true]
    rcases hs with ⟨hs, hbig⟩ | hs
    · left
      rw [hs]
      refine ⟨rfl, ?_⟩
      rw [encName_append, e0]
      simp only [List.length_append] at hbig ⊢
      simpa [Nat.add_assoc] using hbig
    · right
      refine ⟨encLabels a ++ [0], a, false, ?_, ?_, ?_⟩
      · rw [hs]
        simp only [Res.ok_bind]
        rw [if_neg (by omega)]
        simp only [Res.ok_bind, e0, List.append_assoc]
        rfl
      · rw [List.append_nil]; exact .full
      · intro h; cases h
  | cons l b ih =>
    intro hb a ha pre rest n hu hn h255
    obtain ⟨n, rfl⟩ : ∃ m, n = m + 1 := ⟨n - 1, by simp at hn; omega⟩
    have h1 := hb.head
    have hf := len_facts ⟨l.length, by omega⟩ (by simp; intro e; simp [e] at h1)
    have hx := encName_cons_length l b
    have hpos := encName_pos b
    have henc := Lookup.encName_cons l b
    have hget : u[pre.length]? = some (UInt8.ofNat l.length) := by rw [hu, henc]; simp
    have hul : u.length = pre.length + ((encName (l :: b)).length + rest.length) := by rw [hu]; simp
    have hnext := fun s => ih hb.tail (a ++ [l]) (LabelsOk.app.2 ⟨ha, by intro x hx; simp at hx; rw [hx]; exact h1⟩)
      (pre ++ UInt8.ofNat l.length :: l) rest n (by rw [hu, henc]; simp) (by simpa using hn) s
    have happ : a ++ [l] ++ b = a ++ l :: b := by simp
    have hpl : (pre ++ UInt8.ofNat l.length :: l).length = pre.length + l.length + 1 := by simp; omega
    have hca : c ++ encLabels (a ++ [l]) = (c ++ encLabels a) ++ UInt8.ofNat l.length :: l := by
      rw [Spec.encLabels_append]; simp [encLabels]
    rw [happ, hpl, hca] at hnext
    unfold dlabelRun subDlabel
    simp only [hget]
    simp only at hf
    rw [if_neg hf.2.2.1, if_neg hf.2.1, ofNat_len h1.2, if_neg (by omega)]
    obtain ⟨r, hr, hr'⟩ := seek_ok u (c ++ encLabels a) pre.length begin 155 points (by omega)
    rw [hr]
    simp only [Res.ok_bind]
    cases r with
    | some p =>
      obtain ⟨hmem, hsame⟩ := hr' p rfl
      have hp := hpt p hmem
      obtain ⟨b', hb'⟩ := hp.name
      have hname : NameIn (memOf u) pre.length (l :: b) := by rw [hu]; exact nameIn_plain hb pre rest
      have hsn := same_name ((view_sub h c).trans (memOf_append c (encLabels a))) hname hb'.toIn hsame
      simp only
      have hhi := hp.hi
      have hlo := hp.lo
      by_cases hbig : p ≥ 16384
      · left
        rw [if_pos (Or.inr hbig)]
        exact ⟨rfl, by omega⟩
      rw [if_neg (by omega)]
      have hdl := Lookup.dlabel_name hb pre rest pre.length 256 0 (by omega)
        (by have := Lookup.Fits.labels hb; omega) (by omega)
      rw [← hu, Nat.zero_add] at hdl
      rcases append_eq (c ++ encLabels a) [UInt8.ofNat (192 + p / 256), UInt8.ofNat p] with ⟨hs, hbig⟩ | hs
      · left
        rw [hs]
        refine ⟨rfl, ?_⟩
        rw [encName_append]
        simp only [List.length_append, List.length_cons, List.length_nil] at hbig ⊢
        omega
      · right
        rw [hs]
        simp only [Res.ok_bind, hdl]
        rw [if_neg (by omega)]
        have hpc : Piece h c points (a ++ l :: b) (encLabels a ++ [UInt8.ofNat (192 + p / 256), UInt8.ofNat p]) (a ++ b') :=
          .ptr rfl (by simp) hmem (by omega) hb' hsn
        by_cases hend : pre.length + (encName (l :: b)).length = u.length
        · refine ⟨_, _, true, ?_, hpc, ?_⟩
          · rw [if_pos hend]
            simp only [Res.ok_bind, List.append_assoc]
          · intro _
            refine ⟨List.eq_nil_of_length_eq_zero (by omega), by simp⟩
        · refine ⟨_, _, false, ?_, hpc, by intro h; cases h⟩
          rw [if_neg hend]
          simp only [Res.ok_bind, List.append_assoc]
    | none =>
      simp only
      have hs := substrAppend_eq pre (UInt8.ofNat l.length :: l) (encName b ++ rest) (c ++ encLabels a) (by simp)
      rw [show pre ++ (UInt8.ofNat l.length :: l ++ (encName b ++ rest)) = u by rw [hu, henc]; simp,
        List.length_cons] at hs
      rcases hs with ⟨hs, hbig⟩ | hs
      · left
        rw [hs]
        refine ⟨rfl, ?_⟩
        rw [encName_append]
        simp only [List.length_append] at hbig ⊢
        omega
      · rw [hs]
        simp only [Res.ok_bind]
        rcases hnext (by omega) with ⟨h1, h2⟩ | ⟨x, ls', e, h1, h2, h3⟩
        · left; exact ⟨h1, h2⟩
        · right
          refine ⟨x, ls', e, ?_, h2, ?_⟩
          · rw [h1, hx]
            congr 3
            omega
          · intro he; exact ⟨(h3 he).1, by simp⟩

/-- Where names may be written: behind the header, or behind the question. -/
def Base (h : Option Nat) (c : List UInt8) : Prop := ∃ e, Halts (view h c) 12 e ∧ e + 4 ≤ c.length

def Room (h : Option Nat) (c : List UInt8) : Prop := c.length = 12 ∨ Base h c

theorem Base.append {h : Option Nat} {c : List UInt8} (hb : Base h c) (x : List UInt8) : Base h (c ++ x) := by
  obtain ⟨e, hs, he⟩ := hb
  exact ⟨e, (view_append h c x).stop hs, by rw [List.length_append]; omega⟩

theorem prefix_of_sub {a b : List UInt8} (h : Sub (memOf a) (memOf b)) : a <+: b := by
  rw [List.prefix_iff_getElem?]
  intro i hi
  exact h i a[i] (List.getElem?_eq_getElem hi)

theorem Base.sub {c c' : List UInt8} (hb : Base none c) (h : Sub (memOf c) (memOf c')) : Base none c' := by
  obtain ⟨e, hs, he⟩ := hb
  exact ⟨e, Sub.stop h hs, by have := (prefix_of_sub h).length_le; omega⟩

/-- The points of a name that has been written. -/
theorem addPoints_ok {h : Option Nat} {c0 : List UInt8} {points0 : List Nat} {b b' : Name} {t : List UInt8}
    (hpt : ∀ p ∈ points0, PtOk h c0 p) (hroom : Room h c0) (hb : b = [] ∧ t = [0] ∧ b' = [] ∨
      ∃ p, p ∈ points0 ∧ p < 16384 ∧ t = [UInt8.ofNat (192 + p / 256), UInt8.ofNat p] ∧ Firm (view h c0) p b' ∧ b' ≠ []) :
    ∀ (a : Name), LabelsOk a → ∀ (pre : List UInt8) (pts : List Nat) (n : Nat), HoleOk h (c0 ++ pre) →
      (c0.length = 12 → Leads (view h (c0 ++ pre)) 12 (c0 ++ pre).length) → 12 ≤ c0.length → a.length < n →
      pts.length ≤ 150 →
      (addPoints (c0 ++ pre ++ (encLabels a ++ t)) n (c0 ++ pre).length pts = .err ∧ 150 < pts.length + (a.length + 1)) ∨
      ∃ new, addPoints (c0 ++ pre ++ (encLabels a ++ t)) n (c0 ++ pre).length pts = .ok (pts ++ new) ∧
        new.length ≤ a.length + 1 ∧ (pts ++ new).length ≤ 150 ∧
        ∀ p ∈ new, PtOk h (c0 ++ pre ++ (encLabels a ++ t)) p := by
  have hend : ∀ (c1 : List UInt8), HoleOk h c1 → c0 <+: c1 → Firm (view h (c1 ++ t)) c1.length b' := by
    intro c1 hh hpre
    rcases hb with ⟨_, ht, hb'⟩ | ⟨p, hmem, hlt, ht, hn, hne⟩
    · rw [ht, hb']
      refine .root ?_
      have := view_right hh [0] 0
      simpa using this
    · obtain ⟨w, rfl⟩ := hpre
      obtain ⟨hf1, hf2⟩ := ptr_bytes hlt
      have hhi := (hpt p hmem).hi
      obtain ⟨z, hz, hz'⟩ := (hpt p hmem).first
      refine .pointer (x := UInt8.ofNat (192 + p / 256)) (y := UInt8.ofNat p) ?_ hf1 ?_ ?_ ?_ ?_ ?_ hz' hne ?_
      · have := view_right hh t 0
        rw [Nat.add_zero] at this
        rw [this, ht]; rfl
      · rw [view_right hh t 1, ht]; rfl
      · rw [hf2, List.length_append]; omega
      · rw [hf2]; exact (hpt p hmem).lo
      · rw [hf2, List.append_assoc]; exact (view_append h c0 (w ++ t)).placed (hpt p hmem).place
      · rw [hf2, List.append_assoc]
        exact view_append h c0 (w ++ t) _ _ hz
      · rw [hf2]
        rw [List.append_assoc]
        exact (view_append h c0 (w ++ t)).firm hn
  have hplace : ∀ (pre x : List UInt8), (c0.length = 12 → Leads (view h (c0 ++ pre)) 12 (c0 ++ pre).length) →
      Placed (view h (c0 ++ pre ++ x)) (c0 ++ pre).length := by
    intro pre x hst
    rcases hroom with h12 | ⟨e, hs, he⟩
    · exact .inl ((view_append h (c0 ++ pre) x).step (hst h12))
    · refine .inr ⟨e, ?_, by rw [List.length_append]; omega⟩
      rw [List.append_assoc]
      exact (view_append h c0 (pre ++ x)).stop hs
  have hname : ∀ (a : Name), LabelsOk a → ∀ (pre : List UInt8), HoleOk h (c0 ++ pre) →
      Firm (view h (c0 ++ pre ++ (encLabels a ++ t))) (c0 ++ pre).length (a ++ b') := by
    intro a ha pre hh
    refine firm_labels ha hh t b' ?_
    have := hend (c0 ++ pre ++ encLabels a) (hh.append _) ⟨pre ++ encLabels a, by simp⟩
    rw [List.length_append (as := c0 ++ pre)] at this
    rw [← List.append_assoc (c0 ++ pre)]
    exact this
  intro a
  induction a with
  | nil =>
    intro ha pre pts n hh hst h12 hn hp150
    obtain ⟨n, rfl⟩ : ∃ m, n = m + 1 := ⟨n - 1, by simp at hn; omega⟩
    have hnm := hname [] ha pre hh
    simp only [encLabels, List.flatMap_nil, List.nil_append] at hnm ⊢
    unfold addPoints
    rcases hb with ⟨_, ht, hb'⟩ | ⟨p, hmem, hlt, ht, hn', _⟩
    · subst ht
      have hg : (c0 ++ pre ++ [0])[(c0 ++ pre).length]? = some (0 : UInt8) := by simp
      rw [hg]
      simp only [show ¬ ((0 : UInt8) ≥ 192) by decide, if_false, UInt8.toNat_zero, Nat.add_zero, true_or, if_true]
      rw [if_neg (by simp)]
      by_cases h150 : pts.length ≥ 150
      · left
        rw [if_pos h150]
        exact ⟨rfl, by simp; omega⟩
      · right
        rw [if_neg h150]
        refine ⟨[(c0 ++ pre).length], rfl, by simp, by simp; omega, ?_⟩
        intro p hp
        rw [List.mem_singleton] at hp
        subst hp
        refine ⟨by rw [List.length_append]; omega, by simp, hplace pre _ hst, ⟨_, hnm⟩, 0, ?_, by decide⟩
        have := view_right hh [0] 0
        simpa using this
    · right
      have hg : (c0 ++ pre ++ t)[(c0 ++ pre).length]? = some (UInt8.ofNat (192 + p / 256)) := by
        rw [List.getElem?_append_right (by omega), ht]; simp
      rw [hg]
      simp only
      rw [if_pos (ptr_bytes hlt).1]
      exact ⟨[], by simp, by simp, by simpa using hp150, by intro p hp; cases hp⟩
  | cons l a ih =>
    intro ha pre pts n hh hst h12 hn hp150
    obtain ⟨n, rfl⟩ : ∃ m, n = m + 1 := ⟨n - 1, by simp at hn; omega⟩
    have hnm := hname (l :: a) ha pre hh
    have h1 := ha.head
    have hf := len_facts ⟨l.length, by omega⟩ (by simp; intro e; simp [e] at h1)
    simp only at hf
    rw [encLabels_cons'] at hnm ⊢
    have e : c0 ++ pre ++ UInt8.ofNat l.length :: (l ++ (encLabels a ++ t)) =
        c0 ++ (pre ++ UInt8.ofNat l.length :: l) ++ (encLabels a ++ t) := by simp
    have hg : (c0 ++ pre ++ UInt8.ofNat l.length :: (l ++ (encLabels a ++ t)))[(c0 ++ pre).length]? =
        some (UInt8.ofNat l.length) := by simp
    have ht1 : 1 ≤ t.length := by
      rcases hb with ⟨_, ht, _⟩ | ⟨p, _, _, ht, _⟩ <;> rw [ht] <;> simp
    unfold addPoints
    rw [hg]
    simp only
    rw [if_neg hf.2.2.2.2, ofNat_len h1.2, if_neg (by simp; omega)]
    by_cases h150 : pts.length ≥ 150
    · left
      rw [if_pos h150]
      exact ⟨rfl, by simp; omega⟩
    rw [if_neg h150, if_neg (by rintro (h | h); exact hf.2.2.1 h; exact hf.2.1 h)]
    have ih := ih ha.tail (pre ++ UInt8.ofNat l.length :: l) (pts ++ [(c0 ++ pre).length]) n
      (by rw [← List.append_assoc]; exact hh.append _) (by
        intro h12
        have hs := (view_append h (c0 ++ pre) (UInt8.ofNat l.length :: l)).step (hst h12)
        have hl := labelAt_view hh h1 []
        rw [List.append_nil] at hl
        have := hs.snoc hl
        rw [List.append_assoc] at this
        simpa [Nat.add_assoc] using this) h12 (by simpa using hn) (by simp; omega)
    rw [← e] at ih
    have hl2 : (c0 ++ (pre ++ UInt8.ofNat l.length :: l)).length = (c0 ++ pre).length + l.length + 1 := by
      simp; omega
    rw [hl2] at ih
    rcases ih with ⟨h2, h3⟩ | ⟨new, h2, h3, h4, h5⟩
    · left
      refine ⟨h2, ?_⟩
      simp only [List.length_append, List.length_cons, List.length_nil] at h3 ⊢
      omega
    · right
      refine ⟨(c0 ++ pre).length :: new, by rw [h2]; simp, by simpa using h3, by simpa using h4, ?_⟩
      intro p hp
      rcases List.mem_cons.1 hp with rfl | hp
      · refine ⟨by rw [List.length_append]; omega, by simp, hplace pre _ hst, ⟨_, hnm⟩, UInt8.ofNat l.length, ?_, hf.2.2.2.2⟩
        have := view_right hh (UInt8.ofNat l.length :: (l ++ (encLabels a ++ t))) 0
        simpa using this
      · exact h5 p hp

end Comp
end Mara
