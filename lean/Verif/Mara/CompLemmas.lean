import Verif.Mara.CompModel
import Verif.Mara.LookupLemmas
import Verif.Mara.BigHashLoad
import Verif.Spec.Packet
import Verif.Spec.Unpacked
/-!
# Lemmas: names in a message that is being written
-/

namespace Mara
namespace Comp

open Spec
open Dw (Res)
open Lookup (encName_cons_length encName_pos encName_lower ofNat_len len_facts)

/-- Everything known in `m` is known in `m'`. -/
def Sub (m m' : Mem) : Prop := ∀ i b, m i = some b → m' i = some b

theorem Sub.refl (m : Mem) : Sub m m := fun _ _ h => h

theorem Sub.trans {a b c : Mem} (h : Sub a b) (h' : Sub b c) : Sub a c := fun i x hx => h' i x (h i x hx)

theorem Sub.label {m m' : Mem} (h : Sub m m') {i : Nat} {l : List UInt8} (hl : LabelAt m i l) : LabelAt m' i l :=
  ⟨hl.pos, hl.le, h _ _ hl.len, fun j hj => h _ _ (hl.bytes j hj)⟩

theorem Sub.bytes {m m' : Mem} (h : Sub m m') {i : Nat} {l : List UInt8} (hl : BytesAt m i l) : BytesAt m' i l :=
  fun j hj => h _ _ (hl j hj)

theorem Sub.name {m m' : Mem} (h : Sub m m') {i : Nat} {ls : List (List UInt8)} (hn : NameIn m i ls) :
    NameIn m' i ls := by
  induction hn with
  | root h0 => exact .root (h _ _ h0)
  | label hl _ ih => exact .label (h.label hl) ih
  | pointer hx h1 hy hv _ ih => exact .pointer (h _ _ hx) h1 (h _ _ hy) hv ih

theorem Sub.ends {m m' : Mem} (h : Sub m m') {i e : Nat} (hn : EndsAt m i e) : EndsAt m' i e := by
  induction hn with
  | root h0 => exact .root (h _ _ h0)
  | label hl _ ih => exact .label (h.label hl) ih
  | pointer hx h1 => exact .pointer (h _ _ hx) h1

theorem Sub.names {m m' : Mem} (h : Sub m m') {i e : Nat} {ns : List (List (List UInt8))} (hn : NamesIn m i ns e) :
    NamesIn m' i ns e := by
  induction hn with
  | nil => exact .nil
  | cons a b _ ih => exact .cons (h.name a) (h.ends b) ih

theorem Sub.rec {m m' : Mem} (h : Sub m m') {i e : Nat} {r : Rec} (hr : RecIn m i r e) : RecIn m' i r e := by
  obtain ⟨a, k, h1, h2, h3, h4, h5, h6, h7, h8, h9⟩ := hr.at_
  exact ⟨a, k, h.name h1, h.ends h2, h.bytes h3, h4, h5, h.bytes h6, h.names h7, h.bytes h8, h9⟩

/-- From `i` one comes to `p` by labels alone. -/
inductive Leads (m : Mem) : Nat → Nat → Prop
  | here {i} : Leads m i i
  | label {i l p} : LabelAt m i l → Leads m (i + (l.length + 1)) p → Leads m i p

/-- A name without pointers ends before `e`. -/
inductive Halts (m : Mem) : Nat → Nat → Prop
  | root {i} : m i = some 0 → Halts m i (i + 1)
  | label {i l e} : LabelAt m i l → Halts m (i + (l.length + 1)) e → Halts m i e

/-- Part of the name in the question, or behind the question. -/
def Placed (m : Mem) (p : Nat) : Prop := Leads m 12 p ∨ ∃ e, Halts m 12 e ∧ e + 4 ≤ p

theorem Sub.step {m m' : Mem} (h : Sub m m') {i p : Nat} (hs : Leads m i p) : Leads m' i p := by
  induction hs with
  | here => exact .here
  | label hl _ ih => exact .label (h.label hl) ih

theorem Sub.stop {m m' : Mem} (h : Sub m m') {i p : Nat} (hs : Halts m i p) : Halts m' i p := by
  induction hs with
  | root h0 => exact .root (h _ _ h0)
  | label hl _ ih => exact .label (h.label hl) ih

theorem Sub.placed {m m' : Mem} (h : Sub m m') {p : Nat} (hs : Placed m p) : Placed m' p := by
  rcases hs with hs | ⟨e, hs, he⟩
  · exact .inl (h.step hs)
  · exact .inr ⟨e, h.stop hs, he⟩

theorem Leads.snoc {m : Mem} {i p : Nat} {l : List UInt8} (hs : Leads m i p) (hl : LabelAt m p l) :
    Leads m i (p + (l.length + 1)) := by
  induction hs with
  | here => exact .label hl .here
  | label h _ ih => exact .label h (ih hl)

/-- A name whose pointers refer to labels behind the header, in the question or behind it. -/
inductive Firm (m : Mem) : Nat → Name → Prop
  | root {i} : m i = some 0 → Firm m i []
  | label {i l ls} : LabelAt m i l → Firm m (i + (l.length + 1)) ls → Firm m i (l :: ls)
  | pointer {i x y z ls} : m i = some x → 192 ≤ x → m (i + 1) = some y → x.toNat % 64 * 256 + y.toNat < i →
      12 ≤ x.toNat % 64 * 256 + y.toNat → Placed m (x.toNat % 64 * 256 + y.toNat) → m (x.toNat % 64 * 256 + y.toNat) = some z → ¬ 192 ≤ z → ls ≠ [] →
      Firm m (x.toNat % 64 * 256 + y.toNat) ls → Firm m i ls

theorem Firm.toIn {m : Mem} {i : Nat} {ls : Name} (h : Firm m i ls) : NameIn m i ls := by
  induction h with
  | root h => exact .root h
  | label h _ ih => exact .label h ih
  | pointer h1 h2 h3 h4 _ _ _ _ _ _ ih => exact .pointer h1 h2 h3 h4 ih

theorem Sub.firm {m m' : Mem} (h : Sub m m') {i : Nat} {ls : List (List UInt8)} (hn : Firm m i ls) : Firm m' i ls := by
  induction hn with
  | root h0 => exact .root (h _ _ h0)
  | label hl _ ih => exact .label (h.label hl) ih
  | pointer hx h1 hy hv h12 hp hz h192 hne _ ih => exact .pointer (h _ _ hx) h1 (h _ _ hy) hv h12 (h.placed hp) (h _ _ hz) h192 hne ih

theorem Sub.firms {m m' : Mem} (h : Sub m m') {i e : Nat} {ns : List (List (List UInt8))} (hn : NamesVia (Firm m) m i ns e) :
    NamesVia (Firm m') m' i ns e := by
  induction hn with
  | nil => exact .nil
  | cons a b _ ih => exact .cons (h.firm a) (h.ends b) ih

theorem Sub.frec {m m' : Mem} (h : Sub m m') {i e : Nat} {r : Rec} (hr : RecVia (Firm m) m i r e) : RecVia (Firm m') m' i r e := by
  obtain ⟨a, k, h1, h2, h3, h4, h5, h6, h7, h8, h9⟩ := hr.at_
  exact ⟨a, k, h.firm h1, h.ends h2, h.bytes h3, h4, h5, h.bytes h6, h.firms h7, h.bytes h8, h9⟩

theorem firms_in {m : Mem} {i e : Nat} {ns : List (List (List UInt8))} (hn : NamesVia (Firm m) m i ns e) : NamesIn m i ns e := by
  induction hn with
  | nil => exact .nil
  | cons a b _ ih => exact .cons a.toIn b ih

theorem frecs_in {m : Mem} {i e : Nat} {rs : List Rec} (hn : RecsVia (Firm m) m i rs e) : RecsIn m i rs e := by
  induction hn with
  | nil => exact .nil
  | cons hr _ ih =>
    obtain ⟨a, k, h1, h2, h3, h4, h5, h6, h7, h8, h9⟩ := hr.at_
    exact .cons ⟨a, k, h1.toIn, h2, h3, h4, h5, h6, firms_in h7, h8, h9⟩ ih

/-- The bytes of a message, except for the two at `h` (the length of the data, which is written
last). -/
def view (h : Option Nat) (c : List UInt8) : Mem :=
  match h with
  | none => memOf c
  | some a => fun i => if a ≤ i ∧ i < a + 2 then none else c[i]?

/-- The two bytes have been written. -/
def HoleOk (h : Option Nat) (c : List UInt8) : Prop := ∀ a, h = some a → a + 2 ≤ c.length

theorem HoleOk.append {h : Option Nat} {c : List UInt8} (hh : HoleOk h c) (x : List UInt8) : HoleOk h (c ++ x) := by
  intro a ha
  have := hh a ha
  rw [List.length_append]
  omega

theorem view_sub (h : Option Nat) (c : List UInt8) : Sub (view h c) (memOf c) := by
  intro i b hb
  cases h with
  | none => exact hb
  | some a =>
    simp only [view] at hb
    split at hb
    · cases hb
    · exact hb

theorem memOf_append (c x : List UInt8) : Sub (memOf c) (memOf (c ++ x)) := by
  intro i b hb
  unfold memOf at *
  obtain ⟨hi, _⟩ := List.getElem?_eq_some_iff.1 hb
  rw [List.getElem?_append_left hi]
  exact hb

theorem view_append (h : Option Nat) (c x : List UInt8) : Sub (view h c) (view h (c ++ x)) := by
  intro i b hb
  cases h with
  | none => exact memOf_append c x i b hb
  | some a =>
    simp only [view] at hb ⊢
    split at hb
    · cases hb
    · rename_i hn
      rw [if_neg hn]
      exact memOf_append c x i b hb

theorem view_right {h : Option Nat} {c : List UInt8} (hh : HoleOk h c) (x : List UInt8) (j : Nat) :
    view h (c ++ x) (c.length + j) = x[j]? := by
  have e : (c ++ x)[c.length + j]? = x[j]? := by
    rw [List.getElem?_append_right (by omega)]
    congr 1
    omega
  cases h with
  | none => exact e
  | some a =>
    have := hh a rfl
    simp only [view]
    rw [if_neg (by omega)]
    exact e

theorem bytesAt_view {h : Option Nat} {c : List UInt8} (hh : HoleOk h c) (l t : List UInt8) :
    BytesAt (view h (c ++ (l ++ t))) c.length l := by
  intro j hj
  rw [view_right hh, List.getElem?_append_left hj, List.getElem?_eq_getElem hj]

theorem labelAt_view {h : Option Nat} {c : List UInt8} (hh : HoleOk h c) {l : List UInt8} (hl : 1 ≤ l.length ∧ l.length ≤ 63)
    (t : List UInt8) : LabelAt (view h (c ++ (UInt8.ofNat l.length :: (l ++ t)))) c.length l := by
  refine ⟨hl.1, hl.2, ?_, ?_⟩
  · have := view_right hh (UInt8.ofNat l.length :: (l ++ t)) 0
    simpa using this
  · intro j hj
    have := view_right hh (UInt8.ofNat l.length :: (l ++ t)) (1 + j)
    rw [← Nat.add_assoc] at this
    rw [this, Nat.add_comm 1 j, List.getElem?_cons_succ, List.getElem?_append_left hj, List.getElem?_eq_getElem hj]

theorem encLabels_cons' (l : List UInt8) (a : Name) (t : List UInt8) :
    encLabels (l :: a) ++ t = UInt8.ofNat l.length :: (l ++ (encLabels a ++ t)) := by
  rw [encLabels_cons]; simp

theorem encLabels_length (l : List UInt8) (a : Name) : (encLabels (l :: a)).length = l.length + 1 + (encLabels a).length := by
  rw [encLabels_cons]; simp; omega

/-- Labels in front of a name. -/
theorem nameIn_labels {h : Option Nat} : ∀ {a : Name}, LabelsOk a → ∀ {c : List UInt8}, HoleOk h c → ∀ (t : List UInt8) (ls : Name),
    NameIn (view h (c ++ (encLabels a ++ t))) (c.length + (encLabels a).length) ls →
    NameIn (view h (c ++ (encLabels a ++ t))) c.length (a ++ ls)
  | [], _, c, hh, t, ls, hn => by simpa [encLabels] using hn
  | l :: a, ha, c, hh, t, ls, hn => by
    have h1 := labelAt_view hh ha.head (encLabels a ++ t)
    rw [encLabels_cons' l a t] at hn ⊢
    have e : c ++ UInt8.ofNat l.length :: (l ++ (encLabels a ++ t)) =
        (c ++ UInt8.ofNat l.length :: l) ++ (encLabels a ++ t) := by simp
    have hlen : (c ++ UInt8.ofNat l.length :: l).length = c.length + (l.length + 1) := by simp
    have ih := nameIn_labels ha.tail (hh.append (UInt8.ofNat l.length :: l)) t ls
    rw [← e, hlen] at ih
    refine .label h1 (ih ?_)
    rw [encLabels_length] at hn
    rw [show c.length + (l.length + 1) + (encLabels a).length = c.length + (l.length + 1 + (encLabels a).length) by omega]
    exact hn

theorem firm_labels {h : Option Nat} : ∀ {a : Name}, LabelsOk a → ∀ {c : List UInt8}, HoleOk h c → ∀ (t : List UInt8) (ls : Name),
    Firm (view h (c ++ (encLabels a ++ t))) (c.length + (encLabels a).length) ls →
    Firm (view h (c ++ (encLabels a ++ t))) c.length (a ++ ls)
  | [], _, c, hh, t, ls, hn => by simpa [encLabels] using hn
  | l :: a, ha, c, hh, t, ls, hn => by
    have h1 := labelAt_view hh ha.head (encLabels a ++ t)
    rw [encLabels_cons' l a t] at hn ⊢
    have e : c ++ UInt8.ofNat l.length :: (l ++ (encLabels a ++ t)) =
        (c ++ UInt8.ofNat l.length :: l) ++ (encLabels a ++ t) := by simp
    have hlen : (c ++ UInt8.ofNat l.length :: l).length = c.length + (l.length + 1) := by simp
    have ih := firm_labels ha.tail (hh.append (UInt8.ofNat l.length :: l)) t ls
    rw [← e, hlen] at ih
    refine .label h1 (ih ?_)
    rw [encLabels_length] at hn
    rw [show c.length + (l.length + 1) + (encLabels a).length = c.length + (l.length + 1 + (encLabels a).length) by omega]
    exact hn

theorem endsAt_labels {h : Option Nat} : ∀ {a : Name}, LabelsOk a → ∀ {c : List UInt8}, HoleOk h c → ∀ (t : List UInt8) (e : Nat),
    EndsAt (view h (c ++ (encLabels a ++ t))) (c.length + (encLabels a).length) e →
    EndsAt (view h (c ++ (encLabels a ++ t))) c.length e
  | [], _, c, hh, t, ls, hn => by simpa [encLabels] using hn
  | l :: a, ha, c, hh, t, ls, hn => by
    have h1 := labelAt_view hh ha.head (encLabels a ++ t)
    rw [encLabels_cons' l a t] at hn ⊢
    have e : c ++ UInt8.ofNat l.length :: (l ++ (encLabels a ++ t)) =
        (c ++ UInt8.ofNat l.length :: l) ++ (encLabels a ++ t) := by simp
    have hlen : (c ++ UInt8.ofNat l.length :: l).length = c.length + (l.length + 1) := by simp
    have ih := endsAt_labels ha.tail (hh.append (UInt8.ofNat l.length :: l)) t ls
    rw [← e, hlen] at ih
    refine .label h1 (ih ?_)
    rw [encLabels_length] at hn
    rw [show c.length + (l.length + 1) + (encLabels a).length = c.length + (l.length + 1 + (encLabels a).length) by omega]
    exact hn

theorem NameIn.ok {m : Mem} {i : Nat} {ls : Name} (hn : NameIn m i ls) : LabelsOk ls := by
  induction hn with
  | root _ => intro l hl; cases hl
  | label hl _ ih =>
    intro x hx
    rcases List.mem_cons.1 hx with rfl | hx
    · exact ⟨hl.pos, hl.le⟩
    · exact ih x hx
  | pointer _ _ _ _ _ ih => exact ih

theorem drop_label {c : List UInt8} {i : Nat} {l : List UInt8} (hl : LabelAt (memOf c) i l) :
    (c.drop i).take (l.length + 1) = UInt8.ofNat l.length :: l := by
  have h0 : c[i]? = some (UInt8.ofNat l.length) := hl.len
  have hb : ∀ j (h : j < l.length), c[i + 1 + j]? = some l[j] := hl.bytes
  apply List.ext_getElem?
  intro j
  by_cases hj : j < l.length + 1
  · rw [List.getElem?_take_of_lt hj, List.getElem?_drop]
    cases j with
    | zero => simpa using h0
    | succ j =>
      have := hb j (by omega)
      rw [show i + (j + 1) = i + 1 + j by omega, this, List.getElem?_cons_succ, List.getElem?_eq_getElem (by omega)]
  · rw [List.getElem?_eq_none (by rw [List.length_take]; omega), List.getElem?_eq_none (by simp; omega)]

/-- What `decomp_get_label` finds is the name that is there. -/
theorem getLabel_name {c : List UInt8} {m : Mem} (hm : Sub m (memOf c)) {i : Nat} {ls : Name} (hn : NameIn m i ls) :
    ∀ (n : Nat) (acc l : List UInt8), getLabel c n i acc = some l → l = acc ++ encName ls := by
  induction hn with
  | @root i h0 =>
    intro n acc l hl
    have h0 : c[i]? = some 0 := hm _ _ h0
    cases n with
    | zero => cases hl
    | succ n =>
      unfold getLabel at hl
      rw [h0] at hl
      simp only [show ¬ ((0 : UInt8) > 63 ∧ (0 : UInt8) < 192) by decide, show ¬ ((0 : UInt8) ≥ 192) by decide,
        show ¬ ((0 : UInt8) > 0) by decide, if_false] at hl
      split at hl
      · cases hl
      · exact (Option.some.inj hl).symm
  | @label i l ls hl _ ih =>
    intro n acc x hx
    have hl := hm.label hl
    have h0 : c[i]? = some (UInt8.ofNat l.length) := hl.len
    have h1 : 1 ≤ l.length ∧ l.length ≤ 63 := ⟨hl.pos, hl.le⟩
    cases n with
    | zero => cases hx
    | succ n =>
      unfold getLabel at hx
      rw [h0] at hx
      have hf := len_facts ⟨l.length, by omega⟩ (by simp; intro e; simp [e] at h1)
      simp only at hf hx
      rw [if_neg (by intro h; exact hf.2.1 h.1), if_neg hf.2.2.2.2, if_pos hf.2.2.2.1, ofNat_len h1.2] at hx
      split at hx
      · cases hx
      · split at hx
        · cases hx
        · rw [drop_label hl] at hx
          have := ih _ _ _ hx
          rw [this, Lookup.encName_cons]
          simp
  | @pointer i x y ls hx h1 hy hv _ ih =>
    intro n acc l hl
    have hx : c[i]? = some x := hm _ _ hx
    have hy : c[i + 1]? = some y := hm _ _ hy
    cases n with
    | zero => cases hl
    | succ n =>
      unfold getLabel at hl
      rw [hx] at hl
      simp only at hl
      rw [if_neg (by rintro ⟨_, h⟩; exact absurd h (by rw [UInt8.not_lt]; exact h1)), if_pos h1, hy] at hl
      simp only at hl
      rw [if_neg (by omega)] at hl
      split at hl
      · cases hl
      · exact ih _ _ _ hl

/-- A name in full. -/
theorem nameIn_plain {ls : Name} (hls : LabelsOk ls) (pre rest : List UInt8) :
    NameIn (memOf (pre ++ (encName ls ++ rest))) pre.length ls := by
  have := nameIn_labels (h := none) hls (c := pre) (by intro a ha; cases ha) ([0] ++ rest) [] ?_
  · simpa [encName, view] using this
  · refine .root ?_
    have := view_right (h := none) (c := pre) (by intro a ha; cases ha) (encLabels ls ++ ([0] ++ rest)) (encLabels ls).length
    rw [this]
    simp

theorem sameName_of_enc {a b : Name} (ha : LabelsOk a) (hb : LabelsOk b)
    (h : (encName a).map Js.lower = (encName b).map Js.lower) : SameName a b := by
  rw [encName_lower ha, encName_lower hb] at h
  have := Big.encName_inj (r := []) (s := []) (Lookup.lowName_ok ha) (Lookup.lowName_ok hb) (by rw [h])
  exact this.1

/-- Places that are equal hold the same name. -/
theorem same_name {u c : List UInt8} {i p : Nat} {m : Mem} {a b : Name} (hm : Sub m (memOf c)) (ha : NameIn (memOf u) i a)
    (hb : NameIn m p b) (h : same u c i p = true) : SameName a b := by
  unfold same at h
  split at h
  · rename_i x y hx hy
    have e1 := getLabel_name (Sub.refl _) ha _ _ _ hx
    have e2 := getLabel_name hm hb _ _ _ hy
    have := of_decide_eq_true h
    rw [e1, e2] at this
    exact sameName_of_enc (NameIn.ok ha) (NameIn.ok hb) (by simpa using this)
  · cases h

end Comp
end Mara
