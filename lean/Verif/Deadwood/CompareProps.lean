import Verif.Deadwood.DecompSafe
import Verif.Spec.NameEq
/-!
# Comparison of labels and names

Theorems about `dwc_label_same` and `dwc_dname_same`.
-/

namespace Dw
namespace DwStr
open Spec

theorem fold_lower (c : UInt8) : fold c = lower c := by
  simp only [fold, lower, UInt8.le_iff_toNat_le]
  have : (65 : UInt8).toNat = 65 := rfl
  have : (90 : UInt8).toNat = 90 := rfl
  split
  · rename_i h
    rw [if_pos (by omega)]
    apply UInt8.toNat_inj.1
    have := c.toNat_lt
    simp
  · rename_i h
    rw [if_neg (by omega)]

theorem fold_small {c : UInt8} (h : c.toNat < 65) : fold c = c := by
  simp only [fold, UInt8.le_iff_toNat_le]
  have : (65 : UInt8).toNat = 65 := rfl
  rw [if_neg (by omega)]

/-- A label, or the root label for `[]`. -/
structure LabAt (m : Mem) (i : Nat) (l : List UInt8) : Prop where
  le : l.length ≤ 63
  len : m i = some (UInt8.ofNat l.length)
  bytes : ∀ j (h : j < l.length), m (i + 1 + j) = some l[j]

theorem _root_.Spec.LabelAt.lab {m : Mem} {i : Nat} {l : List UInt8} (h : LabelAt m i l) : LabAt m i l :=
  ⟨h.le, h.len, h.bytes⟩

theorem LabAt.root {m : Mem} {i : Nat} (h : m i = some 0) : LabAt m i [] :=
  ⟨by simp, h, by simp⟩

theorem LabAt.fit {s : DwStr} (h : Usable s) {i : Nat} {l : List UInt8} (hl : LabAt s.mem i l) :
    i + (l.length + 1) ≤ s.len := by
  have h0 := mem_lt h hl.len
  by_cases hz : l.length = 0
  · omega
  · have := mem_lt h (hl.bytes (l.length - 1) (by omega))
    omega

theorem labelLoop_exact {a b : DwStr} {ao bo : Nat} {l m : List UInt8}
    (hl : LabAt a.mem ao l) (hm : LabAt b.mem bo m) :
    ∀ c, c ≤ l.length → c ≤ m.length →
    labelLoop a ao b bo c = .ok (decide ((l.take c).map lower = (m.take c).map lower)) := by
  intro c
  induction c with
  | zero => intro _ _; simp [labelLoop]
  | succ c ih =>
    intro h1 h2
    rw [labelLoop]
    have e1 := mem_peek (hl.bytes c (by omega))
    have e2 := mem_peek (hm.bytes c (by omega))
    rw [show ao + 1 + c = ao + (c + 1) by omega] at e1
    rw [show bo + 1 + c = bo + (c + 1) by omega] at e2
    rw [e1, Res.ok_bind, e2, Res.ok_bind, fold_lower, fold_lower, ih (by omega) (by omega)]
    have t1 : l.take (c + 1) = l.take c ++ [l[c]] := by simp
    have t2 : m.take (c + 1) = m.take c ++ [m[c]] := by simp
    rw [t1, t2]
    have hlen : ((l.take c).map lower).length = ((m.take c).map lower).length := by simp; omega
    by_cases hh : lower l[c] = lower m[c]
    · rw [if_neg (by simpa using hh)]
      congr 1
      rw [decide_eq_decide]
      simp only [List.map_append, List.map_cons, List.map_nil]
      constructor
      · intro g; rw [g, hh]
      · intro g; exact (List.append_inj g hlen).1
    · rw [if_pos hh]
      congr 1
      symm
      rw [decide_eq_false_iff_not]
      simp only [List.map_append, List.map_cons, List.map_nil]
      intro g
      have := (List.append_inj g hlen).2
      simp at this
      exact hh this

theorem lab_same {a b : DwStr} (ha : Usable a) (hb : Usable b) {ao bo : Nat} {l m : List UInt8}
    (hl : LabAt a.mem ao l) (hm : LabAt b.mem bo m) :
    labelSame a ao b bo = .ok (decide (l.map lower = m.map lower)) := by
  have f1 := hl.fit ha
  have f2 := hm.fit hb
  have n1 := ofNat_len hl.le
  have n2 := ofNat_len hm.le
  have g1 := hl.le; have g2 := hm.le
  rw [labelSame]
  simp only [ha.sane, hb.sane, Bool.not_true, Bool.or_self,
    decide_eq_false (show ¬ ao > a.len by omega), decide_eq_false (show ¬ bo > b.len by omega),
    Bool.false_eq_true, if_false, mem_peek hl.len, mem_peek hm.len, Res.ok_bind]
  rw [fold_small (by omega), fold_small (by omega)]
  by_cases hlen : l.length = m.length
  · rw [hlen]
    have e64 : ¬ UInt8.ofNat m.length > 64 := by
      rw [gt_iff_lt, UInt8.lt_iff_toNat_lt, n2]; simp; omega
    rw [if_neg (by simp), if_neg (by rw [n2]; rintro (h | h | h); exacts [e64 h, by omega, by omega]), n2,
      labelLoop_exact hl hm _ (by omega) (by omega)]
    rw [List.take_of_length_le (by omega), List.take_of_length_le (by omega)]
  · rw [if_pos (by intro h; apply hlen; rw [← n1, ← n2, h])]
    congr 1
    symm
    rw [decide_eq_false_iff_not]
    intro h
    apply hlen
    simpa using congrArg List.length h

/-- **C29 (labels).** Comparing two labels gives "same" exactly when they are equal
ignoring ASCII case, wherever they are. -/
theorem labelSame_exact {a b : DwStr} (ha : Usable a) (hb : Usable b) {ao bo : Nat} {l m : List UInt8}
    (hl : LabelAt a.mem ao l) (hm : LabelAt b.mem bo m) :
    labelSame a ao b bo = .ok (decide (l.map lower = m.map lower)) :=
  lab_same ha hb hl.lab hm.lab

/-! ## Names -/

/-- The known bytes of the question, if there is one. -/
def qmem (q : Option DwStr) : Mem := match q with | some q => q.mem | none => fun _ => none

theorem pick_mem (c : DwStr) {q : Option DwStr} {b : Bool} (hb : b = true → q ≠ none) :
    sel c.mem (qmem q) b = (pick c q b).mem := by
  cases b
  · rfl
  · cases q
    · exact absurd rfl (hb rfl)
    · rfl

theorem pick_usable {c : DwStr} {q : Option DwStr} (hc : Usable c) (hq : ∀ x, q = some x → Usable x)
    (b : Bool) : Usable (pick c q b) := by
  cases b
  · exact hc
  · cases q
    · exact hc
    · exact hq _ rfl

theorem ptrTarget_q {plen v i : Nat} {q : Option DwStr} (h : ptrTarget plen (qlen q) v = some (true, i)) :
    q ≠ none := by
  rintro rfl
  simp [ptrTarget, qlen] at h

theorem follow_lit {c : DwStr} (hc : Usable c) {q : Option DwStr} {i : Nat} {b : Bool} {z : UInt8}
    (hb : b = true → q ≠ none) (hz : sel c.mem (qmem q) b i = some z) (h : z < 64) :
    follow c q i b = .ok (i, b) := by
  cases b
  · have hz' : c.mem i = some z := hz
    have := mem_lt hc hz'
    rw [follow, if_neg (by simp), decompOffset_lit hc (by omega) (mem_peek hz') h, Res.ok_bind]
    rw [if_neg (by omega), if_neg (by omega)]
    simp
  · rfl

theorem follow_ptr {c : DwStr} (hc : Usable c) {q : Option DwStr} {i : Nat} {x y : UInt8} {b₁ : Bool} {i₁ : Nat}
    (h1 : c.mem i = some x) (h2 : 192 ≤ x) (h3 : c.mem (i + 1) = some y)
    (h4 : ptrTarget c.len (qlen q) (x.toNat % 64 * 256 + y.toNat) = some (b₁, i₁)) :
    follow c q i false = .ok (i₁, b₁) := by
  have := mem_lt hc h1
  rw [follow, if_neg (by simp),
    decompOffset_ptr hc (by omega) (mem_peek h1) (not_lt64 h2) (mem_peek h3), Res.ok_bind, h4]
  cases b₁
  · simp only
    rw [if_neg (by omega), if_neg (by omega), Int.toNat_natCast]
  · have := ptrTarget_q h4
    simp only
    rw [if_neg (by rintro (h | ⟨h, -⟩); exacts [by omega, this h]), if_pos (by omega)]
    congr 2
    omega

/-- The first label of a name. -/
def hd (ls : List (List UInt8)) : List UInt8 := ls.headD []

theorem _root_.Spec.OneHop.first {c : DwStr} (hc : Usable c) {q : Option DwStr} {b : Bool} {i : Nat} {ls : List (List UInt8)}
    (hb : b = true → q ≠ none) (h : OneHop c.mem (qmem q) c.len (qlen q) b i ls) :
    ∃ b₁ i₁, follow c q i b = .ok (i₁, b₁) ∧ (b₁ = true → q ≠ none) ∧
      LabAt (sel c.mem (qmem q) b₁) i₁ (hd ls) ∧
      (ls ≠ [] → OneHop c.mem (qmem q) c.len (qlen q) b₁ (i₁ + ((hd ls).length + 1)) ls.tail) := by
  have lit : ∀ {b i ls}, OneHop c.mem (qmem q) c.len (qlen q) b i ls →
      (∃ z, sel c.mem (qmem q) b i = some z ∧ z < 64) →
      LabAt (sel c.mem (qmem q) b) i (hd ls) ∧
      (ls ≠ [] → OneHop c.mem (qmem q) c.len (qlen q) b (i + ((hd ls).length + 1)) ls.tail) := by
    intro b i ls h ⟨z, hz, hz64⟩
    cases h with
    | root h => exact ⟨LabAt.root h, fun g => absurd rfl g⟩
    | label h g => exact ⟨h.lab, fun _ => g⟩
    | @pointer _ x _ _ _ _ _ h1 h2 =>
      have : some x = some z := by rw [← h1, ← hz]; rfl
      cases this
      exact absurd hz64 (not_lt64 h2)
  cases h with
  | root h =>
    have := lit (OneHop.root (p := c.mem) (q := qmem q) (plen := c.len) (qlen := qlen q) h) ⟨0, h, by decide⟩
    exact ⟨b, i, follow_lit hc hb h (by decide), hb, this⟩
  | @label _ _ l ls h g =>
    have hz : UInt8.ofNat l.length < 64 := by
      rw [UInt8.lt_iff_toNat_lt, ofNat_len h.le]; have := h.le; simp; omega
    exact ⟨b, i, follow_lit hc hb h.len hz, hb, lit (.label h g) ⟨_, h.len, hz⟩⟩
  | pointer h1 h2 h3 h4 h5 h6 g =>
    exact ⟨_, _, follow_ptr hc h1 h2 h3 h4, fun hb => by subst hb; exact ptrTarget_q h4, lit g ⟨_, h5, h6⟩⟩

theorem _root_.Spec.PlainAt.first {u : DwStr} {i : Nat} {ls : List (List UInt8)} (h : PlainAt u.mem i ls) :
    LabAt u.mem i (hd ls) ∧ (ls ≠ [] → PlainAt u.mem (i + ((hd ls).length + 1)) ls.tail ∧ 0 < (hd ls).length) := by
  cases h with
  | root h => exact ⟨LabAt.root h, fun g => absurd rfl g⟩
  | label h g => exact ⟨h.lab, fun _ => ⟨g, h.pos⟩⟩

theorem _root_.Spec.PlainAt.lt {u : DwStr} (hu : Usable u) {i : Nat} {ls : List (List UInt8)} (h : PlainAt u.mem i ls) :
    i < u.len := mem_lt hu (PlainAt.first h).1.len

theorem _root_.Spec.OneHop.hd_pos {p q : Mem} {plen qlen : Nat} {b : Bool} {i : Nat} {ls : List (List UInt8)}
    (h : OneHop p q plen qlen b i ls) (hne : ls ≠ []) : 0 < (hd ls).length := by
  induction h with
  | root => exact absurd rfl hne
  | label h => exact h.pos
  | pointer _ _ _ _ _ _ _ ih => exact ih hne

theorem sameName_cons (a b : List UInt8) (as bs : List (List UInt8)) :
    SameName (a :: as) (b :: bs) ↔ a.map lower = b.map lower ∧ SameName as bs := by
  simp [SameName]

theorem dnameLoop_exact {u c : DwStr} (hu : Usable u) (hc : Usable c) {q : Option DwStr}
    (hq : ∀ x, q = some x → Usable x) :
    ∀ (n : Nat) {uo place : Nat} {b : Bool} {us cs : List (List UInt8)}, us.length < n →
    (b = true → q ≠ none) → PlainAt u.mem uo us → OneHop c.mem (qmem q) c.len (qlen q) b place cs →
    dnameLoop u c q n uo place b = .ok (decide (SameName us cs)) := by
  intro n
  induction n with
  | zero => intro uo place b us cs h; omega
  | succ n ih =>
    intro uo place b us cs hn hb hP hO
    obtain ⟨b₁, i₁, hf, hb₁, hL, hT⟩ := OneHop.first hc hb hO
    obtain ⟨hLu, hTu⟩ := PlainAt.first hP
    rw [dnameLoop, hf, Res.ok_bind]
    simp only
    rw [pick_mem c hb₁] at hL
    have hs := pick_usable hc hq b₁
    rw [lab_same hu hs hLu hL]
    simp only [isYes, Res.ok_bind, mem_peek hLu.len, ofNat_len hLu.le]
    have hdc : cs ≠ [] → 0 < (hd cs).length := OneHop.hd_pos hO
    by_cases he : (hd us).map lower = (hd cs).map lower
    · simp only [decide_eq_true he, Bool.not_true, Bool.false_eq_true, if_false]
      have hll : (hd us).length = (hd cs).length := by simpa using congrArg List.length he
      cases us with
      | nil =>
        cases cs with
        | nil => simp [hd, SameName]
        | cons x xs => have := hdc (by simp); simp [hd] at this hll; omega
      | cons x xs =>
        obtain ⟨hTu, hpos⟩ := hTu (by simp)
        cases cs with
        | nil => simp [hd] at hll hpos; rw [hll] at hpos; simp at hpos
        | cons y ys =>
          have hT := hT (by simp)
          rw [show hd (x :: xs) = x from rfl] at *
          rw [show hd (y :: ys) = y from rfl] at *
          simp only [List.tail_cons] at hT hTu
          have hlt := hTu.lt hu
          have hle := hLu.le
          have hle2 : ¬ (64 : UInt8) < UInt8.ofNat x.length := by
            rw [UInt8.lt_iff_toNat_lt, ofNat_len hle]; simp; omega
          have hne : ¬ UInt8.ofNat x.length = 0 := by
            intro h
            have := ofNat_len hle
            rw [h] at this
            simp at this; omega
          have hfit := hL.fit hs
          rw [if_neg hne, if_neg (by rintro (h | h); exacts [hle2 h, by omega]), if_neg (by omega)]
          rw [← hll] at hT
          rw [ih (by simpa using hn) hb₁ hTu hT]
          simp [sameName_cons, he]
    · simp only [decide_eq_false he, Bool.not_false, if_true]
      congr 1
      symm
      rw [decide_eq_false_iff_not]
      intro hsn
      apply he
      cases us <;> cases cs
      · rfl
      · simp [SameName] at hsn
      · simp [SameName] at hsn
      · exact ((sameName_cons _ _ _ _).1 hsn).1

/-- **C29 (names).** Comparing a plain name with another name, which may be
compressed as long as no pointer leads directly to a pointer, gives "same" exactly
when the names are equal ignoring ASCII case. -/
theorem dnameSame_exact {u c : DwStr} (hu : Usable u) (hc : Usable c) {q : Option DwStr}
    (hq : ∀ x, q = some x → Usable x) {uo co : Nat} {us cs : List (List UInt8)} (hn : us.length < 300)
    (hP : PlainAt u.mem uo us) (hO : OneHop c.mem (qmem q) c.len (qlen q) false co cs) :
    dnameSame u uo c co q = .ok (decide (SameName us cs)) := by
  have h1 := PlainAt.lt hu hP
  have h2 : co < c.len := by
    cases hO with
    | root h => exact mem_lt hc h
    | label h => exact mem_lt hc h.len
    | pointer h => exact mem_lt hc h
  rw [dnameSame]
  simp only [hu.sane, hc.sane, Bool.not_true, Bool.or_self,
    decide_eq_false (show ¬ uo > u.len by omega), decide_eq_false (show ¬ co > c.len by omega),
    Bool.false_eq_true, if_false]
  exact dnameLoop_exact hu hc hq 300 hn (by simp) hP hO

/-- **C29 (plain names).** For two plain names. -/
theorem dnameSame_plain {u c : DwStr} (hu : Usable u) (hc : Usable c) {uo co : Nat}
    {us cs : List (List UInt8)} (hn : us.length < 300) (hP : PlainAt u.mem uo us) (hO : PlainAt c.mem co cs) :
    dnameSame u uo c co none = .ok (decide (SameName us cs)) :=
  dnameSame_exact hu hc (by simp) hn hP (PlainAt.oneHop (b := false) (p := c.mem) hO)

/-- **C29 (equivalence).** Comparison of plain names is reflexive, symmetric and
transitive. -/
theorem dnameSame_equivalence {a b c : DwStr} (ha : Usable a) (hb : Usable b) (hc : Usable c)
    {ao bo co : Nat} {as bs cs : List (List UInt8)} (h1 : as.length < 300) (h2 : bs.length < 300)
    (hA : PlainAt a.mem ao as) (hB : PlainAt b.mem bo bs) (hC : PlainAt c.mem co cs) :
    dnameSame a ao a ao none = .ok true ∧
    dnameSame a ao b bo none = dnameSame b bo a ao none ∧
    (dnameSame a ao b bo none = .ok true → dnameSame b bo c co none = .ok true →
      dnameSame a ao c co none = .ok true) := by
  rw [dnameSame_plain ha ha h1 hA hA, dnameSame_plain ha hb h1 hA hB, dnameSame_plain hb ha h2 hB hA,
    dnameSame_plain hb hc h2 hB hC, dnameSame_plain ha hc h1 hA hC]
  refine ⟨by simp [SameName], ?_, ?_⟩
  · congr 1; rw [decide_eq_decide]; exact ⟨Eq.symm, Eq.symm⟩
  · simp only [Res.ok.injEq, decide_eq_true_eq]
    intro g1 g2
    exact g1.trans g2

/-! ## Any strings -/

theorem labelLoop_safe {a b : DwStr} (ha : Usable a) (hb : Usable b) {ao bo : Nat} :
    ∀ n, ao + n ≤ a.len → bo + n ≤ b.len → ∃ r, labelLoop a ao b bo n = .ok r := by
  intro n
  induction n with
  | zero => intro _ _; exact ⟨true, rfl⟩
  | succ n ih =>
    intro h1 h2
    obtain ⟨x, hx⟩ := peek_block ha (i := ao + (n + 1)) (by omega)
    obtain ⟨y, hy⟩ := peek_block hb (i := bo + (n + 1)) (by omega)
    rw [labelLoop, hx, Res.ok_bind, hy, Res.ok_bind]
    split
    · exact ⟨false, rfl⟩
    · exact ih (by omega) (by omega)

theorem labelSame_safe {a b : DwStr} (ha : Usable a) (hb : Usable b) (ao bo : Nat) :
    labelSame a ao b bo = .err ∨ ∃ r, labelSame a ao b bo = .ok r ∧ ao ≤ a.len ∧ bo ≤ b.len := by
  rw [labelSame]
  by_cases h : ao > a.len ∨ bo > b.len
  · left
    rcases h with h | h <;> simp [h]
  · simp only [ha.sane, hb.sane, Bool.not_true, Bool.or_self,
      decide_eq_false (show ¬ ao > a.len by omega), decide_eq_false (show ¬ bo > b.len by omega),
      Bool.false_eq_true, if_false]
    obtain ⟨x, hx⟩ := peek_block ha (i := ao) (by omega)
    obtain ⟨y, hy⟩ := peek_block hb (i := bo) (by omega)
    rw [hx, Res.ok_bind, hy, Res.ok_bind]
    by_cases h1 : fold x ≠ fold y
    · rw [if_pos h1]; exact Or.inr ⟨false, rfl, by omega, by omega⟩
    · rw [if_neg h1]
      by_cases h2 : x > 64 ∨ ao + x.toNat > a.len ∨ bo + x.toNat > b.len
      · rw [if_pos h2]; exact Or.inl rfl
      · rw [if_neg h2]
        obtain ⟨r, hr⟩ := labelLoop_safe ha hb (ao := ao) (bo := bo) x.toNat (by omega) (by omega)
        exact Or.inr ⟨r, hr, by omega, by omega⟩

theorem isYes_label {a b : DwStr} (ha : Usable a) (hb : Usable b) (ao bo : Nat) :
    ∃ r, isYes (labelSame a ao b bo) = .ok r ∧ (r = true → ao ≤ a.len ∧ bo ≤ b.len) := by
  rcases labelSame_safe ha hb ao bo with e | ⟨r, e, h⟩
  · exact ⟨false, by rw [e]; rfl, by simp⟩
  · exact ⟨r, by rw [e]; rfl, fun _ => h⟩

theorem follow_safe {c : DwStr} (hc : Usable c) {q : Option DwStr} (hq : ∀ x, q = some x → Usable x)
    (place : Nat) (b : Bool) (hb : b = true → q ≠ none) (hbp : b = true → place ≤ (pick c q b).len) :
    follow c q place b = .err ∨
    ∃ p' b', follow c q place b = .ok (p', b') ∧ (b' = true → q ≠ none) ∧
      (p' ≤ (pick c q b').len ∨ b' = false ∧ p' ≤ 10) := by
  cases b with
  | true => exact Or.inr ⟨place, true, rfl, hb, Or.inl (hbp rfl)⟩
  | false =>
    rw [follow, if_neg (by simp)]
    by_cases h : place > c.len
    · left
      rw [decompOffset, hc.sane]
      simp [h]
    · obtain ⟨x, hx⟩ := peek_block hc (i := place) (by omega)
      obtain ⟨y, hy⟩ := peek_block hc (i := place + 1) (by omega)
      by_cases h64 : x < 64
      · right
        rw [decompOffset_lit hc (by omega) hx h64, Res.ok_bind, if_neg (by omega), if_neg (by omega)]
        exact ⟨place, false, by simp, by simp, Or.inl (by simp [pick]; omega)⟩
      · rw [decompOffset_ptr hc (by omega) hx h64 hy, Res.ok_bind]
        rcases ht : ptrTarget c.len (qlen q) (x.toNat % 64 * 256 + y.toNat) with _ | ⟨b₁, i₁⟩
        · left; simp
        · have hbound : i₁ ≤ (pick c q b₁).len ∨ b₁ = false ∧ i₁ ≤ 10 := by
            simp only [ptrTarget] at ht
            split at ht
            · split at ht
              · rename_i h1 h2
                simp only [Option.some.injEq, Prod.mk.injEq] at ht
                obtain ⟨rfl, rfl⟩ := ht
                left
                cases q with
                | none => simp [qlen] at h1
                | some z => simp only [qlen] at h1; simp only [pick, Option.getD_some, if_true]; omega
              · split at ht
                · cases ht
                · simp only [Option.some.injEq, Prod.mk.injEq] at ht
                  exact Or.inr ⟨ht.1.symm, by omega⟩
            · split at ht
              · rename_i h1 h2
                simp only [Option.some.injEq, Prod.mk.injEq] at ht
                obtain ⟨rfl, rfl⟩ := ht
                left
                simp only [pick, Bool.false_eq_true, if_false]
                omega
              · cases ht
          cases b₁
          · simp only
            rw [if_neg (by omega), if_neg (by omega), Int.toNat_natCast]
            exact Or.inr ⟨i₁, false, rfl, by simp, hbound⟩
          · have hne := ptrTarget_q ht
            simp only
            rw [if_neg (by rintro (h | ⟨h, -⟩); exacts [by omega, hne h]), if_pos (by omega)]
            have : (-2 - (-2 - (i₁ : Int))).toNat = i₁ := by omega
            rw [this]
            exact Or.inr ⟨i₁, true, rfl, fun _ => hne, hbound⟩

theorem dnameLoop_safe {u c : DwStr} (hu : Usable u) (hc : Usable c) {q : Option DwStr}
    (hq : ∀ x, q = some x → Usable x) :
    ∀ (n uo place : Nat) (b : Bool), (b = true → q ≠ none) → (b = true → place ≤ (pick c q b).len) →
    dnameLoop u c q n uo place b = .err ∨ ∃ r, dnameLoop u c q n uo place b = .ok r := by
  intro n
  induction n with
  | zero => intro uo place b _ _; exact Or.inl rfl
  | succ n ih =>
    intro uo place b hb hbp
    rw [dnameLoop]
    rcases follow_safe hc hq place b hb hbp with e | ⟨p', b', e, hb', -⟩
    · rw [e]; exact Or.inl rfl
    · rw [e, Res.ok_bind]
      simp only
      have hs := pick_usable hc hq b'
      obtain ⟨r, hr, hle⟩ := isYes_label hu hs uo p'
      rw [hr, Res.ok_bind]
      cases r with
      | false => exact Or.inr ⟨false, rfl⟩
      | true =>
        obtain ⟨h1, h2⟩ := hle rfl
        obtain ⟨x, hx⟩ := peek_block hu (i := uo) (by omega)
        simp only [Bool.not_true, Bool.false_eq_true, if_false, hx, Res.ok_bind]
        by_cases h3 : x = 0
        · rw [if_pos h3]; exact Or.inr ⟨true, rfl⟩
        · rw [if_neg h3]
          by_cases h4 : 64 < x ∨ uo + x.toNat ≥ u.len
          · rw [if_pos h4]; exact Or.inl rfl
          · rw [if_neg h4]
            by_cases h5 : p' + x.toNat ≥ (pick c q b').len
            · rw [if_pos h5]; exact Or.inl rfl
            · rw [if_neg h5]
              exact ih _ _ b' hb' (fun _ => by omega)

/-- **C29 (any strings).** Comparing names at any places of any strings ends and has
no undefined behaviour. -/
theorem dnameSame_total {u c : DwStr} (hu : Usable u) (hc : Usable c) {q : Option DwStr}
    (hq : ∀ x, q = some x → Usable x) (uo co : Nat) :
    dnameSame u uo c co q = .err ∨ ∃ r, dnameSame u uo c co q = .ok r := by
  rw [dnameSame]
  split
  · exact Or.inl rfl
  · exact dnameLoop_safe hu hc hq 300 uo co false (by simp) (by simp)

/-! ## Examples -/

/-- `wWw.A.` at the start, and `Www.` with a pointer to the question `a.`. -/
example : PlainAt (ofBytes (encName [[119, 87, 119], [65]])).mem 0 [[119, 87, 119], [65]] :=
  .label ⟨by decide, by decide, by decide +kernel, by decide +kernel⟩
    (.label ⟨by decide, by decide, by decide +kernel, by decide +kernel⟩ (.root (by decide +kernel)))

/-- The compressed name `Www.a.`. -/
def exWww : DwStr := ofBytes [3, 87, 119, 119, 0xc0, 12]

theorem exWww_name : OneHop exWww.mem (qmem (some exQ)) exWww.len (qlen (some exQ)) false 0 [[87, 119, 119], [97]] :=
  .label ⟨by decide, by decide, by decide +kernel, by decide +kernel⟩
    (.pointer (x := 0xc0) (y := 12) (z := 1) (b₁ := true) (i₁ := 0) (by decide +kernel) (by decide) (by decide +kernel) (by decide +kernel)
      (by decide +kernel) (by decide)
      (.label ⟨by decide, by decide, by decide +kernel, by decide +kernel⟩ (.root (by decide +kernel))))

example : dnameSame (ofBytes (encName [[119, 87, 119], [65]])) 0 exWww 0 (some exQ) = .ok true := by
  decide +kernel

example : dnameSame (ofBytes (encName [[119, 87, 120], [65]])) 0 exWww 0 (some exQ) = .ok false := by
  decide +kernel

/-- **Finding.** A pointer that leads directly to a pointer is not followed: the same
name is reported as different. -/
theorem dnameSame_two_pointers :
    dnameSame (ofBytes (encName [[97]])) 0 (ofBytes [0xc0, 21, 0xc0, 12]) 0 (some exQ) = .ok false ∧
    Spec.NameAt (ofBytes [0xc0, 21, 0xc0, 12]).mem exQ.mem 4 5 3 false 0 [[97]] :=
  ⟨by decide +kernel, true, 2,
    .pointer (x := 0xc0) (y := 21) (b₁ := false) (i₁ := 2) (by decide +kernel) (by decide) (by decide +kernel) (by decide +kernel)
      (.pointer (x := 0xc0) (y := 12) (by decide +kernel) (by decide) (by decide +kernel) (by decide +kernel)
        (.label ⟨by decide, by decide, by decide +kernel, by decide +kernel⟩ .here)), by decide +kernel⟩

end DwStr
end Dw
