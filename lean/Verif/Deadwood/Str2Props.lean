import Verif.Deadwood.Str2Lemmas

/-!
# Properties C05–C08, C14: text helpers of the Deadwood string library
-/

namespace Dw
open DwStr

/-! ## C05: comma-separated lists -/

/-- C05, one step.  Without a comma the whole list is the item and the list
becomes empty; otherwise the item is what follows the last comma and the list
keeps what precedes that comma. -/
theorem qspop_exact {s : DwStr} (h : Usable s) (junk : List UInt8) :
    ((44 : UInt8) ∉ s.contents →
      ∃ out s', qspop s junk = .ok (out, s') ∧ Usable out ∧ Usable s' ∧ s'.max = s.max ∧
        out.contents = s.contents ∧ s'.contents = []) ∧
    (∀ pre post, s.contents = pre ++ 44 :: post → (44 : UInt8) ∉ post →
      ∃ out s', qspop s junk = .ok (out, s') ∧ Usable out ∧ Usable s' ∧ s'.max = s.max ∧
        out.contents = post ∧ s'.contents = pre) := by
  have hl := h.clen
  have hlt := h.lt
  have hlim := h.lim
  have ht : s.contents.take s.len = s.contents := by rw [← hl]; exact List.take_length
  constructor
  · intro hn
    obtain ⟨out, ho, hu, hm, hc⟩ := copy_exact h junk
    refine ⟨out, { s with len := 0 }, ?_, hu, ⟨h.wf, by simp; omega, h.lim⟩, rfl, hc, by simp [contents]⟩
    have hr : s.rfind 44 = .ok none := by
      unfold rfind
      simp only [h.sane, Bool.not_true, Bool.false_eq_true, if_false]
      split
      · rfl
      · exact rfindLoop_none h 44 s.len (by omega) (by rw [ht]; exact hn)
    simp [qspop, h.sane, hr, ho]
  · intro pre post hc hp
    have hlen : s.len = pre.length + 1 + post.length := by
      rw [← hl, hc]; simp; omega
    have hr : s.rfind 44 = .ok (some pre.length) := by
      unfold rfind
      simp only [h.sane, Bool.not_true, Bool.false_eq_true, if_false]
      rw [if_neg (by omega)]
      exact rfindLoop_some h 44 pre s.len post (by omega) hp (by rw [ht]; exact hc)
    obtain ⟨out, ho, hu, _, hoc⟩ := substr_in h (pre.length + 1) post.length 1 junk
      (by rw [hl]; omega) (by omega)
    refine ⟨out, { s with len := pre.length }, ?_, hu, ⟨h.wf, by simp; omega, h.lim⟩, rfl, ?_, ?_⟩
    · have e : s.len - (pre.length + 1) = post.length := by omega
      have e2 : s.len - (post.length + 1) = pre.length := by omega
      have ho' : s.substr ((pre.length : Int) + 1) (post.length : Int) 1 junk = .ok out := by
        rw [← ho]; rfl
      simp [qspop, h.sane, hr, e, e2, ho']
    · rw [hoc, hc]
      simp
    · have : s.buf.take pre.length = (s.buf.take s.len).take pre.length := by
        rw [List.take_take]; congr 1; omega
      simp only [contents] at hc ⊢
      rw [this, hc]; simp

theorem head?_append_ne {α : Type} {l l' : List α} (h : l ≠ []) : (l ++ l').head? = l.head? := by
  cases l with
  | nil => exact absurd rfl h
  | cons x xs => rfl

theorem intercalate_snoc {α : Type} {c : α} {y : List α} : ∀ {xs : List (List α)}, xs ≠ [] →
    [c].intercalate (xs ++ [y]) = [c].intercalate xs ++ c :: y := by
  intro xs
  induction xs with
  | nil => intro h; exact absurd rfl h
  | cons x xs ih =>
    intro _
    cases xs with
    | nil => simp [List.intercalate]
    | cons z zs =>
      have := ih (by simp)
      simp only [List.intercalate, List.cons_append, List.intersperse_cons_cons, List.flatten_cons] at this ⊢
      rw [this]; simp

/-- The callers' loop `while(in->len > 0) item = dw_qspop(in);` (DwSocket.c:312-330,
384-402), with `n` as a bound on the number of turns. -/
def popAll : Nat → DwStr → Res (List (List UInt8))
  | 0, s => if s.len = 0 then .ok [] else .err
  | n + 1, s =>
    if s.len = 0 then .ok []
    else do
      let (out, s') ← qspop s []
      let rest ← popAll n s'
      .ok (out.contents :: rest)

/-- C05.  The popping loop ends after at most `len` turns, no item contains a
comma, and joining the items (in reverse order of popping) with commas gives the
original list back, unless the list starts with a comma, in which case the empty
first item is lost and exactly the leading comma is missing. -/
theorem popAll_join : ∀ (n : Nat) {s : DwStr}, Usable s → s.contents.length ≤ n →
    ∃ items, popAll n s = .ok items ∧ (∀ i ∈ items, (44 : UInt8) ∉ i) ∧
      (s.contents.head? ≠ some 44 → [(44 : UInt8)].intercalate items.reverse = s.contents) ∧
      (s.contents.head? = some 44 → 44 :: [(44 : UInt8)].intercalate items.reverse = s.contents) := by
  intro n
  induction n with
  | zero =>
    intro s h hn
    have hz : s.contents = [] := List.length_eq_zero_iff.1 (by omega)
    have : s.len = 0 := by rw [← h.clen, hz]; rfl
    exact ⟨[], by simp [popAll, this], by simp, by simp [hz, List.intercalate], by simp [hz]⟩
  | succ n ih =>
    intro s h hn
    by_cases hz : s.len = 0
    · have hc : s.contents = [] := by rw [← List.length_eq_zero_iff, h.clen]; exact hz
      exact ⟨[], by simp [popAll, hz], by simp, by simp [hc, List.intercalate], by simp [hc]⟩
    by_cases hm : (44 : UInt8) ∈ s.contents
    · -- split at the last comma
      obtain ⟨pre, post, hc, hp⟩ : ∃ pre post, s.contents = pre ++ 44 :: post ∧ (44 : UInt8) ∉ post := by
        have : (44 : UInt8) ∈ s.contents.reverse := by simpa using hm
        obtain ⟨a, b, e, hn⟩ := List.eq_append_cons_of_mem this
        refine ⟨b.reverse, a.reverse, ?_, by simpa using hn⟩
        have := congrArg List.reverse e
        simpa using this
      obtain ⟨out, s', hq, hu, hu', _, ho, hs'⟩ := (qspop_exact h []).2 pre post hc hp
      obtain ⟨items, hi, hno, hj1, hj2⟩ := ih hu' (by
        rw [hs']; rw [hc] at hn; simp at hn; omega)
      refine ⟨post :: items, ?_, ?_, ?_, ?_⟩
      · simp [popAll, hz, hq, hi, ho]
      · intro i hi'
        simp only [List.mem_cons] at hi'
        rcases hi' with rfl | hi'
        · exact hp
        · exact hno i hi'
      · intro hh
        have hpre : pre ≠ [] := by
          rintro rfl; apply hh; rw [hc]; rfl
        have hh' : s'.contents.head? ≠ some 44 := by
          rw [hs']; rw [hc, head?_append_ne hpre] at hh; exact hh
        have e := hj1 hh'
        have hne : items ≠ [] := by
          rintro rfl
          rw [hs'] at e; simp [List.intercalate] at e; exact hpre e
        rw [List.reverse_cons, intercalate_snoc (by simpa using hne), e, hs', hc]
      · intro hh
        by_cases hpre : pre = []
        · subst hpre
          have e : items = [] := by
            have : s'.len = 0 := by rw [← hu'.clen, hs']; rfl
            cases n <;> simp [popAll, this] at hi <;> exact hi
          subst e
          rw [hc]; simp [List.intercalate]
        · have hh' : s'.contents.head? = some 44 := by
            rw [hs']; rw [hc, head?_append_ne hpre] at hh; exact hh
          have e := hj2 hh'
          by_cases hne : items = []
          · subst hne
            exfalso
            have : s'.len ≠ 0 := by
              rw [← hu'.clen, hs']; exact fun e => hpre (List.length_eq_zero_iff.1 e)
            cases n with
            | zero => simp [popAll, this] at hi
            | succ n =>
              simp only [popAll, this, if_false] at hi
              cases hq2 : s'.qspop [] with
              | ok r =>
                rw [hq2] at hi
                simp only [Res.ok_bind] at hi
                cases hq3 : popAll n r.2 with
                | ok r => rw [hq3] at hi; simp at hi
                | err => rw [hq3] at hi; simp at hi
                | ub => rw [hq3] at hi; simp at hi
              | err => rw [hq2] at hi; simp at hi
              | ub => rw [hq2] at hi; simp at hi
          · rw [List.reverse_cons, intercalate_snoc (by simpa using hne), ← List.cons_append, e, hs', hc]
    · obtain ⟨out, s', hq, hu, hu', _, ho, hs'⟩ := (qspop_exact h []).1 hm
      have hz' : s'.len = 0 := by rw [← hu'.clen, hs']; rfl
      have hp : popAll n s' = .ok [] := by cases n <;> simp [popAll, hz']
      refine ⟨[s.contents], by simp [popAll, hz, hq, hp, ho], by simpa using hm, ?_, ?_⟩
      · intro _; simp [List.intercalate]
      · intro hh
        exfalso
        cases hcc : s.contents with
        | nil => rw [hcc] at hh; simp at hh
        | cons x xs =>
          rw [hcc] at hh hm
          simp only [List.head?_cons, Option.some.injEq] at hh
          subst hh; simp at hm

/-- "1,,23" pops as "23", "", "1". -/
def exCsv : DwStr := { len := 5, max := 8, buf := [49, 44, 44, 50, 51, 0, 0, 0, 0, 0] }
example : Usable exCsv ∧ popAll 5 exCsv = .ok [[50, 51], [], [49]] := ⟨⟨rfl, by decide, by decide⟩, by decide⟩

/-! ## C06: file name sanitising -/

/-- Characters allowed in a cache file name. -/
def NameChar (c : UInt8) : Prop := (97 ≤ c ∧ c ≤ 122) ∨ c = 47 ∨ c = 45 ∨ c = 95

/-- C06.  Sanitising always succeeds, keeps the length, keeps every allowed
character and turns every other one into an underscore. -/
theorem filenameSanitize_exact {s : DwStr} (h : Usable s) :
    ∃ s', filenameSanitize s = .ok s' ∧ Usable s' ∧ s'.max = s.max ∧
      s'.contents.length = s.contents.length ∧
      ∀ i (hi : i < s.contents.length) (hi' : i < s'.contents.length),
        (NameChar s.contents[i] → s'.contents[i] = s.contents[i]) ∧
        (¬ NameChar s.contents[i] → s'.contents[i] = 95) := by
  have hb := Usable_buf h
  have hl := h.clen
  have key := sanitizeLoop_eq s.len 0 s (by omega)
  have ht : (s.buf.drop 0).take s.len = s.contents := by simp [contents]
  rw [ht] at key
  obtain ⟨h1, h2⟩ := splice_contents h (s.contents.map
    (fun x => if (x < 97 ∨ x > 122) ∧ x ≠ 47 ∧ x ≠ 45 ∧ x ≠ 95 then 95 else x)) (by simp [hl])
  refine ⟨_, by unfold filenameSanitize; simp only [h.sane, Bool.not_true, Bool.false_eq_true, if_false]; exact key,
    h1, rfl, ?_, ?_⟩
  · rw [h2]; simp
  · intro i hi hi'
    simp only [h2, List.getElem_map]
    unfold NameChar
    constructor
    · intro hn; rw [if_neg]; grind
    · intro hn; rw [if_pos]; grind

/-- C06.  No sanitised name contains a dot (hence no `..`), a backslash, a null
or any other byte outside `a-z / - _`, and sanitising twice is the same as once. -/
theorem filenameSanitize_safe {s s' : DwStr} (h : Usable s) (he : filenameSanitize s = .ok s') :
    (∀ c ∈ s'.contents, NameChar c) ∧ (46 : UInt8) ∉ s'.contents ∧
    ∃ s'', filenameSanitize s' = .ok s'' ∧ s''.contents = s'.contents := by
  obtain ⟨t, h1, hu, _, hlen, hch⟩ := filenameSanitize_exact h
  rw [h1] at he; injection he with he; subst he
  have hall : ∀ c ∈ t.contents, NameChar c := by
    intro c hc
    obtain ⟨i, hi, rfl⟩ := List.mem_iff_getElem.1 hc
    obtain ⟨ha, hb⟩ := hch i (by omega) hi
    by_cases hn : NameChar s.contents[i]
    · rw [ha hn]; exact hn
    · rw [hb hn]; simp [NameChar]
  refine ⟨hall, fun hd => ?_, ?_⟩
  · have := hall _ hd
    revert this; unfold NameChar; decide
  · obtain ⟨u, g1, _, _, glen, gch⟩ := filenameSanitize_exact hu
    refine ⟨u, g1, List.ext_getElem glen fun i h1 h2 => ?_⟩
    exact (gch i h2 h1).1 (hall _ (List.getElem_mem _))

/-- "../Ab" becomes "__/_b". -/
def exName : DwStr := { len := 5, max := 7, buf := [46, 46, 47, 65, 98, 0, 0, 0, 0] }
example : Usable exName ∧ ∃ s', filenameSanitize exName = .ok s' ∧ s'.contents = [95, 95, 47, 95, 98] :=
  ⟨⟨rfl, by decide, by decide⟩, _, rfl, by decide⟩

/-! ## C07: second file name sanitiser -/

theorem saniTwoPure_spec : ∀ (l : List UInt8) (d : Bool),
    (∀ c ∈ saniTwoPure d l, NameChar c ∨ c = 46) ∧
    (d = true → (47 : UInt8) ∉ saniTwoPure d l) ∧
    (∀ pre post, saniTwoPure d l = pre ++ 46 :: post → (47 : UInt8) ∉ post) := by
  intro l
  induction l with
  | nil => intro d; simp [saniTwoPure]
  | cons x xs ih =>
    intro d
    have hcons : ∀ (y : UInt8) (d' : Bool), (NameChar y ∨ y = 46) → (y = 46 → d' = true) →
        (d = true → d' = true ∧ y ≠ 47) →
        (∀ c ∈ y :: saniTwoPure d' xs, NameChar c ∨ c = 46) ∧
        (d = true → (47 : UInt8) ∉ y :: saniTwoPure d' xs) ∧
        (∀ pre post, y :: saniTwoPure d' xs = pre ++ 46 :: post → (47 : UInt8) ∉ post) := by
      intro y d' hy hy2 hd
      obtain ⟨i1, i2, i3⟩ := ih d'
      refine ⟨?_, ?_, ?_⟩
      · intro c hc
        simp only [List.mem_cons] at hc
        rcases hc with rfl | hc
        · exact hy
        · exact i1 c hc
      · intro hdd
        obtain ⟨e, hne⟩ := hd hdd
        simp only [List.mem_cons, not_or]
        exact ⟨fun e => hne e.symm, i2 e⟩
      · intro pre post e
        cases pre with
        | nil =>
          simp only [List.nil_append, List.cons.injEq] at e
          rw [← e.2]; exact i2 (hy2 e.1)
        | cons p ps =>
          simp only [List.cons_append, List.cons.injEq] at e
          exact i3 ps post e.2
    simp only [saniTwoPure]
    split_ifs with h1 h2 h3
    · subst h1; exact hcons 46 true (Or.inr rfl) (fun _ => rfl) (fun _ => ⟨rfl, by decide⟩)
    · obtain ⟨rfl, rfl⟩ := h2
      exact hcons 47 false (Or.inl (by simp [NameChar])) (by decide) (by simp)
    · exact hcons 95 d (Or.inl (by simp [NameChar])) (fun e => absurd e (by decide)) (fun h => ⟨h, by decide⟩)
    · refine hcons x d ?_ (fun e => absurd e h1) (fun h => ⟨h, ?_⟩)
      · left; unfold NameChar; grind
      · grind

/-- A name as the second sanitiser leaves it: allowed characters, and no slash
anywhere after a dot (so `./` and `../` cannot occur). -/
def SafeName2 (l : List UInt8) : Prop :=
  (∀ c ∈ l, NameChar c ∨ c = 46) ∧ ∀ pre post, l = pre ++ 46 :: post → (47 : UInt8) ∉ post

theorem saniTwoPure_id : ∀ (l : List UInt8) (d : Bool), SafeName2 l → (d = true → (47 : UInt8) ∉ l) →
    saniTwoPure d l = l := by
  intro l
  induction l with
  | nil => intros; rfl
  | cons x xs ih =>
    intro d hs hd
    obtain ⟨h1, h2⟩ := hs
    have hx := h1 x (by simp)
    have hs' : SafeName2 xs := ⟨fun c hc => h1 c (by simp [hc]), fun pre post e => h2 (x :: pre) post (by simp [e])⟩
    have hno : x = 46 → (47 : UInt8) ∉ xs := fun e => h2 [] xs (by simp [e])
    simp only [saniTwoPure]
    split_ifs with g1 g2 g3
    · rw [ih true hs' (fun _ => hno g1)]
    · rw [ih false hs' (by simp)]
    · exfalso
      rcases hx with hx | hx
      · unfold NameChar at hx
        by_cases h47 : x = 47
        · subst h47
          have : d = true := by cases d <;> simp_all
          exact hd this (by simp)
        · grind
      · exact g1 hx
    · rw [ih d hs' (fun e => by have := hd e; simp only [List.mem_cons, not_or] at this; exact this.2)]

/-- C07.  The second sanitiser always succeeds and keeps the length; in the result
only `a-z / - _ .` occur and no slash follows a dot anywhere; names that are
already of this form are unchanged. -/
theorem filenameSaniTwo_safe {s : DwStr} (h : Usable s) :
    ∃ s', filenameSaniTwo s = .ok s' ∧ Usable s' ∧ s'.max = s.max ∧
      s'.contents.length = s.contents.length ∧ SafeName2 s'.contents ∧
      (SafeName2 s.contents → s'.contents = s.contents) := by
  have hb := Usable_buf h
  have hl := h.clen
  have key := saniTwoLoop_eq s.len 0 false s (by omega)
  have ht : (s.buf.drop 0).take s.len = s.contents := by simp [contents]
  rw [ht] at key
  obtain ⟨h1, h2⟩ := splice_contents h (saniTwoPure false s.contents) (by simp [saniTwoPure_length, hl])
  refine ⟨_, by unfold filenameSaniTwo; simp only [h.sane, Bool.not_true, Bool.false_eq_true, if_false]; exact key,
    h1, rfl, ?_, ?_, ?_⟩
  · rw [h2, saniTwoPure_length]
  · rw [h2]
    exact ⟨(saniTwoPure_spec _ _).1, (saniTwoPure_spec _ _).2.2⟩
  · intro hs
    rw [h2, saniTwoPure_id _ _ hs (by simp)]

/-- "a/b.c/../D" becomes "a/b.c_..__". -/
def exName2 : DwStr := { len := 10, max := 12, buf := [97, 47, 98, 46, 99, 47, 46, 46, 47, 68, 0, 0, 0, 0] }
example : Usable exName2 ∧ ∃ s', filenameSaniTwo exName2 = .ok s' ∧
    s'.contents = [97, 47, 98, 46, 99, 95, 46, 46, 95, 95] :=
  ⟨⟨rfl, by decide, by decide⟩, _, rfl, by decide⟩

/-! ## C08: rotation -/

theorem appendIgn_ok {a t : DwStr} (ha : Usable a) (ht : Usable t)
    (hf : t.contents.length + a.contents.length < t.max) :
    ∃ t', appendIgn a t = .ok t' ∧ Usable t' ∧ t'.max = t.max ∧ t'.contents = t.contents ++ a.contents := by
  obtain ⟨t', h1, h2, h3, h4⟩ := (append_exact ha ht).2 hf
  exact ⟨t', by simp [appendIgn, h1], h2, h3, h4⟩

/-- C08.  With `pre`, `a`, `b`, `c` the pieces of the string before `start`,
from `start` to `pivot`, from `pivot` to `end` and from `end` on, rotation gives
exactly `pre b a c`; for any other offsets it is refused. -/
theorem rotate_exact {s : DwStr} (h : Usable s) (junk : List UInt8) :
    (∀ pre a b c, s.contents = pre ++ a ++ b ++ c → a ≠ [] → b ≠ [] → c ≠ [] →
      ∃ s', rotate s pre.length (pre.length + a.length) (pre.length + a.length + b.length) junk = .ok s' ∧
        Usable s' ∧ s'.max = s.max ∧ s'.contents = pre ++ b ++ a ++ c) ∧
    (∀ st pv en, (pv ≤ st ∨ en ≤ pv ∨ s.contents.length ≤ en) → rotate s st pv en junk = .err) := by
  have hl := h.clen
  have hlt := h.lt
  have hlim := h.lim
  constructor
  · intro pre a b c hc ha hb hcne
    have la : 0 < a.length := List.length_pos_iff.2 ha
    have lb : 0 < b.length := List.length_pos_iff.2 hb
    have lc : 0 < c.length := List.length_pos_iff.2 hcne
    have hlen : s.len = pre.length + a.length + b.length + c.length := by
      rw [← hl, hc]; simp; omega
    obtain ⟨p1, e1, u1, m1, c1⟩ := substr_in h pre.length a.length 1 junk (by omega) (by omega)
    obtain ⟨p2, e2, u2, m2, c2⟩ := substr_in h (pre.length + a.length) b.length 1 junk (by omega) (by omega)
    obtain ⟨p3, e3, u3, m3, c3⟩ := substr_in h (pre.length + a.length + b.length) c.length 1 junk (by omega) (by omega)
    have c1' : p1.contents = a := by rw [c1, hc]; simp
    have c2' : p2.contents = b := by
      rw [c2, hc, show pre ++ a ++ b ++ c = (pre ++ a) ++ (b ++ c) by simp,
        show pre.length + a.length = (pre ++ a).length by simp, List.drop_left, List.take_left]
    have c3' : p3.contents = c := by
      rw [c3, hc, show pre.length + a.length + b.length = (pre ++ a ++ b).length by simp; omega,
        List.drop_left, List.take_length]
    have hs0 : Usable { s with len := pre.length } := ⟨h.wf, by simp; omega, h.lim⟩
    have c0 : ({ s with len := pre.length } : DwStr).contents = pre := by
      have : s.buf.take pre.length = (s.buf.take s.len).take pre.length := by
        rw [List.take_take]; congr 1; omega
      simp only [contents] at hc ⊢
      rw [this, hc]; simp
    obtain ⟨s1, f1, g1, k1, d1⟩ := appendIgn_ok u2 hs0 (by rw [c0, c2']; simp; omega)
    obtain ⟨s2, f2, g2, k2, d2⟩ := appendIgn_ok u1 g1 (by rw [d1, c0, c2', c1', k1]; simp; omega)
    obtain ⟨s3, f3, g3, k3, d3⟩ := appendIgn_ok u3 g2 (by rw [d2, d1, c0, c2', c1', c3', k2, k1]; simp; omega)
    refine ⟨s3, ?_, g3, by rw [k3, k2, k1], by rw [d3, d2, d1, c0, c2', c1', c3']⟩
    unfold rotate
    rw [if_neg (by omega)]
    rw [show pre.length + a.length - pre.length = a.length by omega,
      show pre.length + a.length + b.length - (pre.length + a.length) = b.length by omega]
    rw [substr_minus1 (by omega), show s.len - (pre.length + a.length + b.length) = c.length by omega]
    have e1' : s.substr (pre.length : Nat) (a.length : Nat) 1 junk = .ok p1 := e1
    have e2' : s.substr ((pre.length + a.length : Nat) : Int) (b.length : Nat) 1 junk = .ok p2 := e2
    have e3' : s.substr ((pre.length + a.length + b.length : Nat) : Int) (c.length : Nat) 1 junk = .ok p3 := e3
    rw [e1', e2', e3']
    simp only [Res.ok_bind, f1, f2, f3]
  · intro st pv en hh
    unfold rotate
    rw [if_pos (by omega)]

/-- The example of the source comment: "0123456789" with start 3, pivot 5 (and end 9). -/
def exRot : DwStr := { len := 10, max := 12, buf := [48, 49, 50, 51, 52, 53, 54, 55, 56, 57, 0, 0, 0, 0] }
example : Usable exRot ∧ ∃ s', rotate exRot 3 5 9 [] = .ok s' ∧
    s'.contents = [48, 49, 50, 53, 54, 55, 56, 51, 52, 57] :=
  ⟨⟨rfl, by decide, by decide⟩, _, rfl, by decide⟩

/-! ## C14: numbers -/

/-- Byte `c` is the digit of value `v` (decimal digit or a letter of either case). -/
def IsDigit (c : UInt8) (v : Nat) : Prop :=
  (v < 10 ∧ c.toNat = 48 + v) ∨ (10 ≤ v ∧ v < 36 ∧ (c.toNat = 87 + v ∨ c.toNat = 55 + v))

theorem digit_iff (c : UInt8) (v : Nat) : digit c = some v ↔ IsDigit c v := by
  unfold digit IsDigit
  simp only [UInt8.le_iff_toNat_le, UInt8.toNat_ofNat]
  split_ifs <;> simp <;> omega

theorem digit_none (c : UInt8) : digit c = none ↔ ∀ v, ¬ IsDigit c v := by
  constructor
  · intro h v hv; rw [← digit_iff, h] at hv; cases hv
  · intro h
    cases hd : digit c with
    | none => rfl
    | some v => exact absurd ((digit_iff c v).1 hd) (h v)

/-- Value of a digit sequence, most significant first, continuing from `acc`. -/
def digitsVal (base : Nat) (acc : Nat) (vs : List Nat) : Nat := vs.foldl (fun a v => a * base + v) acc

theorem digitsVal_ge (base : Nat) (hb : 1 ≤ base) : ∀ (vs : List Nat) acc, acc ≤ digitsVal base acc vs := by
  intro vs
  induction vs with
  | nil => intro acc; exact Nat.le_refl _
  | cons v vs ih =>
    intro acc
    refine Nat.le_trans ?_ (ih (acc * base + v))
    exact Nat.le_trans (Nat.le_mul_of_pos_right acc hb) (Nat.le_add_right _ _)

theorem atoiLoop_eq {s : DwStr} (h : Usable s) (base : Nat) (hb : 2 ≤ base) :
    ∀ (ds : List (UInt8 × Nat)) (rest : List UInt8) (n i acc : Nat), ds.length < n →
    (∀ d ∈ ds, IsDigit d.1 d.2 ∧ d.2 < base) →
    s.contents.drop i = ds.map Prod.fst ++ rest →
    digitsVal base acc (ds.map Prod.snd) ≤ 2147483647 →
    ((∀ c ∈ rest.head?, ∀ v, ¬ IsDigit c v) →
      atoiLoop s base n i acc = .ok (digitsVal base acc (ds.map Prod.snd))) ∧
    ((∃ c ∈ rest.head?, ∃ v, IsDigit c v ∧ base ≤ v) → atoiLoop s base n i acc = .err) := by
  intro ds
  have hl := h.clen
  induction ds with
  | nil =>
    intro rest n i acc hn _ hc hv
    cases n with
    | zero => simp at hn
    | succ n =>
      simp only [List.map_nil, List.nil_append] at hc
      simp only [List.map_nil, digitsVal, List.foldl_nil] at hv ⊢
      cases rest with
      | nil =>
        have : s.len ≤ i := by
          have := congrArg List.length hc; simp [hl] at this; omega
        simp [atoiLoop, this]
      | cons c rest =>
        have hi : i < s.len := by
          have := congrArg List.length hc; simp [hl] at this; omega
        obtain ⟨x, h1, h2, h3⟩ := contents_drop h hi
        rw [hc] at h2
        simp only [List.cons.injEq] at h2
        obtain ⟨rfl, -⟩ := h2
        simp only [atoiLoop, if_neg (show ¬ i ≥ s.len by omega), h1, Res.ok_bind, List.head?_cons,
          Option.mem_def, Option.some.injEq, forall_eq']
        constructor
        · intro hh; rw [(digit_none c).2 hh]
        · rintro ⟨c', rfl, v, hd, hv⟩
          rw [(digit_iff c v).2 hd]
          simp [hv]
  | cons d ds ih =>
    intro rest n i acc hn hd hc hv
    cases n with
    | zero => simp at hn
    | succ n =>
      have hi : i < s.len := by
        have := congrArg List.length hc; simp [hl] at this; omega
      obtain ⟨x, h1, h2, h3⟩ := contents_drop h hi
      rw [hc] at h2
      simp only [List.map_cons, List.cons_append, List.cons.injEq] at h2
      obtain ⟨rfl, h2⟩ := h2
      obtain ⟨hd1, hd2⟩ := hd d (by simp)
      have hv' : digitsVal base (acc * base + d.2) (ds.map Prod.snd) ≤ 2147483647 := hv
      have hge := digitsVal_ge base (by omega) (ds.map Prod.snd) (acc * base + d.2)
      simp only [atoiLoop, if_neg (show ¬ i ≥ s.len by omega), h1, Res.ok_bind,
        (digit_iff d.1 d.2).2 hd1, if_neg (show ¬ d.2 ≥ base by omega),
        if_neg (show ¬ acc * base + d.2 > 2147483647 by omega)]
      exact ih rest n (i + 1) (acc * base + d.2) (by simp at hn; omega)
        (fun d' hd' => hd d' (by simp [hd'])) h2.symm hv'

/-- C14.  If from `index` on the string is white space, then fewer than 100 digits
of the base, then either nothing, or a byte that is neither letter nor digit, the
result is the value of the digits, provided it fits an `int32_t`; if the digits
are followed by a letter or digit that is not of the base, it is an error. -/
theorem atoi_exact {s : DwStr} (h : Usable s) (index base : Nat) (hb : 2 ≤ base) (hb' : base ≤ 36)
    (ws : List UInt8) (ds : List (UInt8 × Nat)) (rest : List UInt8)
    (hi : index < s.contents.length)
    (hws : ∀ c ∈ ws, c = 32 ∨ c = 9)
    (hds : ∀ d ∈ ds, IsDigit d.1 d.2 ∧ d.2 < base)
    (hn : ds.length < 100)
    (hc : s.contents.drop index = ws ++ (ds.map Prod.fst ++ rest))
    (hv : digitsVal base 0 (ds.map Prod.snd) ≤ 2147483647)
    (hr : ds = [] → ∀ c ∈ rest.head?, ¬ (c = 32 ∨ c = 9)) :
    ((∀ c ∈ rest.head?, ∀ v, ¬ IsDigit c v) →
      atoi s index base = .ok (digitsVal base 0 (ds.map Prod.snd))) ∧
    ((∃ c ∈ rest.head?, ∃ v, IsDigit c v ∧ base ≤ v) → atoi s index base = .err) := by
  have hl := h.clen
  have hbuf := Usable_buf h
  rw [hl] at hi
  have htw : (s.contents.drop index).takeWhile (fun x => x = 32 ∨ x = 9) = ws := by
    rw [hc, List.takeWhile_append_of_pos (by simpa using hws)]
    have : (ds.map Prod.fst ++ rest).takeWhile (fun x => decide (x = 32 ∨ x = 9)) = [] := by
      cases ds with
      | nil =>
        cases rest with
        | nil => rfl
        | cons c rest =>
          simp only [List.map_nil, List.nil_append]
          rw [List.takeWhile_cons_of_neg]
          simpa using hr rfl c (by simp)
      | cons d ds =>
        have := (hds d (by simp)).1
        simp only [List.map_cons, List.cons_append]
        rw [List.takeWhile_cons_of_neg]
        simp only [decide_eq_true_eq]
        rintro (e | e) <;> rw [e] at this <;> unfold IsDigit at this <;> simp at this <;> omega
    rw [this]; simp
  have hsk := skipWs_eq h (s.len - index) index (by omega)
  rw [htw] at hsk
  have hc2 : s.contents.drop (index + ws.length) = ds.map Prod.fst ++ rest := by
    rw [← List.drop_drop, hc]; simp
  have key := atoiLoop_eq h base hb ds rest 100 (index + ws.length) 0 hn hds hc2 hv
  have e : atoi s index base = atoiLoop s base 100 (index + ws.length) 0 := by
    unfold atoi
    simp only [h.sane, Bool.not_true, Bool.false_eq_true, if_false]
    rw [if_neg (by omega), if_neg (by omega), peek_ok (by omega)]
    simp only [Res.ok_bind, hsk]
  rw [e]; exact key

/-- Parsing at or after the end of the string is an error. -/
theorem atoi_end {s : DwStr} (index base : Nat) (h : Usable s) (hi : s.contents.length ≤ index) :
    atoi s index base = .err := by
  rw [h.clen] at hi
  unfold atoi
  simp only [h.sane, Bool.not_true, Bool.false_eq_true, if_false]
  split
  · rfl
  · rfl

/-- " 1f2;" in base 16 is 498, and in base 10 an error; "zz" is an error in base 16;
a lone blank is 0 (Finding: text without any digit yields 0, not an error). -/
def exNum : DwStr := { len := 5, max := 7, buf := [32, 49, 102, 50, 59, 0, 0, 0, 0] }
example : Usable exNum ∧ atoi exNum 0 16 = .ok 498 ∧ atoi exNum 0 10 = .err :=
  ⟨⟨rfl, by decide, by decide⟩, by decide, by decide⟩
example : atoi ⟨1, 3, [32, 0, 0, 0, 0]⟩ 0 10 = .ok 0 := by decide

/-- Finding: eleven or more significant decimal digits overflow `int32_t`
(undefined behaviour), because the 100-character limit of the loop is far above
what 32 bits can hold. -/
theorem atoi_overflow_ub :
    atoi ⟨11, 12, [57, 57, 57, 57, 57, 57, 57, 57, 57, 57, 57, 0, 0, 0]⟩ 0 10 = .ub := by decide

/-- `dw_zap_lws` removes exactly the leading blanks and tabs. -/
theorem zapLws_exact {s : DwStr} (h : Usable s) (junk : List UInt8)
    (hs : s.contents.length + 2 < 134217728) :
    ∃ out, zapLws s junk = .ok out ∧ Usable out ∧
      out.contents = s.contents.dropWhile (fun x => x = 32 ∨ x = 9) := by
  have hl := h.clen
  have hlt := h.lt
  have hlim := h.lim
  have hsk := skipWs_eq h s.len 0 (by omega)
  simp only [List.drop_zero, Nat.zero_add] at hsk
  have hsplit := List.takeWhile_append_dropWhile (p := fun x : UInt8 => decide (x = 32 ∨ x = 9)) (l := s.contents)
  generalize hw : s.contents.takeWhile (fun x => decide (x = 32 ∨ x = 9)) = w at hsk hsplit
  generalize hr : s.contents.dropWhile (fun x => decide (x = 32 ∨ x = 9)) = r at hsplit
  have hlen : s.len = w.length + r.length := by rw [← hl, ← hsplit]; simp
  unfold zapLws
  simp only [h.sane, Bool.not_true, Bool.false_eq_true, if_false, hsk, Res.ok_bind]
  by_cases hge : w.length ≥ s.len
  · rw [if_pos hge]
    have : r = [] := List.length_eq_zero_iff.1 (by omega)
    obtain ⟨o, h1, h2, h3, _⟩ := create_usable 1 junk (by omega) (by omega)
    exact ⟨o, h1, h2, by rw [h3, this]⟩
  · rw [if_neg hge, substr_minus1 (by omega)]
    obtain ⟨o, h1, h2, _, h4⟩ := substr_in h w.length (s.len - w.length) 1 junk (by omega) (by omega)
    refine ⟨o, h1, h2, ?_⟩
    rw [h4, ← hsplit, List.drop_left, show s.len - w.length = r.length by omega, List.take_length]

example : ∃ out, zapLws exNum [] = .ok out ∧ out.contents = [49, 102, 50, 59] := ⟨_, rfl, by decide⟩

end Dw
