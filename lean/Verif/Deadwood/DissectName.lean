import Verif.Deadwood.DissectModel
import Verif.Deadwood.BailiwickProps
import Verif.Spec.Believe
/-!
# Comparing names and the bailiwick check: lemmas
-/

namespace Dw
namespace Dissect

open DwStr Spec

theorem low_lower (c : UInt8) : low c = lower c := by
  rw [← fold_lower]
  simp only [low, fold, UInt8.le_iff_toNat_le]
  rfl

theorem low_small {c : UInt8} (h : c.toNat < 65) : low c = c := by
  unfold low
  rw [if_neg (by omega)]

theorem cost_cons (l : List UInt8) (ls : List (List UInt8)) : cost (l :: ls) = l.length + 2 + cost ls := by
  simp [cost]

theorem labelLoop_bytes {a b : DwStr} (ha : Usable a) (hb : Usable b) :
    ∀ (xs ys : List UInt8) {c i j : Nat}, xs.length = ys.length →
    (∀ k (h : k < xs.length), a.mem (i + 1 + k) = some xs[k]) →
    (∀ k (h : k < ys.length), b.mem (j + 1 + k) = some ys[k]) → c + xs.length ≤ 260 →
    labelLoop a b xs.length c i j =
      .ok (if xs.map low = ys.map low then some (c + xs.length, i + xs.length, j + xs.length) else none) := by
  intro xs
  induction xs with
  | nil =>
    intro ys c i j hl _ _ _
    have : ys = [] := List.length_eq_zero_iff.1 hl.symm
    subst this
    rfl
  | cons x xs ih =>
    intro ys c i j hl hx hy hc
    match ys, hl with
    | y :: ys, hl =>
      have hx0 := hx 0 (by simp)
      have hy0 := hy 0 (by simp)
      simp only [Nat.add_zero, List.getElem_cons_zero] at hx0 hy0
      have l1 := mem_lt ha hx0
      have l2 := mem_lt hb hy0
      simp only [List.length_cons] at hc hl
      simp only [labelLoop, List.length_cons]
      rw [if_neg (by omega), if_neg (by omega), mem_peek hx0, mem_peek hy0]
      simp only [Res.ok_bind]
      by_cases he : low x = low y
      · rw [if_neg (fun hc => hc he), ih ys (by omega) ?_ ?_ (by omega)]
        · simp only [List.map_cons, List.cons.injEq, he, true_and]
          congr 3
          simp only [Prod.mk.injEq]
          omega
        · intro k hk
          have := hx (k + 1) (by simpa using hk)
          simpa [Nat.add_assoc, Nat.add_comm, Nat.add_left_comm] using this
        · intro k hk
          have := hy (k + 1) (by simpa using hk)
          simpa [Nat.add_assoc, Nat.add_comm, Nat.add_left_comm] using this
      · rw [if_pos he, if_neg (by simp [he])]

theorem labelLoop_late {a b : DwStr} (ha : Usable a) (hb : Usable b) :
    ∀ (n : Nat) {c i j : Nat}, c ≤ 260 → 260 < c + n →
    labelLoop a b n c i j = .ok none ∨ ∃ p q, labelLoop a b n c i j = .ok (some (260, p, q)) := by
  intro n
  induction n with
  | zero => intro c i j h1 h2; omega
  | succ n ih =>
    intro c i j h1 h2
    unfold labelLoop
    by_cases hc : 260 ≤ c
    · rw [if_pos hc]
      have : c = 260 := by omega
      subst this
      exact .inr ⟨_, _, rfl⟩
    · rw [if_neg hc]
      by_cases hb2 : i + 1 > a.len ∨ j + 1 > b.len
      · rw [if_pos hb2]; exact .inl rfl
      · rw [if_neg hb2]
        obtain ⟨x, hx⟩ := peek_block ha (i := i + 1) (by omega)
        obtain ⟨y, hy⟩ := peek_block hb (i := j + 1) (by omega)
        rw [hx, hy]
        simp only [Res.ok_bind]
        by_cases he : low x = low y
        · rw [if_neg (fun hc => hc he)]
          exact ih (by omega) (by omega)
        · rw [if_pos he]; exact .inl rfl

/-- The byte a name begins with. -/
theorem plain_byte {m : Mem} {i : Nat} {ls : List (List UInt8)} (h : PlainAt m i ls) :
    m i = some (UInt8.ofNat (hd ls).length) ∧ (hd ls).length ≤ 63 := by
  cases h with
  | root h => exact ⟨h, by simp [hd]⟩
  | label h _ => exact ⟨h.len, h.le⟩

theorem ofNat_inj {a b : Nat} (ha : a ≤ 63) (hb : b ≤ 63) (h : UInt8.ofNat a = UInt8.ofNat b) : a = b := by
  have := congrArg UInt8.toNat h
  simp at this
  omega

theorem sameName_length {ls ms : List (List UInt8)} (h : SameName ls ms) : ls.length = ms.length := by
  have := congrArg List.length h
  simpa using this

theorem sameName_hd {ls ms : List (List UInt8)} (h : SameName ls ms) : (hd ls).length = (hd ms).length := by
  cases ls with
  | nil =>
    have := sameName_length h
    have : ms = [] := List.length_eq_zero_iff.1 (by simpa using this.symm)
    subst this; rfl
  | cons l ls =>
    cases ms with
    | nil => have := sameName_length h; simp at this
    | cons m ms =>
      have := congrArg List.length ((sameName_cons ..).1 h).1
      simpa [hd] using this

theorem nameLoop_exact {a b : DwStr} (ha : Usable a) (hb : Usable b) :
    ∀ (n : Nat) {c i j : Nat} {ls ms : List (List UInt8)}, 261 ≤ n + c →
    PlainAt a.mem i ls → PlainAt b.mem j ms →
    nameLoop a b n c i j = .ok (decide (SameName ls ms ∧ c + cost ls < 260)) := by
  intro n
  induction n with
  | zero =>
    intro c i j ls ms hn _ _
    unfold nameLoop
    rw [decide_eq_false (by omega)]
  | succ n ih =>
    intro c i j ls ms hn hl hm
    unfold nameLoop
    by_cases hc : 260 ≤ c
    · rw [if_pos hc, decide_eq_false (by omega)]
    rw [if_neg hc]
    obtain ⟨hx, hx63⟩ := plain_byte hl
    obtain ⟨hy, hy63⟩ := plain_byte hm
    rw [mem_peek hx, mem_peek hy]
    simp only [Res.ok_bind]
    by_cases hne : UInt8.ofNat (hd ls).length = UInt8.ofNat (hd ms).length
    swap
    · rw [if_pos hne, decide_eq_false]
      rintro ⟨h, -⟩
      exact hne (by rw [sameName_hd h])
    have hlen := ofNat_inj hx63 hy63 hne
    have hto : (UInt8.ofNat (hd ls).length).toNat = (hd ls).length := by simp; omega
    rw [if_neg (fun h => h hne), hto, if_neg (by omega)]
    cases hl with
    | root h0 =>
      cases hm with
      | root _ =>
        rw [if_pos (show UInt8.ofNat (hd []).length = 0 from rfl), decide_eq_true ⟨rfl, by simp [cost]; omega⟩]
      | label h _ =>
        have := h.pos
        have e : (hd ([] : List (List UInt8))).length = 0 := rfl
        simp only [hd, List.headD_cons, List.headD_nil, List.length_nil] at hlen
        omega
    | @label _ l ls hl1 hl2 =>
      cases hm with
      | root _ =>
        have := hl1.pos
        have e : (hd ([] : List (List UInt8))).length = 0 := rfl
        simp only [hd, List.headD_cons, List.headD_nil, List.length_nil] at hlen
        omega
      | @label _ m ms hm1 hm2 =>
        change l.length = m.length at hlen
        change l.length ≤ 63 at hx63
        change (UInt8.ofNat l.length).toNat = l.length at hto
        change (if UInt8.ofNat l.length = 0 then _ else
          (labelLoop a b (l.length + 1) c i j >>= _)) = _
        rw [if_neg (by
          intro h
          have := congrArg UInt8.toNat h
          rw [hto] at this
          have h3 := hl1.pos
          have h4 : (0 : UInt8).toNat = 0 := rfl
          omega)]
        obtain ⟨hx2, hx632⟩ := plain_byte hl2
        obtain ⟨hy2, hy632⟩ := plain_byte hm2
        by_cases hfit : c + (l.length + 1) ≤ 260
        · have key := labelLoop_bytes ha hb (l ++ [UInt8.ofNat (hd ls).length]) (m ++ [UInt8.ofNat (hd ms).length])
            (c := c) (i := i) (j := j) (by simp [hlen]) (by
              intro k hk
              simp only [List.length_append, List.length_singleton] at hk
              by_cases hkl : k < l.length
              · rw [List.getElem_append_left hkl]; exact hl1.bytes k hkl
              · have : k = l.length := by omega
                subst this
                simp only [List.getElem_concat_length]
                rw [← hx2]; congr 1; omega)
            (by
              intro k hk
              simp only [List.length_append, List.length_singleton] at hk
              by_cases hkl : k < m.length
              · rw [List.getElem_append_left hkl]; exact hm1.bytes k hkl
              · have : k = m.length := by omega
                subst this
                simp only [List.getElem_concat_length]
                rw [← hy2]; congr 1; omega) (by simpa using hfit)
          simp only [List.length_append, List.length_singleton] at key
          rw [key]
          simp only [Res.ok_bind, List.map_append, List.map_cons, List.map_nil]
          rw [low_small (c := UInt8.ofNat (hd ls).length) (by simp; omega),
            low_small (c := UInt8.ofNat (hd ms).length) (by simp; omega)]
          have hmap : ∀ z : List UInt8, z.map low = z.map lower := fun z => by
            rw [show low = lower from funext low_lower]
          rw [hmap, hmap]
          by_cases heq : l.map lower ++ [UInt8.ofNat (hd ls).length] = m.map lower ++ [UInt8.ofNat (hd ms).length]
          · rw [if_pos heq]
            simp only
            rw [ih (c := c + (l.length + 1) + 1) (by omega) (by simpa [Nat.add_assoc] using hl2)
              (by simpa [Nat.add_assoc, hlen] using hm2)]
            have := (List.append_inj' heq rfl).1
            congr 1
            apply decide_eq_decide.2
            rw [sameName_cons, cost_cons]
            simp only [this, true_and]
            rw [show c + (l.length + 1) + 1 + cost ls = c + (l.length + 2 + cost ls) by omega]
          · rw [if_neg heq]
            simp only
            rw [decide_eq_false]
            rintro ⟨h, -⟩
            rw [sameName_cons] at h
            exact heq (by rw [h.1, sameName_hd h.2])
        · have hbad : ¬ (c + cost (l :: ls) < 260) := by rw [cost_cons]; omega
          rw [decide_eq_false (fun h => hbad h.2)]
          rcases labelLoop_late ha hb (l.length + 1) (c := c) (i := i) (j := j) (by omega) (by omega) with h | ⟨p, q, h⟩
          · rw [h]; rfl
          · rw [h]
            simp only [Res.ok_bind]
            cases n with
            | zero => rfl
            | succ n => unfold nameLoop; rw [if_pos (by omega)]

/-- Two names are the same for the code if they are, and are not too long. -/
theorem isSame_exact {a b : DwStr} (ha : Usable a) (hb : Usable b) {i j : Nat} {ls ms : List (List UInt8)}
    (hl : PlainAt a.mem i ls) (hm : PlainAt b.mem j ms) :
    isSame a i b j = .ok (decide (SameName ls ms ∧ cost ls < 260)) := by
  have h1 := hl.lt ha
  have h2 := hm.lt hb
  unfold isSame
  rw [ha.sane, hb.sane, if_neg (by simp; omega), nameLoop_exact ha hb 261 (by omega) hl hm]
  simp

/-- The comparison never reads outside the strings. -/
theorem isSame_safe {a b : DwStr} (ha : Usable a) (hb : Usable b) (i j : Nat) :
    ∃ r, isSame a i b j = .ok r := by
  have hlab : ∀ (n c p q : Nat), p ≤ a.len → q ≤ b.len → labelLoop a b n c p q = .ok none ∨
      ∃ c' p' q', labelLoop a b n c p q = .ok (some (c', p', q')) ∧ p' ≤ a.len ∧ q' ≤ b.len := by
    intro n
    induction n with
    | zero => intro c p q hp hq; exact .inr ⟨_, _, _, rfl, hp, hq⟩
    | succ n ih =>
      intro c p q hp hq
      unfold labelLoop
      by_cases h1 : 260 ≤ c
      · rw [if_pos h1]; exact .inr ⟨_, _, _, rfl, hp, hq⟩
      rw [if_neg h1]
      by_cases h2 : p + 1 > a.len ∨ q + 1 > b.len
      · rw [if_pos h2]; exact .inl rfl
      rw [if_neg h2]
      obtain ⟨x, hx⟩ := peek_block ha (i := p + 1) (by omega)
      obtain ⟨y, hy⟩ := peek_block hb (i := q + 1) (by omega)
      rw [hx, hy]
      simp only [Res.ok_bind]
      by_cases he : low x = low y
      · rw [if_neg (fun hc => hc he)]
        exact ih _ _ _ (by omega) (by omega)
      · rw [if_pos he]; exact .inl rfl
  have hname : ∀ (n c p q : Nat), p ≤ a.len → q ≤ b.len → ∃ r, nameLoop a b n c p q = .ok r := by
    intro n
    induction n with
    | zero => intro c p q _ _; exact ⟨_, rfl⟩
    | succ n ih =>
      intro c p q hp hq
      unfold nameLoop
      by_cases h1 : 260 ≤ c
      · rw [if_pos h1]; exact ⟨_, rfl⟩
      rw [if_neg h1]
      obtain ⟨x, hx⟩ := peek_block ha (i := p) (by omega)
      obtain ⟨y, hy⟩ := peek_block hb (i := q) (by omega)
      rw [hx, hy]
      simp only [Res.ok_bind]
      split
      · exact ⟨_, rfl⟩
      split
      · exact ⟨_, rfl⟩
      split
      · exact ⟨_, rfl⟩
      rcases hlab (x.toNat + 1) c p q hp hq with h | ⟨c', p', q', h, hp', hq'⟩
      · rw [h]; exact ⟨_, rfl⟩
      · rw [h]; exact ih _ _ _ hp' hq'
  unfold isSame
  split
  · exact ⟨_, rfl⟩
  · rename_i h
    simp only [not_or] at h
    exact hname _ _ _ _ (by omega) (by omega)

theorem cost_suffix_le : ∀ {ls ms : List (List UInt8)}, ls <:+ ms → cost ls ≤ cost ms := by
  rintro ls _ ⟨k, rfl⟩
  simp [cost]

theorem cost_length : ∀ (ls : List (List UInt8)), ls.length * 2 ≤ cost ls
  | [] => by simp [cost]
  | l :: ls => by
    have := cost_length ls
    rw [cost_cons]
    simp only [List.length_cons]
    omega

theorem sameName_cost : ∀ {ls ms : List (List UInt8)}, SameName ls ms → cost ls = cost ms
  | [], [], _ => rfl
  | [], _ :: _, h => by simp [SameName] at h
  | _ :: _, [], h => by simp [SameName] at h
  | l :: ls, m :: ms, h => by
    rw [sameName_cons] at h
    have h1 := congrArg List.length h.1
    simp at h1
    rw [cost_cons, cost_cons, sameName_cost h.2, h1]

theorem sameName_symm {ls ms : List (List UInt8)} (h : SameName ls ms) : SameName ms ls := Eq.symm h

theorem below_split (qs ls : List (List UInt8)) :
    Below qs ls ↔ SameName ls qs ∨ ∃ q qs', qs = q :: qs' ∧ Below qs' ls := by
  cases qs with
  | nil =>
    constructor
    · intro h
      left
      have : ls = [] := by simpa [Below] using h
      subst this; rfl
    · rintro (h | ⟨_, _, h, _⟩)
      · have := sameName_length h
        have : ls = [] := List.length_eq_zero_iff.1 (by simpa using this)
        subst this; simp [Below]
      · cases h
  | cons x xs =>
    rw [below_cons]
    constructor
    · rintro (h | h)
      · exact .inl h
      · exact .inr ⟨_, _, rfl, h⟩
    · rintro (h | ⟨_, _, h, h'⟩)
      · exact .inl h
      · cases h; exact .inr h'

theorem below_length {a b : List (List UInt8)} (h : Below a b) : b.length ≤ a.length := by
  have := List.IsSuffix.length_le h
  simpa using this

theorem under_cons (x : List UInt8) (xs b : List (List UInt8)) : Under (x :: xs) b ↔ Below xs b := by
  constructor
  · rintro ⟨h, hn⟩
    rw [below_cons] at h
    exact h.resolve_left hn
  · intro h
    refine ⟨(below_cons ..).2 (.inr h), fun hs => ?_⟩
    have h1 := below_length h
    have h2 := sameName_length hs
    simp at h2
    omega

theorem not_under_nil (b : List (List UInt8)) : ¬ Under [] b := by
  rintro ⟨h, hn⟩
  have : b = [] := by simpa [Below] using h
  subst this
  exact hn rfl

/-- The first part of the check: the name is the name asked for or above it. -/
theorem queryLoop_exact {inp query : DwStr} (hi : Usable inp) (hq : Usable query) {o : Nat} {ls : List (List UInt8)}
    (hl : PlainAt inp.mem o ls) : ∀ (n : Nat) {p : Nat} {qs : List (List UInt8)}, qs.length < n →
    PlainAt query.mem p qs →
    queryLoop inp o query n p = .ok (decide (Under qs ls ∧ cost ls < 260)) := by
  intro n
  induction n with
  | zero => intro p qs h; omega
  | succ n ih =>
    intro p qs hn hp
    unfold queryLoop
    obtain ⟨hx, hx63⟩ := plain_byte hp
    rw [mem_peek hx]
    simp only [Res.ok_bind]
    cases hp with
    | root h =>
      rw [if_pos (show UInt8.ofNat (hd []).length = 0 from rfl), decide_eq_false]
      rintro ⟨h, _⟩
      exact not_under_nil _ h
    | @label _ q qs h1 h2 =>
      have hto : (UInt8.ofNat (hd (q :: qs)).length).toNat = q.length := by
        have := h1.le; simp [hd]; omega
      have hlt := h2.lt hq
      rw [if_neg (by
        intro h
        have := congrArg UInt8.toNat h
        rw [hto] at this
        have h3 := h1.pos
        have h4 : (0 : UInt8).toNat = 0 := rfl
        omega), hto, if_neg (by have := h1.le; omega), if_neg (by omega), Nat.add_assoc,
        isSame_exact hi hq hl h2]
      simp only [Res.ok_bind]
      by_cases hs : SameName ls qs ∧ cost ls < 260
      · rw [decide_eq_true hs]
        simp only [if_true]
        rw [decide_eq_true ⟨(under_cons ..).2 ((below_split ..).2 (.inl hs.1)), hs.2⟩]
      · rw [decide_eq_false hs]
        simp only [Bool.false_eq_true, if_false]
        rw [ih (by simpa using hn) h2]
        congr 1
        apply decide_eq_decide.2
        rw [under_cons]
        constructor
        · rintro ⟨h, hc⟩; exact ⟨h.1, hc⟩
        · rintro ⟨h, hc⟩
          exact ⟨⟨h, fun hh => hs ⟨hh, hc⟩⟩, hc⟩

theorem bailiwickQuery_exact {inp query : DwStr} (hi : Usable inp) (hq : Usable query) {o : Nat}
    {ls qs : List (List UInt8)} (hl : PlainAt inp.mem o ls) (hp : PlainAt query.mem 0 qs) (hlen : 2 < query.len)
    (hqs : qs.length < 1024) :
    bailiwickQuery inp o query = .ok (decide (Below qs ls ∧ cost ls < 260)) := by
  unfold bailiwickQuery
  rw [if_neg (by omega), isSame_exact hi hq hl hp]
  simp only [Res.ok_bind]
  by_cases hs : SameName ls qs ∧ cost ls < 260
  · rw [decide_eq_true hs, if_pos rfl, decide_eq_true ⟨(below_split ..).2 (.inl hs.1), hs.2⟩]
  · rw [decide_eq_false hs]
    simp only [Bool.false_eq_true, if_false]
    rw [queryLoop_exact hi hq hl 1024 hqs hp]
    congr 1
    apply decide_eq_decide.2
    constructor
    · rintro ⟨h, hc⟩; exact ⟨h.1, hc⟩
    · rintro ⟨h, hc⟩
      exact ⟨⟨h, fun hh => hs ⟨hh, hc⟩⟩, hc⟩

/-- The second part of the check: the name is below the zone of the servers asked. -/
theorem topLoop_exact {inp b : DwStr} (hi : Usable inp) (hb : Usable b) {bs : List (List UInt8)}
    (hbs : PlainAt b.mem 0 bs) : ∀ (n : Nat) {o : Nat} {ls : List (List UInt8)}, ls.length < n →
    PlainAt inp.mem o ls →
    topLoop inp b n o = .ok (decide (Under ls bs ∧ cost bs < 260)) := by
  intro n
  induction n with
  | zero => intro p qs h; omega
  | succ n ih =>
    intro o ls hn hp
    unfold topLoop
    obtain ⟨hx, hx63⟩ := plain_byte hp
    rw [mem_peek hx]
    simp only [Res.ok_bind]
    cases hp with
    | root h =>
      rw [if_pos (show UInt8.ofNat (hd []).length = 0 from rfl), decide_eq_false]
      rintro ⟨h, _⟩
      exact not_under_nil _ h
    | @label _ q qs h1 h2 =>
      have hto : (UInt8.ofNat (hd (q :: qs)).length).toNat = q.length := by
        have := h1.le; simp [hd]; omega
      have hlt := h2.lt hi
      rw [if_neg (by
        intro h
        have := congrArg UInt8.toNat h
        rw [hto] at this
        have h3 := h1.pos
        have h4 : (0 : UInt8).toNat = 0 := rfl
        omega), hto, if_neg (by have := h1.le; omega), if_neg (by omega), Nat.add_assoc,
        isSame_exact hi hb h2 hbs]
      simp only [Res.ok_bind]
      by_cases hs : SameName qs bs ∧ cost qs < 260
      · rw [decide_eq_true hs]
        simp only [if_true]
        rw [decide_eq_true]
        rw [under_cons]
        exact ⟨(below_split ..).2 (.inl (sameName_symm hs.1)), by rw [← sameName_cost hs.1]; exact hs.2⟩
      · rw [decide_eq_false hs]
        simp only [Bool.false_eq_true, if_false]
        rw [ih (by simpa using hn) h2]
        congr 1
        apply decide_eq_decide.2
        rw [under_cons]
        constructor
        · rintro ⟨h, hc⟩; exact ⟨h.1, hc⟩
        · rintro ⟨h, hc⟩
          refine ⟨⟨h, fun hh => hs ⟨sameName_symm hh, ?_⟩⟩, hc⟩
          rw [← sameName_cost hh]; exact hc

theorem bailiwickTop_exact {inp b : DwStr} (hi : Usable inp) (hb : Usable b) {bs ls : List (List UInt8)} {o : Nat}
    (hbs : PlainAt b.mem 0 bs) (hl : PlainAt inp.mem o ls) (hn : ls.length < 1024) :
    bailiwickTop inp o b = .ok (decide (Under ls bs ∧ cost bs < 260)) := by
  have := hl.lt hi
  unfold bailiwickTop
  rw [if_neg (by omega), topLoop_exact hi hb hbs 1024 hn hl]

theorem inBailiwick_some {inp query b : DwStr} (hi : Usable inp) (hq : Usable query) (hb : Usable b)
    {bs qs ls : List (List UInt8)} {o : Nat} (hbs : PlainAt b.mem 0 bs) (hqs : PlainAt query.mem 0 qs)
    (hl : PlainAt inp.mem o ls) (hlen : 2 < query.len) (hqn : qs.length < 1024) (hn : ls.length < 1024) :
    inBailiwick inp o b (some query) =
      .ok (decide ((Below qs ls ∧ cost ls < 260) ∧ Under ls bs ∧ cost bs < 260)) := by
  unfold inBailiwick
  simp only
  rw [bailiwickQuery_exact hi hq hl hqs hlen hqn]
  simp only [Res.ok_bind]
  by_cases h : Below qs ls ∧ cost ls < 260
  · rw [decide_eq_true h]
    simp only [Bool.not_true, Bool.false_eq_true, if_false]
    rw [bailiwickTop_exact hi hb hbs hl hn]
    congr 1
    apply decide_eq_decide.2
    simp only [h, true_and, and_self]
  · rw [decide_eq_false h]
    simp only [Bool.not_false, if_true]
    rw [decide_eq_false (fun hh => h hh.1)]

theorem inBailiwick_none {inp b : DwStr} (hi : Usable inp) (hb : Usable b) {bs ls : List (List UInt8)} {o : Nat}
    (hbs : PlainAt b.mem 0 bs) (hl : PlainAt inp.mem o ls) (hn : ls.length < 1024) :
    inBailiwick inp o b none = .ok (decide (Under ls bs ∧ cost bs < 260)) := by
  unfold inBailiwick
  simp only [Res.ok_bind, Bool.not_true, Bool.false_eq_true, if_false]
  exact bailiwickTop_exact hi hb hbs hl hn

end Dissect
end Dw
