import Verif.Deadwood.DissectCases
/-!
# Taking the answers of a reply apart: lemmas
-/

namespace Dw
namespace Dissect

open DwStr Spec

/-- The mark of a record after the aliases. -/
def restMark (qs cur : List (List UInt8)) (qtype : Nat) (r : Rec) : Int :=
  if r.type = qtype ∧ (Alike qs r.name ∨ Alike cur r.name) then rrNumber qtype else 36

/-- The marks of the answers of a reply that begins with its aliases. -/
def chainMarks (bs qs : List (List UInt8)) (qtype : Nat) (rest : List Rec) : List (List UInt8) → List Rec → List Int
  | cur, [] => rest.map (restMark qs cur qtype)
  | _, r :: cs => 5 :: (if Inside bs r.target then chainMarks bs qs qtype rest r.target cs
      else (cs ++ rest).map fun _ => 36)

theorem rrNumber_le (n : Int) : rrNumber n ≤ 31 := by
  unfold rrNumber
  split
  · omega
  · split <;> omega

theorem keep_append : ∀ (a b : List Rec) (m n : List Int), m.length = a.length →
    keep (a ++ b) (m ++ n) = keep a m ++ keep b n
  | [], b, [], n, _ => rfl
  | r :: a, b, x :: m, n, h => by
    simp only [List.cons_append, keep]
    rw [keep_append a b m n (by simpa using h)]
    split <;> simp
  | [], _, _ :: _, _, h => by simp at h
  | _ :: _, _, [], _, h => by simp at h

theorem keep_chain (bs qs : List (List UInt8)) (qtype : Nat) (rest : List Rec) : ∀ (cs : List Rec) (cur : List (List UInt8)),
    keep (cs ++ rest) (chainMarks bs qs qtype rest cur cs) = believed bs qs qtype rest cur cs
  | [], cur => by
    simp only [List.nil_append, chainMarks, believed]
    rw [keep_map]
    apply List.filter_congr
    intro r _
    have := rrNumber_le qtype
    unfold restMark
    split
    · rename_i h
      simp only [h]
      have h1 : rrNumber (qtype : Int) ≠ 36 := by omega
      have h2 : rrNumber (qtype : Int) ≠ 37 := by omega
      simp [h1, h2]
    · rename_i h
      simp [h]
  | r :: cs, cur => by
    simp only [List.cons_append, chainMarks, believed, keep]
    rw [if_neg (by omega)]
    split
    · rw [keep_chain bs qs qtype rest cs r.target]
    · rw [keep_none]

/-- The answers after the aliases. -/
theorem answerLoop_rest {inp query b : DwStr} (hi : Usable inp) {qs cur : List (List UInt8)} {qtype : Nat}
    (hq : Asks query qs qtype) (h5 : qtype ≠ 5) (an : List (Nat × Nat)) (k : Nat)
    (hcur : 0 < k → PlainAt inp.mem (dataOf an ((k : Int) - 1)) cur) (h0 : k = 0 → cur = qs) :
    ∀ {cells : List (Nat × Nat)} {rs : List Rec}, Sec inp cells rs → (∀ r ∈ rs, r.type ≠ 5) → ∀ (use : Bool) (off : Int),
    0 ≤ off →
    answerLoop inp query b qtype an (cells.zip (rs.map fun r => rrNumber r.type)) k use off =
      .ok (rs.map (restMark qs cur qtype))
  | _, _, .nil, _, _, _, _ => rfl
  | _, _, .cons (a := c) (b := r) (l₂ := rs) h hsec, hn, use, off, ho => by
    have ih := fun (use : Bool) (off : Int) (ho : 0 ≤ off) =>
      answerLoop_rest hi hq h5 an k hcur h0 hsec (fun x hx => hn x (by simp [hx])) (b := b) use off ho
    have hr5 := hn r (by simp)
    simp only [List.map_cons, List.zip_cons_cons, answerLoop]
    rw [isSame_exact hq.usable hi hq.plain h.nameAt, h.type hi]
    simp only [Res.ok_bind]
    have hnext : isNext inp an k c.1 = .ok (decide (0 < k ∧ Alike cur r.name)) := by
      unfold isNext
      split
      · rename_i hk
        rw [isSame_exact hi hi (hcur (by omega)) h.nameAt]
        have : 0 < k := by omega
        simp [this, Alike]
      · rename_i hk
        have : ¬ 0 < k := by omega
        simp [this]
    rw [hnext]
    simp only [Res.ok_bind]
    by_cases hm : r.type = qtype ∧ Alike qs r.name
    · have hd : decide (SameName qs r.name ∧ cost qs < 260) = true := decide_eq_true hm.2
      rw [if_pos ⟨hd, ho, by omega⟩, ih false (off + 1) (by omega)]
      simp only [Res.ok_bind, Res.ok.injEq, List.cons.injEq, and_true]
      unfold restMark
      rw [if_pos ⟨hm.1, .inl hm.2⟩, hm.1]
    · rw [if_neg (by
        rintro ⟨x, _, y⟩
        exact hm ⟨by omega, of_decide_eq_true x⟩), if_neg (by omega), if_neg (by omega)]
      by_cases hm2 : r.type = qtype ∧ 0 < k ∧ Alike cur r.name
      · rw [if_pos ⟨by omega, by omega, decide_eq_true hm2.2, by omega⟩, ih false (off + 1) (by omega)]
        simp only [Res.ok_bind, Res.ok.injEq, List.cons.injEq, and_true]
        unfold restMark
        rw [if_pos ⟨hm2.1, .inr hm2.2.2⟩, hm2.1]
      · rw [if_neg (by
          rintro ⟨_, _, x, y⟩
          exact hm2 ⟨by omega, of_decide_eq_true x⟩), ih use off ho]
        simp only [Res.ok_bind, Res.ok.injEq, List.cons.injEq, and_true]
        unfold restMark
        rw [if_neg]
        rintro ⟨x, y | y⟩
        · exact hm ⟨x, y⟩
        · by_cases hk : 0 < k
          · exact hm2 ⟨x, hk, y⟩
          · rw [h0 (by omega)] at y
            exact hm ⟨x, y⟩

/-- Once an alias has led out of the zone, nothing more is believed. -/
theorem answerLoop_out {inp query b : DwStr} (hi : Usable inp) (hq : Usable query) {qtype : Nat} (an : List (Nat × Nat)) :
    ∀ {cells : List (Nat × Nat)} {rs : List Rec}, Sec inp cells rs →
    answerLoop inp query b qtype an (cells.zip (rs.map fun r => rrNumber r.type)) (-1) false (-2) =
      .ok (rs.map fun _ => 36)
  | _, _, .nil => rfl
  | _, _, .cons (a := c) (b := r) (l₂ := rs) h hsec => by
    simp only [List.map_cons, List.zip_cons_cons, answerLoop]
    obtain ⟨mine, hm⟩ := isSame_safe hq hi 0 c.1
    obtain ⟨next, hn⟩ := isNext_safe hi an (-1) c.1
    rw [hm, h.type hi, hn]
    simp only [Res.ok_bind]
    rw [if_neg (by omega), if_neg (by omega), if_neg (by omega), if_neg (by omega), answerLoop_out hi hq an hsec]
    rfl

theorem answerLoop_chain {inp query b : DwStr} (hi : Usable inp) {qs bs : List (List UInt8)} {qtype : Nat}
    (hq : Asks query qs qtype) (hb : Zone b bs) (h5 : qtype ≠ 5) {rest : List Rec} (hrest : ∀ r ∈ rest, r.type ≠ 5) :
    ∀ (cs : List Rec) (pre cells : List (Nat × Nat)) (cur : List (List UInt8)), Sec inp cells (cs ++ rest) →
    Chain cur cs → (0 < pre.length → PlainAt inp.mem (dataOf (pre ++ cells) ((pre.length : Int) - 1)) cur) →
    (pre.length = 0 → cur = qs) →
    answerLoop inp query b qtype (pre ++ cells) (cells.zip ((cs ++ rest).map fun r => rrNumber r.type)) pre.length true
      pre.length = .ok (chainMarks bs qs qtype rest cur cs) := by
  intro cs
  induction cs with
  | nil =>
    intro pre cells cur hsec _ hcur h0
    exact answerLoop_rest hi hq h5 (pre ++ cells) pre.length hcur h0 hsec hrest true _ (by omega)
  | cons r cs ih =>
    intro pre cells cur hsec hch hcur h0
    cases hsec with
    | @cons c _ cells _ h hsec =>
    obtain ⟨ht, hal, hch⟩ := hch
    simp only [List.cons_append, List.map_cons, List.zip_cons_cons, answerLoop, chainMarks]
    rw [isSame_exact hq.usable hi hq.plain h.nameAt, h.type hi]
    simp only [Res.ok_bind]
    have hnext : isNext inp (pre ++ c :: cells) pre.length c.1 = .ok (decide (0 < pre.length)) := by
      unfold isNext
      split
      · rename_i hk
        rw [isSame_exact hi hi (hcur (by omega)) h.nameAt]
        have : 0 < pre.length := by omega
        have hal' : SameName cur r.name ∧ cost cur < 260 := hal
        simp [this, hal']
      · rename_i hk
        have : ¬ 0 < pre.length := by omega
        simp [this]
    rw [hnext]
    simp only [Res.ok_bind]
    rw [if_neg (by rintro ⟨_, _, x⟩; omega)]
    have hdata : dataOf (pre ++ c :: cells) (pre.length : Int) = c.2 + 10 := by
      unfold dataOf
      simp
    have htp := h.targetAt (.inr ht)
    have htn := nameOk_length (oneName_form h.plain (.inr ht)).2.2
    have hin : inBailiwick inp (dataOf (pre ++ c :: cells) (pre.length : Int)) b none = .ok (decide (Inside bs r.target)) := by
      rw [hdata]
      exact inBailiwick_none hi hb.usable hb.plain htp (by omega)
    have hmark : rrNumber (r.type : Int) = 5 := by rw [ht]; rfl
    have go : (do
        let inside ← inBailiwick inp (dataOf (pre ++ c :: cells) (pre.length : Int)) b none
        let l ← answerLoop inp query b qtype (pre ++ c :: cells) (cells.zip ((cs ++ rest).map fun r => rrNumber r.type))
          (if inside then (pre.length : Int) + 1 else -1) (inside && true) (if inside then (pre.length : Int) + 1 else -2)
        .ok (rrNumber (r.type : Int) :: l) : Res (List Int)) =
        .ok (5 :: (if Inside bs r.target then chainMarks bs qs qtype rest r.target cs else (cs ++ rest).map fun _ => 36)) := by
      rw [hin]
      simp only [Res.ok_bind]
      by_cases hi' : Inside bs r.target
      · have hpre : pre ++ c :: cells = (pre ++ [c]) ++ cells := by simp
        have := ih (pre ++ [c]) cells r.target hsec hch (fun _ => by
            rw [show (((pre ++ [c]).length : Nat) : Int) - 1 = (pre.length : Int) by simp, ← hpre, hdata]
            exact htp) (by simp)
        rw [← hpre] at this
        simp only [List.length_append, List.length_singleton] at this
        simp only [hi', decide_true, Bool.true_and, if_true]
        rw [show ((pre.length : Int) + 1) = ((pre.length + 1 : Nat) : Int) by omega, this, hmark]
        rfl
      · simp only [hi', decide_false, Bool.false_eq_true, if_false, Bool.false_and]
        rw [answerLoop_out (rs := cs ++ rest) hi hq.usable _ hsec, hmark]
        rfl
    by_cases hk : pre.length = 0
    · have hmine : decide (SameName qs r.name ∧ cost qs < 260) = true := by
        rw [← h0 hk]; exact decide_eq_true hal
      rw [if_pos ⟨by omega, by omega, trivial, trivial, hmine, by omega⟩]
      rw [show dataOf (pre ++ c :: cells) 0 = dataOf (pre ++ c :: cells) (pre.length : Int) by rw [hk]; rfl]
      exact go
    · rw [if_neg (by omega), if_pos ⟨by omega, by omega, trivial, trivial, decide_eq_true (by omega), by omega⟩]
      exact go

/-! ### What kind of answer it is -/

theorem afterCname_none {qtype : Nat} : ∀ (l : List Int), (∀ m ∈ l, (m = 5 ∧ rrNumber qtype ≠ 5) ∨ m = 36) → qtype ≠ 255 →
    afterCname qtype l = 17
  | [], _, _ => rfl
  | m :: l, h, hq => by
    have hm := h m (by simp)
    have := rrNumber_le qtype
    unfold afterCname
    rw [if_neg (by omega), if_neg (by omega)]
    exact afterCname_none l (fun x hx => h x (by simp [hx])) hq

theorem afterCname_some {qtype : Nat} : ∀ (l : List Int), (∀ m ∈ l, m = 5 ∨ m = 36 ∨ m = rrNumber qtype) →
    rrNumber qtype ∈ l → afterCname qtype l = 0
  | [], _, hm => by simp at hm
  | m :: l, h, hm => by
    unfold afterCname
    by_cases h1 : m = rrNumber qtype ∨ (qtype : Int) = 255 ∧ m ≠ 5
    · rw [if_pos h1]
    · rw [if_neg h1, if_neg (by have := h m (by simp); omega)]
      refine afterCname_some l (fun x hx => h x (by simp [hx])) ?_
      rcases List.mem_cons.1 hm with e | e
      · exact absurd (.inl e.symm) h1
      · exact e

theorem kindLoop_some {qtype : Nat} : ∀ (n left : Nat) (l : List Int), (∀ m ∈ l, m = 36 ∨ m = rrNumber qtype) →
    rrNumber qtype ∈ l → l.length ≤ n → kindLoop qtype n left l = some 0
  | _, _, [], _, hm, _ => by simp at hm
  | 0, _, _ :: _, _, _, hl => by simp at hl
  | n + 1, left, m :: l, h, hm, hl => by
    unfold kindLoop
    by_cases h1 : m = rrNumber qtype ∨ (qtype : Int) = 255 ∧ m ≠ 5
    · rw [if_pos h1]
    · have h36 : m = 36 := by have := h m (by simp); omega
      rw [if_neg h1, if_neg (by omega), if_neg (by omega)]
      refine kindLoop_some n (left - 1) l (fun x hx => h x (by simp [hx])) ?_ (by simpa using hl)
      rcases List.mem_cons.1 hm with e | e
      · exact absurd (.inl e.symm) h1
      · exact e

theorem kindLoop_none {qtype : Nat} (hq : qtype ≠ 255) : ∀ (n left : Nat) (l : List Int), (∀ m ∈ l, m = 36) →
    kindLoop qtype n left l = none
  | 0, _, _, _ => by unfold kindLoop; rfl
  | _ + 1, _, [], _ => by unfold kindLoop; rfl
  | n + 1, left, m :: l, h => by
    have hm := h m (by simp)
    have := rrNumber_le qtype
    unfold kindLoop
    rw [if_neg (by omega), if_neg (by omega), if_neg (by omega)]
    exact kindLoop_none hq n (left - 1) l (fun x hx => h x (by simp [hx]))

end Dissect
end Dw
