import Verif.Deadwood.DissectRefer
/-!
# Taking a whole reply apart: lemmas
-/

namespace Dw
namespace Dissect

open DwStr Spec

/-! ### Reading a name from a buffer -/

theorem dnameLabel_plain (raw : List UInt8) (max cap : Nat) (hcap : 260 ≤ cap) :
    ∀ (l : List UInt8) (offset : Nat) (acc rest : List UInt8), raw.drop (offset + 1) = l ++ rest →
    dnameLabel raw max cap l.length offset acc = .err ∨
    dnameLabel raw max cap l.length offset acc = .ok (offset + l.length, acc ++ l) := by
  intro l
  induction l with
  | nil => intro offset acc rest _; exact .inr (by simp [dnameLabel])
  | cons x l ih =>
    intro offset acc rest h
    simp only [List.length_cons, dnameLabel]
    by_cases hc : ((offset + 1 : Int) ≥ max - 2 ∨ acc.length > 255)
    · rw [if_pos hc]; exact .inl rfl
    · rw [if_neg hc, if_neg (by omega)]
      have hx : raw[offset + 1]? = some x := by
        have := congrArg (·[0]?) h
        simpa using this
      have hp : rawPeek raw (offset + 1) = .ok x := by unfold rawPeek; rw [hx]
      rw [hp]
      simp only [Res.ok_bind]
      by_cases hx32 : x < 32
      · rw [if_pos hx32]; exact .inl rfl
      · rw [if_neg hx32]
        have hr : raw.drop (offset + 1 + 1) = l ++ rest := by
          rw [← List.drop_drop, h]; rfl
        rcases ih (offset + 1) (acc ++ [x]) rest hr with e | e
        · exact .inl e
        · right
          rw [e]
          simp only [List.append_assoc, List.singleton_append]
          congr 2
          omega

theorem dnameLoop_plain (raw : List UInt8) (max cap : Nat) (hcap : 260 ≤ cap) :
    ∀ (ls : List (List UInt8)) (n offset : Nat) (acc rest : List UInt8), ls.length < n → n ≤ 400 → LabelsOk ls →
    raw.drop offset = encName ls ++ rest →
    dnameLoop raw max cap n offset acc = .err ∨
    dnameLoop raw max cap n offset acc = .ok (acc ++ encName ls, 400 - n + ls.length) := by
  intro ls
  induction ls with
  | nil =>
    intro n offset acc rest hn hn4 _ h
    obtain ⟨n, rfl⟩ : ∃ k, n = k + 1 := ⟨n - 1, by simp at hn; omega⟩
    simp only [dnameLoop]
    by_cases hc : ((offset : Int) ≥ max - 2 ∨ acc.length > 255)
    · rw [if_pos hc]; exact .inl rfl
    · rw [if_neg hc, if_neg (by omega)]
      have hx : raw[offset]? = some 0 := by
        have := congrArg (·[0]?) h
        simpa [encName, encLabels] using this
      have hp : rawPeek raw offset = .ok 0 := by unfold rawPeek; rw [hx]
      rw [hp]
      exact .inr (by simp [encName, encLabels])
  | cons l ls ih =>
    intro n offset acc rest hn hn4 hok h
    obtain ⟨n, rfl⟩ : ∃ k, n = k + 1 := ⟨n - 1, by simp at hn; omega⟩
    have hl := hok l (by simp)
    have he : encName (l :: ls) = UInt8.ofNat l.length :: (l ++ encName ls) := by simp [encName, encLabels]
    simp only [dnameLoop]
    by_cases hc : ((offset : Int) ≥ max - 2 ∨ acc.length > 255)
    · rw [if_pos hc]; exact .inl rfl
    · rw [if_neg hc, if_neg (by omega)]
      have hx : raw[offset]? = some (UInt8.ofNat l.length) := by
        have := congrArg (·[0]?) h
        simpa [he] using this
      have hp : rawPeek raw offset = .ok (UInt8.ofNat l.length) := by unfold rawPeek; rw [hx]
      have hto : (UInt8.ofNat l.length).toNat = l.length := by rw [ofNat8_toNat]; omega
      have hr : raw.drop (offset + 1) = l ++ (encName ls ++ rest) := by
        rw [← List.drop_drop, h, he]; simp
      rw [hp]
      simp only [Res.ok_bind]
      rw [if_neg (by rw [gt_iff_lt, UInt8.lt_iff_toNat_lt, hto]; show ¬ 63 < l.length; omega), if_neg (by
        intro hc
        have := congrArg UInt8.toNat hc
        rw [hto] at this
        have h0 : (0 : UInt8).toNat = 0 := rfl
        omega), hto]
      rcases dnameLabel_plain raw max cap hcap l offset (acc ++ [UInt8.ofNat l.length]) _ hr with e | e
      · rw [e]; exact .inl rfl
      · rw [e]
        simp only [Res.ok_bind]
        have hr2 : raw.drop (offset + l.length + 1) = encName ls ++ rest := by
          rw [show offset + l.length + 1 = (offset + 1) + l.length by omega, ← List.drop_drop, hr]; simp
        rcases ih n (offset + l.length + 1) (acc ++ [UInt8.ofNat l.length] ++ l) rest (by simpa using hn) (by omega)
          (fun x hx => hok x (by simp [hx])) hr2 with e | e
        · exact .inl e
        · right
          rw [e, he]
          simp only [List.append_assoc, List.singleton_append, List.length_cons, List.cons_append, List.nil_append]
          congr 2
          omega

/-- What is read where a name is: nothing, or that name. -/
theorem getDname_plain {raw : List UInt8} {offset : Nat} {ls : List (List UInt8)} (hok : Spec.NameOk ls) {rest : List UInt8}
    (h : raw.drop offset = encName ls ++ rest) :
    getDname raw offset 260 = .err ∨ getDname raw offset 260 = .ok (encName ls, ls.length) := by
  have := nameOk_length hok
  unfold getDname
  simp only [gt_iff_lt, Nat.lt_irrefl, if_false]
  rw [if_neg (by omega)]
  rcases dnameLoop_plain raw 260 260 (by omega) ls 400 offset [] rest (by omega) (by omega) hok.1 h with e | e
  · exact .inl e
  · exact .inr (by rw [e]; simp)

theorem buf_drop {s : DwStr} (hs : Usable s) {pre l post : List UInt8} (h : s.contents = pre ++ l ++ post) :
    ∃ rest, s.buf.drop pre.length = l ++ rest := by
  have hb : s.buf = s.contents ++ s.buf.drop s.len := by
    rw [DwStr.contents, List.take_append_drop]
  refine ⟨post ++ s.buf.drop s.len, ?_⟩
  rw [hb, h]
  simp only [List.append_assoc, List.drop_left]
  congr 2
  rw [← hs.clen, h]
  simp

/-! ### Nothing is read or written outside -/

theorem topLoop_safe {inp b : DwStr} (hi : Usable inp) (hb : Usable b) : ∀ (n o : Nat), o ≤ inp.len →
    ∃ r, topLoop inp b n o = .ok r
  | 0, _, _ => ⟨_, rfl⟩
  | n + 1, o, ho => by
    unfold topLoop
    obtain ⟨x, hx⟩ := peek_block hi (i := o) (by omega)
    rw [hx]
    simp only [Res.ok_bind]
    split
    · exact ⟨_, rfl⟩
    split
    · exact ⟨_, rfl⟩
    split
    · exact ⟨_, rfl⟩
    · rename_i h
      obtain ⟨r, hr⟩ := isSame_safe hi hb (o + x.toNat + 1) 0
      rw [hr]
      simp only [Res.ok_bind]
      split
      · exact ⟨_, rfl⟩
      · exact topLoop_safe hi hb n _ (by omega)

theorem inBailiwick_safe {inp b : DwStr} (hi : Usable inp) (hb : Usable b) (o : Nat) :
    ∃ r, inBailiwick inp o b none = .ok r := by
  unfold inBailiwick
  simp only [Res.ok_bind, Bool.not_true, Bool.false_eq_true, if_false]
  unfold bailiwickTop
  split
  · exact ⟨_, rfl⟩
  · exact topLoop_safe hi hb _ _ (by omega)

/-! ### The answers -/

/-- The mark of an answer: ignored, or its type, which is the one asked for or CNAME. -/
def AnMark (qtype : Nat) (r : Rec) (m : Int) : Prop :=
  m = 36 ∨ (m = rrNumber r.type ∧ (r.type = qtype ∨ r.type = 5))

theorem isNext_safe {inp : DwStr} (hi : Usable inp) (an : List (Nat × Nat)) (chain : Int) (o : Nat) :
    ∃ r, isNext inp an chain o = .ok r := by
  unfold isNext
  split
  · exact isSame_safe hi hi _ _
  · exact ⟨_, rfl⟩

theorem answerLoop_sound {inp query b : DwStr} (hi : Usable inp) (hq : Usable query) (hb : Usable b) (qtype : Nat)
    (an : List (Nat × Nat)) : ∀ {cells : List (Nat × Nat)} {rs : List Rec}, Sec inp cells rs →
    ∀ (chain : Int) (use : Bool) (off : Int),
    ∃ l, answerLoop inp query b qtype an (cells.zip (rs.map fun r => rrNumber r.type)) chain use off = .ok l ∧
      List.Forall₂ (AnMark qtype) rs l
  | _, _, .nil, _, _, _ => ⟨[], rfl, .nil⟩
  | _, _, .cons (a := c) (b := r) (l₂ := rs) h hsec, chain, use, off => by
    simp only [List.map_cons, List.zip_cons_cons, answerLoop]
    obtain ⟨mine, hm⟩ := isSame_safe hq hi 0 c.1
    rw [hm, h.type hi]
    simp only [Res.ok_bind]
    obtain ⟨next, hn⟩ := isNext_safe hi an chain c.1
    rw [hn]
    simp only [Res.ok_bind]
    have ih := fun (c : Int) (u : Bool) (o : Int) => answerLoop_sound hi hq hb qtype an hsec c u o
    split
    · rename_i hc
      obtain ⟨l, e1, e2⟩ := ih chain false (off + 1)
      rw [e1]
      exact ⟨_, rfl, .cons (.inr ⟨rfl, .inl (by omega)⟩) e2⟩
    split
    · rename_i _ hc
      obtain ⟨inside, hin⟩ := inBailiwick_safe hi hb (dataOf an 0)
      rw [hin]
      simp only [Res.ok_bind]
      obtain ⟨l, e1, e2⟩ := ih (if inside then chain + 1 else -1) (inside && use) (if inside then off + 1 else -2)
      rw [e1]
      exact ⟨_, rfl, .cons (.inr ⟨rfl, .inr (by have := hc.2.2.2.2.2; omega)⟩) e2⟩
    split
    · rename_i _ _ hc
      obtain ⟨inside, hin⟩ := inBailiwick_safe hi hb (dataOf an chain)
      rw [hin]
      simp only [Res.ok_bind]
      obtain ⟨l, e1, e2⟩ := ih (if inside then chain + 1 else -1) (inside && use) (if inside then off + 1 else -2)
      rw [e1]
      exact ⟨_, rfl, .cons (.inr ⟨rfl, .inr (by have := hc.2.2.2.2.2; omega)⟩) e2⟩
    split
    · rename_i _ _ _ hc
      obtain ⟨l, e1, e2⟩ := ih chain false (off + 1)
      rw [e1]
      exact ⟨_, rfl, .cons (.inr ⟨rfl, .inl (by omega)⟩) e2⟩
    · obtain ⟨l, e1, e2⟩ := ih chain use off
      rw [e1]
      exact ⟨_, rfl, .cons (.inl rfl) e2⟩

/-- The mark of an answer to a question for everything. -/
def AnyMark (r : Rec) (m : Int) : Prop := m = 36 ∨ m = rrNumber r.type

theorem anyLoop_sound {inp query : DwStr} (hi : Usable inp) (hq : Usable query) (an : List (Nat × Nat)) :
    ∀ {cells : List (Nat × Nat)} {rs : List Rec}, Sec inp cells rs → ∀ (i chain : Nat) (use : Bool),
    ∃ l, anyLoop inp query an (cells.zip (rs.map fun r => rrNumber r.type)) i chain use = .ok l ∧
      List.Forall₂ AnyMark rs l
  | _, _, .nil, _, _, _ => ⟨[], rfl, .nil⟩
  | _, _, .cons (a := c) (b := r) (l₂ := rs) h hsec, i, chain, use => by
    simp only [List.map_cons, List.zip_cons_cons, anyLoop]
    obtain ⟨mine, hm⟩ := isSame_safe hq hi 0 c.1
    rw [hm, h.type hi]
    simp only [Res.ok_bind]
    obtain ⟨next, hn⟩ := isNext_safe hi an chain c.1
    rw [hn]
    simp only [Res.ok_bind]
    have ih := fun (j c : Nat) (u : Bool) => anyLoop_sound hi hq an hsec j c u
    split
    · obtain ⟨l, e1, e2⟩ := ih (i + 1) chain false
      rw [e1]
      exact ⟨_, rfl, .cons (.inr rfl) e2⟩
    split
    · obtain ⟨l, e1, e2⟩ := ih (i + 1) (chain + 1) use
      rw [e1]
      exact ⟨_, rfl, .cons (.inr rfl) e2⟩
    split
    · obtain ⟨l, e1, e2⟩ := ih (i + 1) (chain + 1) use
      rw [e1]
      exact ⟨_, rfl, .cons (.inr rfl) e2⟩
    split
    · obtain ⟨l, e1, e2⟩ := ih (i + 1) chain false
      rw [e1]
      exact ⟨_, rfl, .cons (.inr rfl) e2⟩
    · obtain ⟨l, e1, e2⟩ := ih (i + 1) chain use
      rw [e1]
      exact ⟨_, rfl, .cons (.inl rfl) e2⟩

theorem AnMark.any {qtype : Nat} {r : Rec} {m : Int} (h : AnMark qtype r m) : AnyMark r m := by
  rcases h with h | h
  · exact .inl h
  · exact .inr h.1

/-- What the first pass over a reply leads to. -/
theorem checkAnswers_sound {inp query b : DwStr} {p : Answers} (hr : Reply inp p) {look : DnsStr} (hv : Views inp p look)
    {qs : List (List UInt8)} {qtype : Nat} (hq : Asks query qs qtype) (hb : Usable b) (ns ar : List Int) :
    ∃ l, checkAnswers inp query b ⟨look, p.an.map (fun r => rrNumber r.type), ns, ar⟩ = .ok ⟨look, l, ns, ar⟩ ∧
      List.Forall₂ AnyMark p.an l ∧ (qtype ≠ 255 → List.Forall₂ (AnMark qtype) p.an l) := by
  unfold checkAnswers
  rw [hq.fetch]
  simp only [Res.ok_bind]
  by_cases h255 : qtype = 255
  · rw [if_pos (by omega)]
    obtain ⟨l, e1, e2⟩ := anyLoop_sound hr.usable hq.usable look.an hv.an 0 0 true
    rw [e1]
    exact ⟨l, rfl, e2, fun h => absurd h255 h⟩
  · rw [if_neg (by omega)]
    obtain ⟨l, e1, e2⟩ := answerLoop_sound hr.usable hq.usable hb qtype look.an hv.an 0 true 0
    rw [e1]
    exact ⟨l, rfl, e2.imp (fun _ _ => AnMark.any), fun _ => e2⟩

/-- The mark of an additional record after the clean-up. -/
def cleanAr (r : Rec) : Int := if r.type = 1 then 1 else if r.type = 28 then 28 else 36

theorem cleanAr_eq (r : Rec) :
    (if rrNumber (r.type : Int) ≠ 1 ∧ rrNumber (r.type : Int) ≠ 28 then (36 : Int) else rrNumber r.type) = cleanAr r := by
  have h2 := rrNumber_eq (t := r.type) (k := 1) (by omega) (by omega)
  have h6 := rrNumber_eq (t := r.type) (k := 28) (by omega) (by omega)
  unfold cleanAr
  by_cases e2 : r.type = 1
  · have := h2.2 e2
    rw [if_pos e2]
    rw [show rrNumber (r.type : Int) = 1 from this]; rfl
  · by_cases e6 : r.type = 28
    · have := h6.2 e6
      rw [if_neg e2, if_pos e6]
      rw [show rrNumber (r.type : Int) = 28 from this]; rfl
    · have n2 := mt h2.1 e2
      have n6 := mt h6.1 e6
      rw [if_neg e2, if_neg e6, if_pos ⟨by simpa using n2, by simpa using n6⟩]

theorem cleanAr_mark (r : Rec) : ArMark [] r (cleanAr r) := by
  refine ⟨fun h => ?_, fun _ h => ?_, fun h _ => ?_, fun _ h => ?_, fun h _ => ?_⟩
  · have := isAddr_false.1 h
    unfold cleanAr
    rw [if_neg this.1, if_neg this.2]
  · simp at h
  · unfold cleanAr; rw [if_pos h]
  · simp at h
  · unfold cleanAr; rw [if_neg (by omega), if_pos h]

/-- The string of a reply ends with its kind. -/
theorem peek_kind {inp : DwStr} {p : Answers} (hr : Reply inp p) {look : DnsStr} (hv : Views inp p look) :
    look.packet.peek (look.packet.len - 1) = .ok p.kind := by
  have hc : look.packet.contents = (p.packed.all.flatMap RR.enc ++ (offsets 0 p.packed.all).flatMap Packed.cell ++
    be16 p.packed.an.length ++ be16 p.packed.ns.length ++ be16 p.packed.ar.length) ++ [p.kind] ++ [] := by
    rw [hv.same, hr.contents]; simp [Packed.enc, Answers.packed]
  have hb := bytesAt_mid hc
  have h0 := hb 0 (by simp)
  have hl := congrArg List.length hc
  rw [hv.packet.clen] at hl
  simp only [List.append_nil, List.length_append, List.length_singleton] at hl
  apply mem_peek
  rw [← show (p.kind) = [p.kind][0] from rfl] at h0
  rw [← h0]
  congr 1
  simp only [List.length_append]
  omega

/-- Without answers: what is left is decided by the first authority record. -/
theorem dissect_no_answers {inp query b : DwStr} {p : Answers} (hr : Reply inp p) {qs : List (List UInt8)} {qtype : Nat}
    (hq : Asks query qs qtype) (hb : Usable b) (han : p.an = []) (junk : List UInt8) :
    ∃ look, Views inp p look ∧ dissect inp query b junk = (do
      let (kind, v) ← answerKind inp query ⟨look, [], p.ns.map clean, p.ar.map cleanAr⟩
      if kind = 23 then answerInAr inp v junk
      else do
        let v ← if kind = 16 then do
            let v ← checkBailiwick query b v
            linkNs v
          else Res.ok v
        cacheString v kind junk) := by
  obtain ⟨look, hv, hd⟩ := details_exact hr junk
  refine ⟨look, hv, ?_⟩
  obtain ⟨l, e1, e2, -⟩ := checkAnswers_sound hr hv hq hb (p.ns.map fun r => rrNumber r.type) (p.ar.map fun r => rrNumber r.type)
  rw [han] at e2
  cases e2
  have hlen : look.an.length = 0 := by rw [sec_length hv.an, han]; rfl
  unfold dissect
  rw [hq.fetch, hd]
  simp only [Res.ok_bind]
  rw [e1]
  simp only [Res.ok_bind]
  have : cleanup (noOthers ⟨look, [], p.ns.map (fun r => rrNumber r.type), p.ar.map (fun r => rrNumber r.type)⟩) =
      ⟨look, [], p.ns.map clean, p.ar.map cleanAr⟩ := by
    unfold noOthers
    simp only
    rw [if_pos hlen]
    unfold cleanup
    simp only [List.map_map]
    congr 1
    · apply List.map_congr_left; intro r _; exact clean_eq r
    · apply List.map_congr_left; intro r _; exact cleanAr_eq r
  rw [this]

/-- With answers: what is left is decided by them. -/
theorem dissect_answers {inp query b : DwStr} {p : Answers} (hr : Reply inp p) {qs : List (List UInt8)} {qtype : Nat}
    (hq : Asks query qs qtype) (hb : Usable b) (han : p.an ≠ []) (junk : List UInt8) :
    ∃ look l, Views inp p look ∧ List.Forall₂ AnyMark p.an l ∧ (qtype ≠ 255 → List.Forall₂ (AnMark qtype) p.an l) ∧
      checkAnswers inp query b ⟨look, p.an.map (fun r => rrNumber r.type), p.ns.map (fun r => rrNumber r.type),
        p.ar.map (fun r => rrNumber r.type)⟩ =
        .ok ⟨look, l, p.ns.map (fun r => rrNumber r.type), p.ar.map (fun r => rrNumber r.type)⟩ ∧
      dissect inp query b junk = match kindLoop qtype 7 32 l with
        | some k => cacheString ⟨look, l, p.ns.map fun _ => 36, p.ar.map fun _ => 36⟩ k junk
        | none => .err := by
  obtain ⟨look, hv, hd⟩ := details_exact hr junk
  obtain ⟨l, e1, e2, e3⟩ := checkAnswers_sound hr hv hq hb (p.ns.map fun r => rrNumber r.type) (p.ar.map fun r => rrNumber r.type)
  refine ⟨look, l, hv, e2, e3, e1, ?_⟩
  have hlen : look.an.length ≠ 0 := by
    rw [sec_length hv.an]; exact fun h => han (List.length_eq_zero_iff.1 h)
  unfold dissect
  rw [hq.fetch, hd]
  simp only [Res.ok_bind]
  rw [e1]
  simp only [Res.ok_bind]
  have : cleanup (noOthers ⟨look, l, p.ns.map (fun r => rrNumber r.type), p.ar.map (fun r => rrNumber r.type)⟩) =
      ⟨look, l, p.ns.map fun _ => 36, p.ar.map fun _ => 36⟩ := by
    unfold noOthers
    simp only
    rw [if_neg hlen]
    unfold cleanup
    simp only [List.map_map]
    congr 1
  rw [this]
  unfold answerKind
  rw [hq.fetch]
  simp only [Res.ok_bind]
  rw [if_pos (by omega)]
  cases hk : kindLoop qtype 7 32 l with
  | some k =>
    simp only [Res.ok_bind]
    have hk3 : k = 0 ∨ k = 17 ∨ k = 19 := by
      have hac : ∀ l : List Int, afterCname qtype l = 0 ∨ afterCname qtype l = 17 ∨ afterCname qtype l = 19 := by
        intro l
        induction l with
        | nil => simp [afterCname]
        | cons t l ih =>
          unfold afterCname
          split
          · simp
          split
          · simp
          · exact ih
      have : ∀ (n left : Nat) (l : List Int) (k : Nat), kindLoop qtype n left l = some k → k = 0 ∨ k = 17 ∨ k = 19 := by
        intro n
        induction n with
        | zero => intro left l k h; simp [kindLoop] at h
        | succ n ih =>
          intro left l k h
          cases l with
          | nil => simp [kindLoop] at h
          | cons t l =>
            unfold kindLoop at h
            split at h
            · simp only [Option.some.injEq] at h; omega
            split at h
            · simp only [Option.some.injEq] at h
              rw [← h]; exact hac _
            split at h
            · simp only [Option.some.injEq] at h; omega
            · exact ih _ _ _ h
      exact this _ _ _ _ hk
    rw [if_neg (by omega), if_neg (by omega)]
  | none =>
    simp only
    have hfirst : ((p.ns.map fun _ => (36 : Int)).headD 0) = 36 ∨ ((p.ns.map fun _ => (36 : Int)).headD 0) = 0 := by
      cases p.ns <;> simp
    rw [if_neg (by omega), if_neg (by omega)]
    simp only [Res.ok_bind]
    rw [if_neg (by omega), if_neg (by omega)]
    unfold cacheString
    simp only
    rw [peek_kind hr hv]
    simp only [Res.ok_bind]
    rw [if_neg (show ¬ (p.kind = 1 ∧ 19 = 2) by omega)]
    split
    · rfl
    · rw [if_neg (by omega), if_neg (by omega), if_neg (by omega)]

/-! ### A referral, whatever its glue is like -/

theorem nsGlue_safe {s : DwStr} (hs : Usable s) (o : Nat) (ho : o < 1000000) (m : Int) (junk : List UInt8) :
    nsGlue s o m junk = .err ∨ ∃ t, nsGlue s o m junk = .ok t ∧ Live t := by
  have main : ∀ (b : UInt8) (len : Nat), len ≤ 16 →
      (do let out ← create (len + 2) junk
          let out ← addchar b out
          s.substrAppend o len out junk : Res DwStr) = .err ∨
      ∃ t, (do let out ← create (len + 2) junk
               let out ← addchar b out
               s.substrAppend o len out junk : Res DwStr) = .ok t ∧ Live t := by
    intro b len hlen
    obtain ⟨c, c1, c2, c3, c4⟩ := create_usable (len + 2) junk (by omega) (by omega)
    rw [c1]
    simp only [Res.ok_bind]
    have hadd := addchar_exact b c2
    by_cases hf : c.contents.length + 1 < c.max
    · obtain ⟨d, d1, d2, -, -⟩ := hadd.2 hf
      rw [d1]
      simp only [Res.ok_bind]
      unfold substrAppend
      rcases substr_safe hs o len junk (by omega) (by omega) with e | ⟨t, e, ht⟩
      · rw [e]; exact .inl rfl
      · rw [e]
        simp only [Res.ok_bind]
        rcases append_safe ht d2 with e | ⟨u, e, hu, -, -⟩
        · exact .inl e
        · exact .inr ⟨u, e, hu.live⟩
    · rw [hadd.1 (by omega)]
      exact .inl rfl
  unfold nsGlue
  split
  · exact main 1 4 (by omega)
  split
  · exact main 28 16 (by omega)
  · exact .inl rfl

theorem gluedLoop_safe {s : DwStr} (hs : Usable s) (junk : List UInt8) : ∀ (l : List ((Nat × Nat) × Int)) (out : DwStr)
    (offs : List Nat), (∀ c ∈ l, c.1.2 < 900000) → Usable out → offs.length ≤ 31 →
    gluedLoop s junk l out offs = .err ∨ ∃ out' offs', gluedLoop s junk l out offs = .ok (out', offs') ∧ Usable out' ∧
      offs'.length ≤ 31 ∧ ∃ x, out'.contents = out.contents ++ x
  | [], out, offs, _, ho, hl => .inr ⟨out, offs, rfl, ho, hl, [], by simp⟩
  | (c, m) :: rest, out, offs, hc, ho, hl => by
    unfold gluedLoop
    have hrest : ∀ c ∈ rest, c.1.2 < 900000 := fun c h => hc c (by simp [h])
    split
    · rw [if_neg (by omega)]
      rcases nsGlue_safe hs (c.2 + 10) (by have := hc (c, m) (by simp); simp only at this; omega) m junk with e | ⟨t, e, ht⟩
      · simp only [e]; exact .inl rfl
      · simp only [e, Res.ok_bind]
        rcases append_safe ht ho with e | ⟨o', e, ho', -, x, hx⟩
        · rw [e]; exact .inl rfl
        · rw [e]
          simp only [Res.ok_bind]
          split
          · exact .inl rfl
          · rename_i hlt
            simp only [List.length_append, List.length_singleton] at hlt
            rcases gluedLoop_safe hs junk rest o' (offs ++ [out.len % 65536]) hrest ho'
              (by simp only [List.length_append, List.length_singleton]; omega) with e | ⟨o2, f2, e, h1, h2, y, h3⟩
            · exact .inl e
            · exact .inr ⟨o2, f2, e, h1, h2, x ++ y, by rw [h3, hx, List.append_assoc]⟩
    · exact gluedLoop_safe hs junk rest out offs hrest ho hl

theorem gluelessLoop_safe {s : DwStr} (hs : Usable s) (junk : List UInt8) {bs qs : List (List UInt8)} {ar : List Rec} :
    ∀ {xs : List (Rec × Bool)} {cells : List (Nat × Nat)}, Sec s cells (xs.map Prod.fst) → ∀ {ms : List Int},
    List.Forall₂ (NsMark bs qs ar) xs ms → ∀ (out : DwStr) (offs : List Nat), Usable out → offs.length ≤ 31 →
    gluelessLoop s junk (cells.zip ms) out offs = .err ∨ ∃ out' offs', gluelessLoop s junk (cells.zip ms) out offs =
      .ok (out', offs') ∧ Usable out' ∧ offs'.length ≤ 31 ∧ ∃ x, out'.contents = out.contents ++ x := by
  intro xs
  induction xs with
  | nil =>
    intro cells hc ms hm out offs ho hl
    cases hc
    exact .inr ⟨out, offs, rfl, ho, hl, [], by simp⟩
  | cons x xs ih =>
    intro cells hc ms hm out offs ho hl
    cases hc with
    | @cons c _ cells _ h hsec =>
    cases hm with
    | @cons _ m _ ms hm hms =>
    simp only [List.zip_cons_cons, gluelessLoop]
    split
    · rename_i h32
      rw [if_neg (by omega)]
      have := (hm.bare.1 h32).1
      obtain ⟨t, e, ht, -⟩ := nsGlueless_exact hs h this.2.2 junk
      simp only [e, Res.ok_bind]
      rcases append_safe ht.live ho with e | ⟨o', e, ho', -, y, hy⟩
      · rw [e]; exact .inl rfl
      · rw [e]
        simp only [Res.ok_bind]
        split
        · exact .inl rfl
        · rename_i hlt
          simp only [List.length_append, List.length_singleton] at hlt
          rcases ih hsec hms o' (offs ++ [out.len % 65536]) ho'
            (by simp only [List.length_append, List.length_singleton]; omega) with e | ⟨o2, f2, e, h1, h2, z, h3⟩
          · exact .inl e
          · exact .inr ⟨o2, f2, e, h1, h2, y ++ z, by rw [h3, hy, List.append_assoc]⟩
    · exact ih hsec hms out offs ho hl

theorem pushAll_safe : ∀ (os : List Nat) {s : DwStr}, Usable s →
    pushAll os s = .err ∨ ∃ s', pushAll os s = .ok s' ∧ Usable s' ∧ ∃ x, s'.contents = s.contents ++ x
  | [], s, hs => .inr ⟨s, rfl, hs, [], by simp⟩
  | o :: os, s, hs => by
    unfold pushAll
    rcases pushU16_safe hs (v := o) with e | ⟨t, e, ht, -, hx⟩
    · rw [e]; exact .inl rfl
    · rw [e]
      simp only [Res.ok_bind]
      rcases pushAll_safe os ht with e | ⟨u, e, hu, y, hy⟩
      · exact .inl e
      · exact .inr ⟨u, e, hu, _, by rw [hy, hx, List.append_assoc]⟩

theorem addchar_safe {s : DwStr} (b : UInt8) (hs : Usable s) :
    addchar b s = .err ∨ ∃ s', addchar b s = .ok s' ∧ Usable s' ∧ s'.contents = s.contents ++ [b] := by
  by_cases hf : s.contents.length + 1 < s.max
  · obtain ⟨t, h1, h2, -, h4⟩ := (addchar_exact b hs).2 hf
    exact .inr ⟨t, h1, h2, h4⟩
  · exact .inl ((addchar_exact b hs).1 (by omega))

theorem sec_bound {s : DwStr} (hs : Usable s) : ∀ {cells : List (Nat × Nat)} {rs : List Rec}, Sec s cells rs →
    ∀ c ∈ cells, c.1 ≤ s.contents.length ∧ c.2 ≤ s.contents.length
  | _, _, .nil, c, hc => by simp at hc
  | _, _, .cons h hsec, c, hc => by
    rcases List.mem_cons.1 hc with rfl | hc
    · have h1 := at_bound hs h.bytes (rr_pos h.plain.ok)
      have h2 := at_bound hs h.rest (by simp [be16])
      simp only [List.length_append, be16_length] at h2
      omega
    · exact sec_bound hs hsec c hc

/-- A referral is written, if at all, after the name of the zone, and ends with its kind. -/
theorem nsRefer_prefix {inp : DwStr} {p : Answers} (hr : Reply inp p) {look : DnsStr} (hv : Views inp p look)
    {bs qs : List (List UInt8)} {an nsM arM : List Int}
    (hns : List.Forall₂ (NsMark bs qs p.ar) (tag 15 p.ns) nsM) (hal : arM.length = p.ar.length) (junk : List UInt8) :
    nsRefer ⟨look, an, nsM, arM⟩ junk = .err ∨ ∃ o, nsRefer ⟨look, an, nsM, arM⟩ junk = .ok o ∧ Usable o ∧
      ∃ x, o.contents = zoneBytes (longestOf (candidates bs qs (tag 15 p.ns)) none) ++ x ++ [16] := by
  have hs := hv.packet
  have hsec : Sec look.packet look.ns ((tag 15 p.ns).map Prod.fst) := by rw [tag_fst]; exact hv.ns'
  obtain ⟨n, n1, n2, n3⟩ := gluelessLen_enough hs hsec hns
  have g2 := glueLen_le arM
  have hcnt := count_le (p.all.map Rec.toRR)
  have hsz := hr.size
  rw [List.length_map] at hcnt
  have hcall : p.all.length = p.an.length + p.ns.length + p.ar.length := by simp [Answers.all]; omega
  have hnb : n ≤ 65600 * 15 := gluelessLen_bound hs 15 hv.ns' hns n1
  generalize hz : longestOf (candidates bs qs (tag 15 p.ns)) none = z
  have hzl : (zoneBytes z).length ≤ 255 := by
    cases hzz : z with
    | none => simp [zoneBytes]
    | some nm =>
      rw [hzz] at hz
      rcases longestOf_mem _ _ hz with h | ⟨r, hr', rfl⟩
      · cases h
      · unfold candidates at hr'
        obtain ⟨x, hx, rfl⟩ := List.mem_map.1 hr'
        have hx := (List.mem_filter.1 hx).1
        have : x.1 ∈ p.ns := by rw [← tag_fst 15 p.ns]; exact List.mem_map.2 ⟨x, hx, rfl⟩
        have := (hr.recs x.1 (by simp [Answers.all, this])).name.2
        simpa [zoneBytes] using this
  unfold nsRefer
  simp only
  rw [n1]
  simp only [Res.ok_bind]
  have hlen : look.packet.contents.length = sizes (p.all.map Rec.toRR) + p.all.length * 4 + 7 := by
    rw [hv.same, hr.contents, hr.packed.enc_length, packed_all]; simp
  have hhead : (look.ns.headD (0, 0)).1 ≤ look.packet.contents.length := by
    cases hc : look.ns with
    | nil => simp
    | cons c cs =>
      have := (sec_bound hs hv.ns' c (by rw [hc]; simp)).1
      simpa using this
  obtain ⟨at', l1, l2, l3⟩ := longest_exact hs hsec hns none 0 (look.ns.headD (0, 0)).1 rfl
    (fun j hj => absurd hj (by simp [zoneBytes])) hhead
  rw [hz] at l1 l2
  unfold nsReferProc findReferral
  simp only
  rw [l1]
  simp only [Res.ok_bind]
  have hbound : at' + (zoneBytes z).length ≤ look.packet.contents.length := by
    by_cases h0 : 0 < (zoneBytes z).length
    · exact at_bound hs l2 h0
    · omega
  obtain ⟨o0, a1, a2, a3, a4⟩ := substr_in hs at' (zoneBytes z).length (glueLen arM + n + 3) junk hbound (by omega)
  rw [bytes_of_at hs l2] at a4
  rw [a1]
  simp only [Res.ok_bind]
  rcases gluedLoop_safe hs junk (look.ar.zip arM) o0 [] (by
      rintro ⟨c, m⟩ h
      have := (sec_bound hs hv.ar' c (List.of_mem_zip h).1).2
      simp only
      omega) a2 (by simp) with e | ⟨o1, f1, e, b1, b2, x1, b3⟩
  · rw [e]; exact .inl rfl
  rw [e]
  simp only [Res.ok_bind]
  rcases gluelessLoop_safe hs junk hsec hns o1 f1 b1 b2 with e | ⟨o2, f2, e, c1, c2, x2, c3⟩
  · rw [e]; exact .inl rfl
  rw [e]
  simp only [Res.ok_bind]
  rcases pushAll_safe f2 c1 with e | ⟨o3, e, d1, x3, d2⟩
  · rw [e]; exact .inl rfl
  rw [e]
  simp only [Res.ok_bind]
  rcases addchar_safe (UInt8.ofNat f2.length) d1 with e | ⟨o4, e, e1, e2⟩
  · rw [e]; exact .inl rfl
  rw [e]
  simp only [Res.ok_bind]
  rcases addchar_safe 16 e1 with e | ⟨o5, e, g1, g2⟩
  · rw [e]; exact .inl rfl
  exact .inr ⟨o5, e, g1, x1 ++ (x2 ++ (x3 ++ [UInt8.ofNat f2.length])), by
    rw [g2, e2, d2, c3, b3, a4]; simp only [List.append_assoc]⟩

end Dissect
end Dw
