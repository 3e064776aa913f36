import Verif.Deadwood.DissectFinish
/-!
# Lemmas: answers that begin with their aliases
-/

namespace Dw
namespace Dissect

open DwStr Spec

theorem restMark_cases (qs cur : List (List UInt8)) (qtype : Nat) (r : Rec) :
    restMark qs cur qtype r = 36 ∨ restMark qs cur qtype r = rrNumber qtype := by
  unfold restMark; split <;> simp

/-- Marks of answers that begin with their aliases. -/
theorem chainMarks_cases (bs qs : List (List UInt8)) (qtype : Nat) (rest : List Rec) :
    ∀ (cs : List Rec) (cur : List (List UInt8)), ∀ m ∈ chainMarks bs qs qtype rest cur cs,
      m = 5 ∨ m = 36 ∨ m = rrNumber qtype
  | [], cur, m, h => by
    unfold chainMarks at h
    obtain ⟨r, -, rfl⟩ := List.mem_map.1 h
    exact .inr (restMark_cases ..)
  | r :: cs, cur, m, h => by
    unfold chainMarks at h
    rcases List.mem_cons.1 h with rfl | h
    · exact .inl rfl
    · split at h
      · exact chainMarks_cases bs qs qtype rest cs _ m h
      · obtain ⟨r, -, rfl⟩ := List.mem_map.1 h
        exact .inr (.inl rfl)

theorem chainMarks_length (bs qs : List (List UInt8)) (qtype : Nat) (rest : List Rec) :
    ∀ (cs : List Rec) (cur : List (List UInt8)), (chainMarks bs qs qtype rest cur cs).length = (cs ++ rest).length
  | [], cur => by simp [chainMarks]
  | r :: cs, cur => by
    unfold chainMarks
    split
    · simp [chainMarks_length bs qs qtype rest cs]
    · simp

/-- Whether there is an answer. -/
theorem chainMarks_answer (bs qs : List (List UInt8)) {qtype : Nat} (h5 : qtype ≠ 5) (rest : List Rec) :
    ∀ (cs : List Rec) (cur : List (List UInt8)), (∀ c ∈ cs, c.type = 5) →
      (rrNumber qtype ∈ chainMarks bs qs qtype rest cur cs ↔
        ∃ r ∈ believed bs qs qtype rest cur cs, r.type = qtype)
  | [], cur, _ => by
    have hle := rrNumber_le qtype
    unfold chainMarks believed
    simp only [List.mem_map, List.mem_filter, decide_eq_true_eq]
    constructor
    · rintro ⟨r, hr, h⟩
      unfold restMark at h
      split at h
      · rename_i hc; exact ⟨r, ⟨hr, hc⟩, hc.1⟩
      · omega
    · rintro ⟨r, ⟨hr, hc⟩, -⟩
      refine ⟨r, hr, ?_⟩
      unfold restMark
      rw [if_pos hc]
  | r :: cs, cur, ht => by
    have hle := rrNumber_le qtype
    have hne : rrNumber qtype ≠ 5 := fun h => h5 ((rrNumber_eq (k := 5) (by omega) (by omega)).1 h)
    have htr := ht r (by simp)
    unfold chainMarks believed
    by_cases hin : Inside bs r.target
    · have ih := chainMarks_answer bs qs h5 rest cs r.target fun c hc => ht c (by simp [hc])
      simp only [hin, if_true, List.mem_cons, hne, false_or, ih, exists_eq_or_imp]
      constructor
      · exact .inr
      · rintro (h | h)
        · omega
        · exact h
    · simp only [hin, if_false, List.mem_cons, hne, false_or, List.mem_map, List.not_mem_nil, or_false, exists_eq_left]
      constructor
      · rintro ⟨_, _, h⟩; omega
      · intro h; omega

theorem chain_types : ∀ {cs : List Rec} {n : List (List UInt8)}, Chain n cs → ∀ c ∈ cs, c.type = 5
  | [], _, _, c, h => by simp at h
  | r :: cs, n, hc, c, h => by
    rcases List.mem_cons.1 h with rfl | h
    · exact hc.1
    · exact chain_types hc.2.2 c h

/-- Without an answer, all that is believed are aliases. -/
theorem believed_alias (bs qs : List (List UInt8)) (qtype : Nat) (rest : List Rec) :
    ∀ (cs : List Rec) (cur : List (List UInt8)), (∀ c ∈ cs, c.type = 5) →
      (¬ ∃ r ∈ believed bs qs qtype rest cur cs, r.type = qtype) →
      (∀ r ∈ believed bs qs qtype rest cur cs, r.type = 5)
  | [], cur, _, h, r, hr => by
    unfold believed at h hr
    refine absurd ⟨r, hr, ?_⟩ h
    simp only [List.mem_filter, decide_eq_true_eq] at hr
    exact hr.2.1
  | c :: cs, cur, ht, h, r, hr => by
    unfold believed at h hr
    rcases List.mem_cons.1 hr with rfl | hr
    · exact ht _ (by simp)
    · split at hr
      · rename_i hin
        refine believed_alias bs qs qtype rest cs c.target (fun x hx => ht x (by simp [hx])) ?_ r hr
        rintro ⟨x, hx, hq⟩
        exact h ⟨x, by simp [hin, hx], hq⟩
      · simp at hr

/-- What is made of answers that begin with their aliases. -/
theorem dissect_chain {inp query b : DwStr} {p : Answers} (hr : Reply inp p) {qs bs : List (List UInt8)} {qtype : Nat}
    (hq : Asks query qs qtype) (hb : Zone b bs) (h5 : qtype ≠ 5) (h255 : qtype ≠ 255) {cs rest : List Rec}
    (han : p.an = cs ++ rest) (hne : p.an ≠ []) (hch : Chain qs cs) (hrest : ∀ r ∈ rest, r.type ≠ 5) (junk : List UInt8) :
    ∃ look, Views inp p look ∧ dissect inp query b junk =
      match kindLoop qtype 7 32 (chainMarks bs qs qtype rest qs cs) with
        | some k => cacheString ⟨look, chainMarks bs qs qtype rest qs cs, p.ns.map fun _ => 36, p.ar.map fun _ => 36⟩ k junk
        | none => .err := by
  obtain ⟨look, l, hv, -, -, hc, hd⟩ := dissect_answers hr hq hb.usable hne junk
  have X := answerLoop_chain hr.usable hq hb h5 hrest cs [] look.an qs (by rw [← han]; exact hv.an) hch (by simp) (fun _ => rfl)
  have : l = chainMarks bs qs qtype rest qs cs := by
    unfold checkAnswers at hc
    rw [hq.fetch] at hc
    simp only [Res.ok_bind] at hc
    rw [if_neg (by omega)] at hc
    rw [han] at hc
    simp only [List.nil_append, List.length_nil] at X
    erw [X] at hc
    simp only [Res.ok_bind] at hc
    cases hc
    rfl
  rw [this] at hd
  exact ⟨look, hv, hd⟩

/-- The kind of such answers. -/
theorem chain_kind (bs qs : List (List UInt8)) {qtype : Nat} (h5 : qtype ≠ 5) (h255 : qtype ≠ 255) {cs rest : List Rec}
    (hch : Chain qs cs) :
    ((∃ r ∈ believed bs qs qtype rest qs cs, r.type = qtype) → (cs = [] → rest.length ≤ 7) → (cs ++ rest).length ≤ 32 →
      kindLoop qtype 7 32 (chainMarks bs qs qtype rest qs cs) = some 0) ∧
    ((¬ ∃ r ∈ believed bs qs qtype rest qs cs, r.type = qtype) → cs ≠ [] →
      kindLoop qtype 7 32 (chainMarks bs qs qtype rest qs cs) = some 17) ∧
    ((¬ ∃ r ∈ believed bs qs qtype rest qs cs, r.type = qtype) → cs = [] →
      kindLoop qtype 7 32 (chainMarks bs qs qtype rest qs cs) = none) := by
  have hA := chainMarks_answer bs qs h5 rest cs qs (chain_types hch)
  have hle := rrNumber_le qtype
  have hne : rrNumber qtype ≠ 5 := fun h => h5 ((rrNumber_eq (k := 5) (by omega) (by omega)).1 h)
  have hcases := chainMarks_cases bs qs qtype rest cs qs
  have hlen := chainMarks_length bs qs qtype rest cs qs
  refine ⟨fun h h7 h32 => ?_, fun h hc => ?_, fun h hc => ?_⟩
  · rw [← hA] at h
    cases hcs : cs with
    | nil =>
      rw [hcs] at h hlen hcases
      refine kindLoop_some 7 32 _ (fun m hm => ?_) h (by rw [hlen]; exact h7 hcs)
      have : m ∈ rest.map (restMark qs qs qtype) := hm
      obtain ⟨r, -, rfl⟩ := List.mem_map.1 this
      exact restMark_cases ..
    | cons c cs' =>
      rw [hcs] at h hlen hcases
      revert h hlen hcases
      generalize hl : chainMarks bs qs qtype rest qs (c :: cs') = l
      unfold chainMarks at hl
      subst hl
      generalize (if Inside bs c.target then chainMarks bs qs qtype rest c.target cs' else (cs' ++ rest).map fun _ => (36 : Int)) = l
      intro hcases hlen h
      unfold kindLoop
      rw [if_neg (by omega), if_pos rfl]
      have hl : l.length ≤ 31 := by
        rw [hcs] at h32
        simp only [List.length_cons, List.cons_append] at hlen h32
        omega
      rw [List.take_of_length_le (by omega)]
      rw [afterCname_some l (fun m hm => hcases m (by simp [hm])) ?_]
      rcases List.mem_cons.1 h with e | e
      · exact absurd e hne
      · exact e
  · rw [← hA] at h
    cases hcs : cs with
    | nil => exact absurd hcs hc
    | cons c cs' =>
      rw [hcs] at h hlen hcases
      revert h hcases
      generalize hl : chainMarks bs qs qtype rest qs (c :: cs') = l
      unfold chainMarks at hl
      subst hl
      generalize (if Inside bs c.target then chainMarks bs qs qtype rest c.target cs' else (cs' ++ rest).map fun _ => (36 : Int)) = l
      intro hcases h
      unfold kindLoop
      rw [if_neg (by omega), if_pos rfl]
      rw [afterCname_none _ (fun m hm => ?_) h255]
      have hm' : m ∈ (5 : Int) :: l := by simp [List.mem_of_mem_take hm]
      rcases hcases m hm' with e | e | e
      · exact .inl ⟨e, hne⟩
      · exact .inr e
      · rw [e] at hm'; exact absurd hm' h
  · rw [← hA] at h
    subst hc
    refine kindLoop_none h255 7 32 _ fun m hm => ?_
    have hm' : m ∈ rest.map (restMark qs qs qtype) := hm
    obtain ⟨r, -, e⟩ := List.mem_map.1 hm'
    rcases restMark_cases qs qs qtype r with h1 | h1
    · rw [← e, h1]
    · rw [← e, h1] at hm; exact absurd hm h

theorem kept_none (p : Answers) (l : List Int) :
    Answers.kept p l (p.ns.map fun _ => 36) (p.ar.map fun _ => 36) (UInt8.ofNat 0) = ⟨keep p.an l, [], [], 0⟩ := by
  unfold Answers.kept
  rw [keep_none, keep_none]
  rfl

/-- Such answers, if there is one. -/
theorem dissect_found {inp query b : DwStr} {p : Answers} (hr : Reply inp p) {qs bs : List (List UInt8)} {qtype : Nat}
    (hq : Asks query qs qtype) (hb : Zone b bs) (h5 : qtype ≠ 5) (h255 : qtype ≠ 255) {cs rest : List Rec}
    (han : p.an = cs ++ rest) (hch : Chain qs cs) (hrest : ∀ r ∈ rest, r.type ≠ 5) (hk : p.kind ≠ 2)
    (hf : ∃ r ∈ believed bs qs qtype rest qs cs, r.type = qtype) (h7 : cs = [] → rest.length ≤ 7)
    (h32 : p.an.length ≤ 32) (junk : List UInt8) :
    ((∀ r ∈ believed bs qs qtype rest qs cs, inClass r) → ∃ o, dissect inp query b junk = .ok o ∧ Usable o ∧
      o.contents = (⟨believed bs qs qtype rest qs cs, [], [], 0⟩ : Answers).packed.enc) ∧
    ((∃ r ∈ believed bs qs qtype rest qs cs, ¬ inClass r) → dissect inp query b junk = .err) := by
  have hkeep := keep_chain bs qs qtype rest cs qs
  have hne : p.an ≠ [] := by
    intro h
    obtain ⟨r, h1, -⟩ := hf
    rw [← hkeep, ← han, h] at h1
    simp [keep] at h1
  obtain ⟨look, hv, hd⟩ := dissect_chain hr hq hb h5 h255 han hne hch hrest junk
  rw [(chain_kind bs qs h5 h255 hch).1 hf h7 (by rw [← han]; exact h32)] at hd
  simp only at hd
  rw [hd, kind_byte hr hv, if_neg hk]
  simp only [show ¬ (0 : Nat) = 17 by omega, show ¬ (0 : Nat) = 16 by omega, if_false, true_or, if_true]
  have X := remake_exact hr hv (an := chainMarks bs qs qtype rest qs cs) (ns := p.ns.map fun _ => 36) (ar := p.ar.map fun _ => 36)
    (by rw [chainMarks_length, han]) (by simp) (by simp) (UInt8.ofNat 0) junk
  rw [kept_none, han, hkeep] at X
  simpa [Answers.all] using X

theorem chainMarks_alias (bs qs : List (List UInt8)) {qtype : Nat} (h5 : qtype ≠ 5) {rest : List Rec} :
    ∀ (cs : List Rec) (cur : List (List UInt8)), (∀ c ∈ cs, c.type = 5) →
      rrNumber qtype ∉ chainMarks bs qs qtype rest cur cs →
      List.Forall₂ (fun (r : Rec) (m : Int) => m = 36 ∨ (m = 5 ∧ r.type = 5)) (cs ++ rest) (chainMarks bs qs qtype rest cur cs)
  | [], cur, _, h => by
    unfold chainMarks at h ⊢
    rw [List.nil_append, List.forall₂_map_right_iff]
    apply List.forall₂_same.2
    intro r hr
    rcases restMark_cases qs cur qtype r with e | e
    · exact .inl e
    · exact absurd (e ▸ List.mem_map.2 ⟨r, hr, rfl⟩) h
  | c :: cs, cur, ht, h => by
    unfold chainMarks at h ⊢
    refine .cons (.inr ⟨rfl, ht c (by simp)⟩) ?_
    split
    · rename_i hin
      rw [if_pos hin] at h
      exact chainMarks_alias bs qs h5 cs _ (fun x hx => ht x (by simp [hx])) fun hx => h (by simp [hx])
    · change List.Forall₂ _ (cs ++ rest) ((cs ++ rest).map fun _ => (36 : Int))
      rw [List.forall₂_map_right_iff]
      exact List.forall₂_same.2 fun _ _ => .inl rfl

/-- Such answers, if there are only aliases. -/
theorem dissect_aliases {inp query b : DwStr} {p : Answers} (hr : Reply inp p) {qs bs : List (List UInt8)} {qtype : Nat}
    (hq : Asks query qs qtype) (hb : Zone b bs) (h5 : qtype ≠ 5) (h255 : qtype ≠ 255) {cs rest : List Rec}
    (han : p.an = cs ++ rest) (hch : Chain qs cs) (hrest : ∀ r ∈ rest, r.type ≠ 5) (hk : p.kind ≠ 2) (hcs : cs ≠ [])
    (hf : ¬ ∃ r ∈ believed bs qs qtype rest qs cs, r.type = qtype) (junk : List UInt8) :
    (((believed bs qs qtype rest qs cs).flatMap aliasEntry).length + 3 < 257 * p.an.length → ∃ o,
      dissect inp query b junk = .ok o ∧ Usable o ∧ o.contents = aliases (believed bs qs qtype rest qs cs)) ∧
    (257 * p.an.length ≤ ((believed bs qs qtype rest qs cs).flatMap aliasEntry).length + 3 →
      dissect inp query b junk = .err) := by
  have hkeep := keep_chain bs qs qtype rest cs qs
  have hne : p.an ≠ [] := by rw [han]; simp [hcs]
  obtain ⟨look, hv, hd⟩ := dissect_chain hr hq hb h5 h255 han hne hch hrest junk
  rw [(chain_kind bs qs h5 h255 hch).2.1 hf hcs] at hd
  simp only at hd
  rw [hd, kind_byte hr hv, if_neg hk, if_pos rfl]
  have hm : List.Forall₂ (fun r m => m = 36 ∨ (m = 5 ∧ r.type = 5)) p.an (chainMarks bs qs qtype rest qs cs) := by
    rw [han]
    refine chainMarks_alias bs qs h5 cs qs (chain_types hch) ?_
    rw [chainMarks_answer bs qs h5 rest cs qs (chain_types hch)]
    exact hf
  have X := cnameRefer_exact hr hv hne (ns := p.ns.map fun _ => 36) (ar := p.ar.map fun _ => 36) hm junk
  rw [han, hkeep] at X
  rw [han]
  exact X

end Dissect
end Dw
