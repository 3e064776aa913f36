import Verif.Deadwood.IncomingLemmas
/-!
# Lemmas: what is done with a message off the wire
-/

namespace Dw
namespace Incoming
open DwStr Dissect Spec

/-! ### Records that differ only in letter case -/

theorem alike_congr {a a' b b' : List (List UInt8)} (ha : SameName a a') (hb : SameName b b') : Alike a b ↔ Alike a' b' := by
  unfold Alike
  rw [sameName_cost ha]
  unfold SameName at *
  rw [ha, hb]

theorem inside_congr (z : List (List UInt8)) {a a' : List (List UInt8)} (ha : SameName a a') : Inside z a ↔ Inside z a' := by
  unfold Inside Under Below
  unfold SameName at *
  rw [ha]

theorem mayDelegate_congr {z q q' a a' : List (List UInt8)} (ha : SameName a a') (hq : SameName q q') :
    MayDelegate z q a ↔ MayDelegate z q' a' := by
  unfold MayDelegate Under Below
  unfold SameName at *
  rw [ha, hq]

theorem target_same {r r' : Rec} (h : SameRec r r') : SameName r.target r'.target := by
  unfold Rec.target
  have := h.names
  revert this
  cases r.names <;> cases r'.names <;> intro this
  · rfl
  · exact this.elim
  · exact this.elim
  · exact this.1

theorem chain_congr : ∀ {cs cs' : List Rec} {n n' : List (List UInt8)}, SameRecs cs cs' → SameName n n' → Chain n cs →
    Chain n' cs'
  | [], [], _, _, _, _, _ => trivial
  | [], _ :: _, _, _, h, _, _ => h.elim
  | _ :: _, [], _, _, h, _, _ => h.elim
  | r :: cs, r' :: cs', n, n', h, hn, hc =>
    ⟨h.1.type ▸ hc.1, (alike_congr hn h.1.name).1 hc.2.1, chain_congr h.2 (target_same h.1) hc.2.2⟩

theorem sameRecs_filter {f g : Rec → Bool} (hfg : ∀ r r', SameRec r r' → f r = g r') : ∀ {a b : List Rec}, SameRecs a b →
    SameRecs (a.filter f) (b.filter g)
  | [], [], _ => trivial
  | [], _ :: _, h => h.elim
  | _ :: _, [], h => h.elim
  | r :: a, r' :: b, h => by
    have ih := sameRecs_filter hfg h.2
    rw [List.filter_cons, List.filter_cons, hfg r r' h.1]
    split
    · exact ⟨h.1, ih⟩
    · exact ih

theorem believed_congr {z q q' : List (List UInt8)} (hq : SameName q q') (t : Nat) {rest rest' : List Rec}
    (hr : SameRecs rest rest') : ∀ {cs cs' : List Rec} {n n' : List (List UInt8)}, SameRecs cs cs' → SameName n n' →
    SameRecs (believed z q t rest n cs) (believed z q' t rest' n' cs')
  | [], [], n, n', _, hn => by
    unfold believed
    apply sameRecs_filter _ hr
    intro r r' h
    apply decide_eq_decide.2
    rw [h.type, alike_congr hq h.name, alike_congr hn h.name]
  | [], _ :: _, _, _, h, _ => h.elim
  | _ :: _, [], _, _, h, _ => h.elim
  | r :: cs, r' :: cs', n, n', h, hn => by
    unfold believed
    refine ⟨h.1, ?_⟩
    by_cases hi : Inside z r.target
    · rw [if_pos hi, if_pos ((inside_congr z (target_same h.1)).1 hi)]
      exact believed_congr hq t hr h.2 (target_same h.1)
    · rw [if_neg hi, if_neg (fun h' => hi ((inside_congr z (target_same h.1)).2 h'))]
      trivial

theorem sameRecs_forall {P : Rec → Prop} (hP : ∀ r r', SameRec r r' → P r → P r') : ∀ {a b : List Rec}, SameRecs a b →
    (∀ r ∈ a, P r) → ∀ r ∈ b, P r
  | [], [], _, _ => by simp
  | [], _ :: _, h, _ => h.elim
  | _ :: _, [], h, _ => h.elim
  | x :: a, y :: b, h, ha => by
    intro r hr
    rcases List.mem_cons.1 hr with rfl | hr
    · exact hP _ _ h.1 (ha _ (by simp))
    · exact sameRecs_forall hP h.2 (fun r hr => ha r (by simp [hr])) r hr

theorem sameRecs_exists {P : Rec → Prop} (hP : ∀ r r', SameRec r r' → P r → P r') : ∀ {a b : List Rec}, SameRecs a b →
    (∃ r ∈ a, P r) → ∃ r ∈ b, P r
  | [], [], _, h => by simp at h
  | [], _ :: _, h, _ => h.elim
  | _ :: _, [], h, _ => h.elim
  | x :: a, y :: b, h, ha => by
    obtain ⟨r, hr, hp⟩ := ha
    rcases List.mem_cons.1 hr with rfl | hr
    · exact ⟨y, by simp, hP _ _ h.1 hp⟩
    · obtain ⟨s, hs, hp⟩ := sameRecs_exists hP h.2 ⟨r, hr, hp⟩
      exact ⟨s, by simp [hs], hp⟩

theorem sameName_ok {a b : List (List UInt8)} (h : SameName a b) (ha : Spec.NameOk a) : Spec.NameOk b := by
  refine ⟨?_, by rw [← sameName_enc h]; exact ha.2⟩
  intro l hl
  have hm : l.map lower ∈ a.map (·.map lower) := by
    rw [show a.map (·.map lower) = b.map (·.map lower) from h]
    exact List.mem_map.2 ⟨l, hl, rfl⟩
  obtain ⟨k, hk, e⟩ := List.mem_map.1 hm
  have := congrArg List.length e
  rw [List.length_map, List.length_map] at this
  rw [← this]
  exact ha.1 k hk

theorem sameNames_ok : ∀ {a b : List (List (List UInt8))}, SameNames a b → (∀ n ∈ a, Spec.NameOk n) → ∀ n ∈ b, Spec.NameOk n
  | [], [], _, _ => by simp
  | [], _ :: _, h, _ => h.elim
  | _ :: _, [], h, _ => h.elim
  | x :: a, y :: b, h, ha => by
    intro n hn
    rcases List.mem_cons.1 hn with rfl | hn
    · exact sameName_ok h.1 (ha _ (by simp))
    · exact sameNames_ok h.2 (fun n hn => ha n (by simp [hn])) n hn

theorem sameRec_plain {r r' : Rec} (h : SameRec r r') (hp : r.Plain) : r'.Plain :=
  ⟨sameRec_ok h hp.ok, sameName_ok h.name hp.name, sameNames_ok h.names hp.names⟩

theorem addr_rdata {r r' : Rec} (h : SameRec r r') (hp : r.Ok) (ht : r.type = 1 ∨ r.type = 28) : r.rdata = r'.rdata := by
  have hf := hp.form
  have hn : r.names = [] := by
    rcases ht with ht | ht <;> rw [ht] at hf <;> simp [rdLayout] at hf <;> exact hf.2
  have hn' : r'.names = [] := by
    have := h.names
    rw [hn] at this
    cases hr : r'.names with
    | nil => rfl
    | cons a b => rw [hr] at this; exact this.elim
  unfold Rec.rdata
  rw [hn, hn', h.lead, h.tail]

theorem bad_same {filter : Bool} {blocked : List UInt8 → Bool} {r r' : Rec} (h : SameRec r r') (hp : r.Ok) :
    r.toRR.bad filter blocked = r'.toRR.bad filter blocked := by
  unfold RR.bad
  by_cases h1 : r.type = 1
  · have e := addr_rdata h hp (.inl h1)
    simp only [Rec.toRR, ← h.type, e]
  · by_cases h2 : r.type = 28
    · have e := addr_rdata h hp (.inr h2)
      simp only [Rec.toRR, ← h.type, e]
    · have h1' : (r.type == 1) = false := by simpa using h1
      have h2' : (r.type == 28) = false := by simpa using h2
      simp only [Rec.toRR, ← h.type, h1', h2', Bool.false_and]

theorem any_bad_same {filter : Bool} {blocked : List UInt8 → Bool} : ∀ {a b : List Rec}, SameRecs a b → (∀ r ∈ a, r.Ok) →
    (a.any fun r => r.toRR.bad filter blocked) = b.any fun r => r.toRR.bad filter blocked
  | [], [], _, _ => rfl
  | [], _ :: _, h, _ => h.elim
  | _ :: _, [], h, _ => h.elim
  | x :: a, y :: b, h, ha => by
    rw [List.any_cons, List.any_cons, bad_same h.1 (ha x (by simp)), any_bad_same h.2 fun r hr => ha r (by simp [hr])]

theorem packed_length {p : Answers} (hp : ∀ r ∈ p.all, r.Ok) :
    p.packed.enc.length = sizes (p.all.map Rec.toRR) + p.all.length * 4 + 7 := by
  rw [Packed.enc, packed_all]
  simp only [List.length_append, be16_length, List.length_cons, List.length_nil]
  rw [encs_length (fun r hr => by
    obtain ⟨x, hx, rfl⟩ := List.mem_map.1 hr
    exact Rec.toRR_ok (hp x hx)), cells_length, offsets_length]
  simp

theorem recsVia_length {N : Nat → List (List UInt8) → Prop} {m : Mem} {i e : Nat} {rs : List Rec} (h : RecsVia N m i rs e) :
    i + rs.length ≤ e := by
  induction h with
  | nil => simp
  | cons h _ ih =>
    obtain ⟨a, k, -, h2, -, -, h5, -⟩ := h.at_
    have := endsAt_lt h2
    simp only [List.length_cons]
    omega

/-! ### The lifetimes -/

theorem ends_of_walk {P Q : Mem} {plen qlen : Nat} {s : DwStr} (hs : Usable s) (hP : P = s.mem) {n i : Nat} {b b' : Bool} {i' : Nat}
    {ls : List (List UInt8)} (w : Walk P Q plen qlen n b i ls b' i') : b = false → sel P Q b' i' = some 0 → ∀ {e : Nat}, EndsAt P i e →
    ∃ ms c rest, s.contents.drop i = encLabels ms ++ c :: rest ∧ LabelsOk ms ∧ ms.length ≤ n ∧
      ((c = 0 ∧ e = i + (encLabels ms).length + 1) ∨ (192 ≤ c ∧ e = i + (encLabels ms).length + 2)) := by
  subst hP
  have get : ∀ {i : Nat} {x : UInt8}, s.mem i = some x → ∃ rest, s.contents.drop i = x :: rest := by
    intro i x h
    obtain ⟨hi, hx⟩ := List.getElem?_eq_some_iff.1 h
    exact ⟨_, by rw [List.drop_eq_getElem_cons hi, hx]⟩
  have lab : ∀ {i : Nat} {l : List UInt8}, LabelAt s.mem i l → ∀ {x : UInt8}, s.mem i = some x → x ≠ 0 ∧ ¬ 192 ≤ x := by
    intro i l hl x hx
    rw [hl.len] at hx
    cases hx
    have := labelAt_byte hl
    exact ⟨this.2.2, this.1⟩
  induction w with
  | @here b i =>
    intro hb h0 e he
    subst hb
    have h0 : s.mem i = some 0 := h0
    obtain ⟨rest, hd⟩ := get h0
    refine ⟨[], 0, rest, by rw [hd]; rfl, by simp [LabelsOk], by simp, ?_⟩
    cases he with
    | root _ => exact .inl ⟨rfl, rfl⟩
    | pointer h h' => rw [h0] at h; cases h; exact absurd h' (by decide)
    | label hl _ => exact absurd rfl (lab hl h0).1
  | @label n b i l ls b' i' hl _ ih =>
    intro hb h0 e he
    subst hb
    have hl : LabelAt s.mem i l := hl
    have he' : EndsAt s.mem (i + (l.length + 1)) e := by
      cases he with
      | root h => exact absurd rfl (lab hl h).1
      | pointer h h' => exact absurd h' (lab hl h).2
      | @label _ l' _ hl' he =>
        have e1 : l'.length = l.length := by
          have := hl.len.symm.trans hl'.len
          have := congrArg UInt8.toNat (Option.some.inj this)
          have h1 := hl.le
          have h2 := hl'.le
          simp only [UInt8.toNat_ofNat'] at this
          omega
        rwa [e1] at he
    obtain ⟨ms, c, rest, h1, h2, h3, h4⟩ := ih rfl h0 he'
    obtain ⟨h5, h6⟩ := DwStr.LabelAt.drop hs hl
    refine ⟨l :: ms, c, rest, ?_, ?_, by simp; omega, ?_⟩
    · rw [← List.take_append_drop (l.length + 1) (s.contents.drop i), h6, List.drop_drop, h1, encLabels_cons]
      simp
    · intro x hx
      rcases List.mem_cons.1 hx with rfl | hx
      · exact ⟨hl.pos, hl.le⟩
      · exact h2 x hx
    · have : (encLabels (l :: ms)).length = l.length + 1 + (encLabels ms).length := by
        rw [encLabels_cons, List.length_append]; simp
      rw [this]
      rcases h4 with ⟨h4, h7⟩ | ⟨h4, h7⟩
      · exact .inl ⟨h4, by omega⟩
      · exact .inr ⟨h4, by omega⟩
  | @pointer n i x y b₁ i₁ ls b' i' hx h192 hy _ _ _ =>
    intro _ _ e he
    obtain ⟨rest, hd⟩ := get hx
    refine ⟨[], x, rest, by rw [hd]; rfl, by simp [LabelsOk], by simp, ?_⟩
    cases he with
    | root h => rw [hx] at h; cases h; exact absurd h192 (by decide)
    | pointer h h' => exact .inr ⟨h192, rfl⟩
    | label hl _ => exact absurd h192 (lab hl hx).2

theorem nameEnd_of {Q : Mem} {plen qlen : Nat} {s : DwStr} (hs : Usable s) {n i e : Nat} (hn : n < 200)
    {ls : List (List UInt8)} (h : Spec.NameAt s.mem Q plen qlen n false i ls) (he : EndsAt s.mem i e) : NameEnd s.contents i e := by
  obtain ⟨b', i', w, h0⟩ := h
  obtain ⟨ms, c, rest, h1, h2, h3, h4⟩ := ends_of_walk hs rfl w rfl h0 he
  exact ⟨ms, c, rest, h1, h2, by omega, h4⟩

theorem numAt_be16 {c : List UInt8} {i v : Nat} (h : BytesAt (memOf c) i (be16 v)) (hv : v < 65536) : numAt c i 2 = v := by
  have := bytesAt_take h
  rw [be16_length] at this
  unfold numAt
  rw [this]
  simp only [be16, List.foldl_cons, List.foldl_nil, UInt8.toNat_ofNat']
  omega

theorem numAt_be32 {c : List UInt8} {i v : Nat} (h : BytesAt (memOf c) i (be32 v)) (hv : v < 4294967296) : numAt c i 4 = v := by
  have := bytesAt_take h
  have hl : (be32 v).length = 4 := by simp [be32, be16_length]
  rw [hl] at this
  unfold numAt
  rw [this]
  simp only [be32, be16, List.cons_append, List.nil_append, List.foldl_cons, List.foldl_nil, UInt8.toNat_ofNat']
  omega

/-- The records that `dw_get_a_dnsttl` looks at. -/
theorem ttlChain_of {Q : Mem} {plen qlen : Nat} {s : DwStr} (hs : Usable s) {r : Rec} {rest : List Rec} (hr : r.type ≠ 5) :
    ∀ {cs : List Rec} {i e : Nat}, (∀ r ∈ cs, r.type = 5) → (∀ x ∈ cs ++ [r], x.Ok) →
    RecsAt s.mem Q plen qlen i (cs ++ r :: rest) e → TtlChain s.contents i ((cs ++ [r]).map Rec.ttl)
  | [], i, e, _, hok, h => by
    cases h with
    | cons h _ =>
      obtain ⟨n, a, k, hn, h1, h2, h3, -, -, -, -, -⟩ := h.at_
      have ok := hok r (by simp)
      have hty := bytesAt_left (bytesAt_left (bytesAt_left h3))
      have httl := bytesAt_right (bytesAt_left h3)
      rw [List.length_append, be16_length, ok.cls] at httl
      have hle := bytesAt_le httl (by simp [be32, be16])
      have hl : (be32 r.ttl).length = 4 := by simp [be32, be16_length]
      rw [hl] at hle
      have := TtlChain.last (nameEnd_of hs hn h1 h2) (by omega) (by rw [numAt_be16 hty ok.type]; exact hr)
      rwa [numAt_be32 httl ok.ttl] at this
  | c :: cs, i, e, h5, hok, h => by
    cases h with
    | @cons _ e' _ _ _ h hrest =>
      obtain ⟨n, a, k, hn, h1, h2, h3, -, h6, h7, h8, h9⟩ := h.at_
      have ok := hok c (by simp)
      have hty := bytesAt_left (bytesAt_left (bytesAt_left h3))
      have httl := bytesAt_right (bytesAt_left h3)
      rw [List.length_append, be16_length, ok.cls] at httl
      have hle := bytesAt_le httl (by simp [be32, be16])
      have hl : (be32 c.ttl).length = 4 := by simp [be32, be16_length]
      rw [hl] at hle
      have ht5 := h5 c (by simp)
      have hf := ok.form
      rw [ht5] at hf
      simp only [rdLayout, Option.getD_some, Prod.mk.injEq, List.length_eq_zero_iff] at hf
      obtain ⟨f1, f2, f3⟩ := hf
      rw [f3] at h9
      rw [f1] at h7
      cases hnames : c.names with
      | nil => rw [hnames] at f2; simp at f2
      | cons t ts =>
        have hts : ts = [] := by rw [hnames] at f2; simpa using f2
        rw [hnames, hts] at h7
        cases h7 with
        | cons hn' g1 g2 g3 =>
          cases g3 with
          | nil =>
            have he' : e' = k := by simpa using h9
            have hend := nameEnd_of hs hn' g1 g2
            have ih := ttlChain_of hs hr (cs := cs) (i := e') (e := e) (fun r hr => h5 r (by simp [hr]))
              (fun x hx => hok x (by
                rw [List.cons_append]
                exact List.mem_cons_of_mem _ hx)) hrest
            rw [he'] at ih
            have hle2 : k ≤ s.contents.length := by
              have key : ∀ {a b : Nat}, NameEnd s.contents a b → a ≤ s.contents.length := by
                rintro a b ⟨ms, x, tl, d, -⟩
                have := congrArg List.length d
                simp only [List.length_drop, List.length_append, List.length_cons] at this
                omega
              generalize (cs ++ [r]).map Rec.ttl = ts at ih
              cases ih with
              | last h => exact key h
              | «alias» h => exact key h
            have := TtlChain.alias (nameEnd_of hs hn h1 h2) (by omega) (by rw [numAt_be16 hty ok.type]; exact ht5) hend hle2 ih
            rwa [numAt_be32 httl ok.ttl] at this

end Incoming
end Dw
