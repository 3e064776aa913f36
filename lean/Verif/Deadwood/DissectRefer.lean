import Verif.Deadwood.DissectKeep
/-!
# Referrals: lemmas
-/

namespace Dw
namespace Dissect

open DwStr Spec

/-! ### The question and the zone as strings -/

/-- The string `query` asks for the name `qs` and the type `qtype`. -/
structure Asks (query : DwStr) (qs : List (List UInt8)) (qtype : Nat) : Prop where
  usable : Usable query
  name : Spec.NameOk qs
  type : qtype < 65536
  contents : query.contents = encName qs ++ be16 qtype

theorem Asks.plain {query : DwStr} {qs : List (List UInt8)} {qtype : Nat} (h : Asks query qs qtype) :
    PlainAt query.mem 0 qs := by
  apply PlainAt.of_encName h.name.1
  have := bytesAt_mid (s := query) (pre := []) (l := encName qs) (post := be16 qtype) (by rw [h.contents]; simp)
  exact this

theorem Asks.len {query : DwStr} {qs : List (List UInt8)} {qtype : Nat} (h : Asks query qs qtype) :
    2 < query.len := by
  rw [← h.usable.clen, h.contents]
  simp [encName, be16_length]

theorem Asks.fetch {query : DwStr} {qs : List (List UInt8)} {qtype : Nat} (h : Asks query qs qtype) :
    query.fetchU16 (-1) = .ok qtype := by
  have hl : query.contents.length = (encName qs).length + 2 := by rw [h.contents]; simp [be16_length]
  have hb := bytesAt_mid (s := query) (pre := encName qs) (l := be16 qtype) (post := []) (by rw [h.contents]; simp)
  have h1 := fetchU16_in h.usable (encName qs).length (by omega)
  have h2 := fetchU16_at h.usable hb h.type
  rw [h1.1] at h2
  have := h1.2
  rw [h2] at this
  rw [← this]
  congr 1
  omega

/-- The string `b` is the name of the zone `bs`. -/
structure Zone (b : DwStr) (bs : List (List UInt8)) : Prop where
  usable : Usable b
  name : Spec.NameOk bs
  contents : b.contents = encName bs

theorem Zone.plain {b : DwStr} {bs : List (List UInt8)} (h : Zone b bs) : PlainAt b.mem 0 bs := by
  apply PlainAt.of_encName h.name.1
  have := bytesAt_mid (s := b) (pre := []) (l := encName bs) (post := []) (by rw [h.contents]; simp)
  exact this

theorem nameStr_zone {bs : List (List UInt8)} (h : Spec.NameOk bs) (junk : List UInt8) :
    Zone (nameStr (encName bs) junk) bs := by
  have := h.2
  refine ⟨⟨?_, ?_, ?_⟩, h, ?_⟩
  · show ((encName bs ++ junk ++ List.replicate 262 0).take 262).length = 260 + 2
    rw [List.length_take, List.length_append, List.length_append, List.length_replicate]; omega
  · simp only [nameStr]; omega
  · show 260 < 134217728; omega
  · show ((encName bs ++ junk ++ List.replicate 262 0).take 262).take (encName bs).length = _
    rw [List.append_assoc, List.take_take, Nat.min_eq_left (by omega), List.take_left]

theorem below_cost {a b : List (List UInt8)} (h : Below a b) : cost b ≤ cost a := by
  have key : ∀ l : List (List UInt8), cost l = ((l.map (·.map lower)).map fun x => x.length + 2).sum := by
    intro l; simp [cost, Function.comp_def]
  rw [key, key]
  obtain ⟨k, hk⟩ := h
  rw [← hk]
  simp

/-- The bailiwick check of authority records. -/
def Fit (bs qs : List (List UInt8)) (r : Rec) : Prop := MayDelegate bs qs r.name ∧ cost r.name < 260

instance (bs qs : List (List UInt8)) (r : Rec) : Decidable (Fit bs qs r) := inferInstanceAs (Decidable (_ ∧ _))

theorem inBailiwick_fit {s query b : DwStr} (hs : Usable s) {qs bs : List (List UInt8)} {qtype : Nat}
    (hq : Asks query qs qtype) (hb : Zone b bs) {c : Nat × Nat} {r : Rec} (h : Here s c r) :
    inBailiwick s c.1 b (some query) = .ok (decide (Fit bs qs r)) := by
  rw [inBailiwick_some hs hq.usable hb.usable hb.plain hq.plain h.nameAt hq.len
    (by have := nameOk_length hq.name; omega) (by have := nameOk_length h.plain.name; omega)]
  congr 1
  apply decide_eq_decide.2
  constructor
  · rintro ⟨⟨h1, h2⟩, h3, -⟩; exact ⟨⟨h3, h1⟩, h2⟩
  · rintro ⟨⟨h1, h2⟩, h3⟩
    exact ⟨⟨h2, h3⟩, h1, by have := below_cost h1.1; omega⟩

/-! ### Marks of authority records -/

/-- The first `n` records, and the others. -/
def tag : Nat → List Rec → List (Rec × Bool)
  | 0, rs => rs.map fun r => (r, false)
  | _ + 1, [] => []
  | n + 1, r :: rs => (r, true) :: tag n rs

theorem tag_fst : ∀ (n : Nat) (rs : List Rec), (tag n rs).map Prod.fst = rs
  | 0, rs => by simp [tag, Function.comp_def]
  | _ + 1, [] => rfl
  | n + 1, r :: rs => by simp [tag, tag_fst n rs]

theorem tag_near : ∀ (n : Nat) (rs : List Rec), ((tag n rs).filter (·.2)).map Prod.fst = rs.take n
  | 0, rs => by simp [tag]
  | _ + 1, [] => by simp [tag]
  | n + 1, r :: rs => by simp [tag, tag_near n rs]

theorem tag_far : ∀ (n : Nat) (rs : List Rec), ((tag n rs).filter (!·.2)).map Prod.fst = rs.drop n
  | 0, rs => by
    unfold tag
    rw [List.filter_eq_self.2 (by simp)]
    simp [Function.comp_def]
  | _ + 1, [] => by simp [tag]
  | n + 1, r :: rs => by simp [tag, tag_far n rs]

/-- The mark of an authority record after the first clean-up. -/
def clean (r : Rec) : Int := if r.type = 2 then 2 else if r.type = 6 then 6 else 36

theorem rrNumber_eq {t k : Nat} (hk : 1 ≤ k) (hk' : k < 30) : rrNumber (t : Int) = (k : Int) ↔ t = k := by
  unfold rrNumber
  split
  · omega
  · split <;> omega

theorem clean_eq (r : Rec) :
    (if rrNumber (r.type : Int) ≠ 2 ∧ rrNumber (r.type : Int) ≠ 6 then (36 : Int) else rrNumber r.type) = clean r := by
  have h2 := rrNumber_eq (t := r.type) (k := 2) (by omega) (by omega)
  have h6 := rrNumber_eq (t := r.type) (k := 6) (by omega) (by omega)
  unfold clean
  by_cases e2 : r.type = 2
  · have := h2.2 e2
    rw [if_pos e2]
    rw [show rrNumber (r.type : Int) = 2 from this]; rfl
  · by_cases e6 : r.type = 6
    · have := h6.2 e6
      rw [if_neg e2, if_pos e6]
      rw [show rrNumber (r.type : Int) = 6 from this]; rfl
    · have n2 := mt h2.1 e2
      have n6 := mt h6.1 e6
      rw [if_neg e2, if_neg e6, if_pos ⟨by simpa using n2, by simpa using n6⟩]

/-- The mark after the bailiwick check. -/
def bailMark (bs qs : List (List UInt8)) (x : Rec × Bool) : Int :=
  if x.2 = true ∧ ¬ Fit bs qs x.1 then 37 else clean x.1

theorem bailiwickLoop_exact {s query b : DwStr} (hs : Usable s) {qs bs : List (List UInt8)} {qtype : Nat}
    (hq : Asks query qs qtype) (hb : Zone b bs) : ∀ (n : Nat) {cells : List (Nat × Nat)} {rs : List Rec},
    Sec s cells rs → bailiwickLoop s query b n (cells.zip (rs.map clean)) = .ok ((tag n rs).map (bailMark bs qs))
  | 0, cells, rs, h => by
    unfold bailiwickLoop tag
    congr 1
    rw [← List.unzip_snd, List.unzip_zip (by simp [sec_length h])]
    simp [bailMark, Function.comp_def]
  | n + 1, _, _, .nil => rfl
  | n + 1, _, r :: rs, .cons h hs' => by
    simp only [List.map_cons, List.zip_cons_cons, bailiwickLoop]
    rw [inBailiwick_fit hs hq hb h, bailiwickLoop_exact hs hq hb n hs']
    simp only [Res.ok_bind, tag, List.map_cons, bailMark, true_and]
    by_cases hf : Fit bs qs r
    · simp [hf]
    · simp [hf]

/-! ### Links between authority and additional records -/

/-- Some additional record has the address of `t`. -/
def Glued (ar : List Rec) (t : List (List UInt8)) : Prop := ∃ r ∈ ar, r.isAddr = true ∧ Alike t r.name

instance (ar : List Rec) (t : List (List UInt8)) : Decidable (Glued ar t) :=
  inferInstanceAs (Decidable (∃ r ∈ ar, _))

/-- The mark of an additional record that has (or not) been found to be an address of a server in `T`. -/
structure ArMark (T : List (List (List UInt8))) (r : Rec) (m : Int) : Prop where
  other : r.isAddr = false → m = 36
  a : r.type = 1 → (∃ t ∈ T, Alike t r.name) → 80 ≤ m ∧ m ≤ 95
  a' : r.type = 1 → (¬ ∃ t ∈ T, Alike t r.name) → m = 1
  aaaa : r.type = 28 → (∃ t ∈ T, Alike t r.name) → 64 ≤ m ∧ m ≤ 79
  aaaa' : r.type = 28 → (¬ ∃ t ∈ T, Alike t r.name) → m = 28

theorem isAddr_iff (r : Rec) : r.isAddr = true ↔ r.type = 1 ∨ r.type = 28 := by simp [Rec.isAddr]

theorem isAddr_false {r : Rec} : r.isAddr = false ↔ r.type ≠ 1 ∧ r.type ≠ 28 := by simp [Rec.isAddr]

theorem or_cases {m : Int} (h : m = 32 ∨ m = 33 ∨ m = 34 ∨ m = 35) :
    (((m.toNat ||| 33 : Nat) : Int) = 33 ∨ ((m.toNat ||| 33 : Nat) : Int) = 35) ∧
    (((m.toNat ||| 34 : Nat) : Int) = 34 ∨ ((m.toNat ||| 34 : Nat) : Int) = 35) := by
  rcases h with rfl | rfl | rfl | rfl <;> decide

theorem ArMark.keep {T : List (List (List UInt8))} {t : List (List UInt8)} {r : Rec} {m : Int} (h : ArMark T r m)
    (hn : ¬ Alike t r.name) : ArMark (t :: T) r m := by
  have e : (∃ x ∈ t :: T, Alike x r.name) ↔ ∃ x ∈ T, Alike x r.name := by simp [hn]
  exact ⟨h.other, fun a b => h.a a (e.1 b), fun a b => h.a' a (mt e.2 b), fun a b => h.aaaa a (e.1 b),
    fun a b => h.aaaa' a (mt e.2 b)⟩

theorem link_mark {T : List (List (List UInt8))} {t : List (List UInt8)} {r : Rec} {m nm : Int} (h : ArMark T r m)
    (ha : Alike t r.name) {i : Nat} (hi : i < 15) (hn : nm = 32 ∨ nm = 33 ∨ nm = 34 ∨ nm = 35) :
    ArMark (t :: T) r (link i nm m).2 ∧
    ((link i nm m).1 = 32 ∨ (link i nm m).1 = 33 ∨ (link i nm m).1 = 34 ∨ (link i nm m).1 = 35) ∧
    ((link i nm m).1 = 32 ↔ nm = 32 ∧ r.isAddr = false) := by
  have hex : ∃ x ∈ t :: T, Alike x r.name := ⟨t, by simp, ha⟩
  obtain ⟨o1, o2⟩ := or_cases hn
  by_cases h1 : r.type = 1
  · have haddr : r.isAddr = true := (isAddr_iff r).2 (.inl h1)
    have hm : m = 1 ∨ (80 ≤ m ∧ m ≤ 95) := by
      by_cases he : ∃ t ∈ T, Alike t r.name
      · exact .inr (h.a h1 he)
      · exact .inl (h.a' h1 he)
    have e1 : (link i nm m).1 = ((nm.toNat ||| 33 : Nat) : Int) := by
      simp only [link]; rw [if_pos hm]
    refine ⟨⟨fun c => absurd haddr (by simp [c]), fun _ _ => ?_, fun _ c => absurd hex c, fun c => by omega, fun c => by omega⟩, ?_, ?_⟩
    · simp only [link]
      split
      · omega
      · split
        · omega
        · rcases hm with hm | hm
          · omega
          · exact hm
    · rw [e1]; omega
    · rw [e1]
      constructor
      · intro c; omega
      · rintro ⟨-, c⟩; simp [haddr] at c
  · by_cases h28 : r.type = 28
    · have haddr : r.isAddr = true := (isAddr_iff r).2 (.inr h28)
      have hm : m = 28 ∨ (64 ≤ m ∧ m ≤ 79) := by
        by_cases he : ∃ t ∈ T, Alike t r.name
        · exact .inr (h.aaaa h28 he)
        · exact .inl (h.aaaa' h28 he)
      have e1 : (link i nm m).1 = ((nm.toNat ||| 34 : Nat) : Int) := by
        simp only [link]; rw [if_neg (by omega), if_pos hm]
      refine ⟨⟨fun c => absurd haddr (by simp [c]), fun c => absurd c h1, fun c => absurd c h1, fun _ _ => ?_,
        fun _ c => absurd hex c⟩, ?_, ?_⟩
      · simp only [link]
        rw [if_neg (by omega)]
        split
        · omega
        · rcases hm with hm | hm
          · omega
          · exact hm
      · rw [e1]; omega
      · rw [e1]
        constructor
        · intro c; omega
        · rintro ⟨-, c⟩; simp [haddr] at c
    · have hno : r.isAddr = false := isAddr_false.2 ⟨h1, h28⟩
      have hm := h.other hno
      have e : link i nm m = (nm, m) := by
        rw [hm]
        simp only [link]
        rw [if_neg (by omega), if_neg (by omega), if_neg (by omega), if_neg (by omega)]
      rw [e]
      refine ⟨⟨fun _ => hm, fun c => absurd c h1, fun c => absurd c h1, fun c => absurd c h28, fun c => absurd c h28⟩, hn, ?_⟩
      simp [hno]

theorem linkOne_exact {s : DwStr} (hs : Usable s) {o : Nat} {t : List (List UInt8)} (ht : PlainAt s.mem o t)
    {T : List (List (List UInt8))} {i : Nat} (hi : i < 15) : ∀ {cells : List (Nat × Nat)} {rs : List Rec},
    Sec s cells rs → ∀ {ms : List Int}, List.Forall₂ (ArMark T) rs ms → ∀ {nm : Int},
    (nm = 32 ∨ nm = 33 ∨ nm = 34 ∨ nm = 35) →
    ∃ nm' ms', linkOne s i o (cells.zip ms) nm = .ok (nm', ms') ∧ List.Forall₂ (ArMark (t :: T)) rs ms' ∧
      (nm' = 32 ∨ nm' = 33 ∨ nm' = 34 ∨ nm' = 35) ∧ (nm' = 32 ↔ nm = 32 ∧ ¬ Glued rs t)
  | _, _, .nil, _, .nil, nm, hn => ⟨nm, [], rfl, .nil, hn, by simp [Glued]⟩
  | _, _, .cons (b := r) (l₂ := rs) h hsec, _, .cons (b := m) (l₂ := ms) hm hms, nm, hn => by
    simp only [List.zip_cons_cons, linkOne]
    rw [isSame_exact hs hs ht h.nameAt]
    simp only [Res.ok_bind]
    have hg : Glued (r :: rs) t ↔ (r.isAddr = true ∧ Alike t r.name) ∨ Glued rs t := by simp [Glued]
    by_cases ha : Alike t r.name
    · obtain ⟨k1, k2, k3⟩ := link_mark hm ha hi hn
      obtain ⟨nm', ms', e1, e2, e3, e4⟩ := linkOne_exact hs ht (T := T) hi hsec hms k2
      refine ⟨nm', (link i nm m).2 :: ms', ?_, .cons k1 e2, e3, ?_⟩
      · rw [decide_eq_true (show SameName t r.name ∧ cost t < 260 from ha)]
        simp only [if_true]
        rw [e1]; rfl
      · rw [e4, k3, hg, and_assoc]
        simp [ha]
    · obtain ⟨nm', ms', e1, e2, e3, e4⟩ := linkOne_exact hs ht (T := T) hi hsec hms hn
      refine ⟨nm', m :: ms', ?_, .cons (hm.keep ha) e2, e3, ?_⟩
      · rw [decide_eq_false (show ¬ (SameName t r.name ∧ cost t < 260) from ha)]
        simp only [Bool.false_eq_true, if_false]
        rw [e1]; rfl
      · rw [e4, hg]
        simp [ha]

/-- The authority records that are followed: NS records among the first fifteen, in bailiwick. -/
def Followed (bs qs : List (List UInt8)) (x : Rec × Bool) : Prop := x.2 = true ∧ Fit bs qs x.1 ∧ x.1.type = 2

instance (bs qs : List (List UInt8)) (x : Rec × Bool) : Decidable (Followed bs qs x) :=
  inferInstanceAs (Decidable (_ ∧ _))

/-- The last mark of an authority record. -/
structure NsMark (bs qs : List (List UInt8)) (ar : List Rec) (x : Rec × Bool) (m : Int) : Prop where
  bare : m = 32 ↔ Followed bs qs x ∧ ¬ Glued ar x.1.target
  out : (m = 36 ∨ m = 37) ↔ ¬ ((x.1.type = 2 ∨ x.1.type = 6) ∧ (x.2 = true → Fit bs qs x.1))

theorem bailMark_two (bs qs : List (List UInt8)) (r : Rec) : bailMark bs qs (r, true) = 2 ↔ Followed bs qs (r, true) := by
  unfold bailMark clean Followed
  by_cases hf : Fit bs qs r
  · simp only [hf, not_true, and_false, if_false, true_and]
    by_cases h2 : r.type = 2
    · simp [h2]
    · rw [if_neg h2]
      constructor
      · intro h; split at h <;> omega
      · intro h; exact absurd h h2
  · simp [hf]

theorem bailMark_final (bs qs : List (List UInt8)) (ar : List Rec) (x : Rec × Bool) (h : ¬ Followed bs qs x) :
    NsMark bs qs ar x (bailMark bs qs x) := by
  unfold bailMark clean
  obtain ⟨r, near⟩ := x
  unfold Followed at h
  simp only at h ⊢
  by_cases h2 : r.type = 2
  · by_cases hf : near = true ∧ ¬ Fit bs qs r
    · rw [if_pos hf]
      exact ⟨by simp [Followed, hf.2], by simp [hf.1, hf.2]⟩
    · rw [if_neg hf, if_pos h2]
      have : near = false := by
        cases near
        · rfl
        · simp only [true_and, not_not] at hf
          exact absurd ⟨rfl, hf, h2⟩ h
      subst this
      exact ⟨by simp [Followed], by simp [h2]⟩
  · by_cases hf : near = true ∧ ¬ Fit bs qs r
    · rw [if_pos hf]
      exact ⟨by simp [Followed, h2], by simp [hf.1, hf.2]⟩
    · rw [if_neg hf, if_neg h2]
      have hf' : near = true → Fit bs qs r := by
        intro hn; by_contra hc; exact hf ⟨hn, hc⟩
      by_cases h6 : r.type = 6
      · rw [if_pos h6]
        exact ⟨by simp [Followed, h2], by simpa [h6] using hf'⟩
      · rw [if_neg h6]
        exact ⟨by simp [Followed, h2], by simp [h2, h6]⟩

theorem linkLoop_exact {s : DwStr} (hs : Usable s) {bs qs : List (List UInt8)} {arCells : List (Nat × Nat)}
    {ar : List Rec} (har : Sec s arCells ar) :
    ∀ (n i : Nat) {cells : List (Nat × Nat)} {rs : List Rec}, i + n ≤ 15 → Sec s cells rs →
    ∀ {T : List (List (List UInt8))} {am : List Int}, List.Forall₂ (ArMark T) ar am →
    ∃ nsM arM T', linkLoop s arCells n i (cells.zip ((tag n rs).map (bailMark bs qs))) am = .ok (nsM, arM) ∧
      List.Forall₂ (NsMark bs qs ar) (tag n rs) nsM ∧ List.Forall₂ (ArMark T') ar arM ∧
      ∀ t, t ∈ T' ↔ t ∈ T ∨ ∃ x ∈ tag n rs, Followed bs qs x ∧ t = x.1.target
  | 0, i, cells, rs, _, h, T, am, ham => by
    refine ⟨(tag 0 rs).map (bailMark bs qs), am, T, ?_, ?_, ham, ?_⟩
    · unfold linkLoop
      rw [← List.unzip_snd, List.unzip_zip (by simp [sec_length h, tag])]
    · rw [List.forall₂_map_right_iff]
      apply List.forall₂_same.2
      intro x hx
      apply bailMark_final
      simp only [tag, List.mem_map] at hx
      obtain ⟨r, -, rfl⟩ := hx
      simp [Followed]
    · intro t
      simp [tag, Followed]
  | n + 1, i, _, _, _, .nil, T, am, ham => by
    refine ⟨[], am, T, by simp [linkLoop, tag], .nil, ham, ?_⟩
    simp [tag]
  | n + 1, i, c :: cells, r :: rs, hn, .cons h hsec, T, am, ham => by
    simp only [tag, List.map_cons, List.zip_cons_cons, linkLoop]
    by_cases hf : Followed bs qs (r, true)
    · rw [if_pos ((bailMark_two bs qs r).2 hf)]
      obtain ⟨nm, am', e1, e2, e3, e4⟩ := linkOne_exact hs (h.targetAt (.inl hf.2.2)) (T := T) (i := i) (by omega) har ham
        (nm := 32) (.inl rfl)
      obtain ⟨nsM, arM, T', f1, f2, f3, f4⟩ := linkLoop_exact hs har n (i + 1) (by omega) hsec e2
      refine ⟨nm :: nsM, arM, T', ?_, .cons ⟨?_, ?_⟩ f2, f3, ?_⟩
      · rw [e1]
        simp only [Res.ok_bind]
        rw [f1]; rfl
      · rw [e4]; simp [hf]
      · have h2 := hf.2.2
        have h3 := hf.2.1
        simp only at h2 h3
        simp only [h2, h3, true_or, implies_true, and_self, not_true, iff_false]
        omega
      · intro t
        rw [f4]
        simp only [List.mem_cons, exists_eq_or_imp]
        simp only [hf, true_and]
        tauto
    · rw [if_neg (mt (bailMark_two bs qs r).1 hf)]
      simp only [Res.ok_bind]
      obtain ⟨nsM, arM, T', f1, f2, f3, f4⟩ := linkLoop_exact hs har n (i + 1) (by omega) hsec ham
      refine ⟨bailMark bs qs (r, true) :: nsM, arM, T', ?_, .cons (bailMark_final bs qs ar _ hf) f2, f3, ?_⟩
      · rw [f1]; rfl
      · intro t
        rw [f4]
        simp only [List.mem_cons, exists_eq_or_imp]
        simp only [hf, false_and, false_or]

/-! ### The text of a referral -/

theorem place_length : ∀ (es : List (List UInt8)) (n : Nat), (place n es).length = es.length
  | [], _ => rfl
  | e :: es, n => by simp [place, place_length es]

theorem place_append : ∀ (es fs : List (List UInt8)) (n : Nat),
    place n (es ++ fs) = place n es ++ place (n + es.flatten.length) fs
  | [], fs, n => by simp [place]
  | e :: es, fs, n => by simp [place, place_append es, Nat.add_assoc]

/-- The address records that belong to one of the names in `T`. -/
def glueOf (T : List (List (List UInt8))) (ar : List Rec) : List Rec :=
  ar.filter fun r => r.isAddr && decide (∃ t ∈ T, Alike t r.name)

theorem ArMark.glue {T : List (List (List UInt8))} {r : Rec} {m : Int} (h : ArMark T r m) :
    (isGlue m ↔ (r.isAddr && decide (∃ t ∈ T, Alike t r.name)) = true) ∧
    (80 ≤ m ∧ m ≤ 95 → r.type = 1) ∧ (64 ≤ m ∧ m ≤ 79 → r.type = 28) := by
  unfold isGlue
  by_cases h1 : r.type = 1
  · have haddr : r.isAddr = true := (isAddr_iff r).2 (.inl h1)
    by_cases he : ∃ t ∈ T, Alike t r.name
    · have := h.a h1 he
      refine ⟨?_, fun _ => h1, fun _ => by omega⟩
      simp only [haddr, he, decide_true, Bool.and_self, iff_true]
      exact .inl this
    · have := h.a' h1 he
      refine ⟨?_, fun _ => h1, fun _ => by omega⟩
      simp only [haddr, he, decide_false, Bool.and_false, Bool.false_eq_true, iff_false]
      omega
  · by_cases h28 : r.type = 28
    · have haddr : r.isAddr = true := (isAddr_iff r).2 (.inr h28)
      by_cases he : ∃ t ∈ T, Alike t r.name
      · have := h.aaaa h28 he
        refine ⟨?_, fun _ => by omega, fun _ => h28⟩
        simp only [haddr, he, decide_true, Bool.and_self, iff_true]
        exact .inr this
      · have := h.aaaa' h28 he
        refine ⟨?_, fun _ => by omega, fun _ => h28⟩
        simp only [haddr, he, decide_false, Bool.and_false, Bool.false_eq_true, iff_false]
        omega
    · have hno : r.isAddr = false := isAddr_false.2 ⟨h1, h28⟩
      have := h.other hno
      refine ⟨?_, fun _ => by omega, fun _ => by omega⟩
      simp only [hno, Bool.false_and, Bool.false_eq_true, iff_false]
      omega

/-- Addresses of the right length. -/
def AddrOk (r : Rec) : Prop := (r.type = 1 → r.rdata.length = 4) ∧ (r.type = 28 → r.rdata.length = 16)

theorem nsGlue_exact {s : DwStr} (hs : Usable s) {c : Nat × Nat} {r : Rec} (h : Here s c r)
    {T : List (List (List UInt8))} {m : Int} (hm : ArMark T r m) (hg : isGlue m) (ha : AddrOk r) (junk : List UInt8) :
    ∃ t, nsGlue s (c.2 + 10) m junk = .ok t ∧ Usable t ∧ t.contents = glueEntry r := by
  have hd := h.data
  obtain ⟨-, g1, g28⟩ := hm.glue
  have main : ∀ (n : Nat) (ty : UInt8), r.rdata.length = n → n = 4 ∨ n = 16 → UInt8.ofNat r.type = ty →
      ∃ t, (do
        let out ← create (n + 2) junk
        let out ← addchar ty out
        s.substrAppend (c.2 + 10 : Nat) n out junk : Res DwStr) = .ok t ∧ Usable t ∧ t.contents = glueEntry r := by
    intro n ty hn hn2 hty
    have hb := at_bound hs hd (by omega)
    obtain ⟨o0, a1, a2, a3, a4⟩ := create_usable (n + 2) junk (by omega) (by omega)
    rw [a1]
    simp only [Res.ok_bind]
    obtain ⟨o1, b1, b2, b3, b4⟩ := (addchar_exact ty a2).2 (by rw [a3, a4]; simp)
    rw [b1]
    simp only [Res.ok_bind]
    obtain ⟨o2, d1, d2, d3, d4⟩ := substrAppend_exact hs b2 (c.2 + 10) n junk (by omega) (by omega)
      (by rw [b4, b3, a4, a3]; simp; omega)
    refine ⟨o2, d1, d2, ?_⟩
    rw [d4, b4, a3, ← hn, bytes_of_at hs hd]
    simp [glueEntry, hty]
  unfold nsGlue
  rcases hg with hg | hg
  · have ht := g1 hg
    rw [if_pos hg]
    exact main 4 1 (ha.1 ht) (.inl rfl) (by rw [ht]; rfl)
  · have ht := g28 hg
    rw [if_neg (by omega), if_pos hg]
    exact main 16 28 (ha.2 ht) (.inr rfl) (by rw [ht]; rfl)

theorem gluedLoop_exact {s : DwStr} (hs : Usable s) (junk : List UInt8) {T : List (List (List UInt8))} :
    ∀ {cells : List (Nat × Nat)} {rs : List Rec}, Sec s cells rs → ∀ {ms : List Int}, List.Forall₂ (ArMark T) rs ms →
    (∀ r ∈ glueOf T rs, AddrOk r) → ∀ (out : DwStr) (offs : List Nat), Usable out → offs.length ≤ 31 →
    out.contents.length + ((glueOf T rs).map glueEntry).flatten.length < out.max →
    (offs.length + (glueOf T rs).length ≤ 31 →
      out.contents.length + ((glueOf T rs).map glueEntry).flatten.length < 65536) →
    (offs.length + (glueOf T rs).length ≤ 31 → ∃ out', gluedLoop s junk (cells.zip ms) out offs =
        .ok (out', offs ++ place out.contents.length ((glueOf T rs).map glueEntry)) ∧ Usable out' ∧ out'.max = out.max ∧
        out'.contents = out.contents ++ ((glueOf T rs).map glueEntry).flatten) ∧
    (31 < offs.length + (glueOf T rs).length → gluedLoop s junk (cells.zip ms) out offs = .err)
  | _, _, .nil, _, .nil, _, out, offs, ho, h31, _, _ => by
    constructor
    · intro _; exact ⟨out, by simp [gluedLoop, glueOf, place], ho, rfl, by simp [glueOf]⟩
    · intro h; simp [glueOf] at h; omega
  | _, _, .cons (b := r) (l₂ := rs) h hsec, _, .cons (b := m) (l₂ := ms) hm hms, ha, out, offs, ho, h31, hfit, h64 => by
    simp only [List.zip_cons_cons, gluedLoop]
    have ih := gluedLoop_exact hs junk hsec hms (fun x hx => ha x (by
      unfold glueOf at hx ⊢; rw [List.filter_cons]; split
      · exact List.mem_cons_of_mem _ hx
      · exact hx))
    by_cases hg : isGlue m
    · have e : glueOf T (r :: rs) = r :: glueOf T rs := by
        unfold glueOf; rw [List.filter_cons, if_pos (hm.glue.1.1 hg)]
      rw [e] at hfit h64 ha ⊢
      simp only [List.map_cons, List.flatten_cons, List.length_append, List.length_cons] at hfit h64 ⊢
      rw [if_pos hg, if_neg (by omega)]
      obtain ⟨t, a1, a2, a3⟩ := nsGlue_exact hs h hm hg (ha r (by simp)) junk
      rw [a1]
      simp only [Res.ok_bind]
      obtain ⟨o', b1, b2, b3, b4⟩ := (append_exact a2 ho).2 (by rw [a3]; omega)
      rw [b1]
      simp only [Res.ok_bind, List.length_nil, Nat.zero_add]
      by_cases h32 : offs.length + 1 > 31
      · rw [if_pos h32]
        constructor
        · intro c; omega
        · intro _; rfl
      · rw [if_neg h32]
        have hl : o'.contents.length = out.contents.length + (glueEntry r).length := by rw [b4, a3]; simp
        have ih := ih o' (offs ++ [out.len % 65536]) b2 (by simp; omega) (by rw [hl, b3]; omega)
          (by intro c; rw [hl]; simp only [List.length_append, List.length_singleton] at c; have := h64 (by omega); omega)
        simp only [List.length_append, List.length_singleton] at ih
        constructor
        · intro c
          obtain ⟨out', f1, f2, f3, f4⟩ := ih.1 (by omega)
          have := h64 c
          have hcl := ho.clen
          refine ⟨out', ?_, f2, by rw [f3, b3], ?_⟩
          · rw [f1, hl]
            simp only [place, List.append_assoc, List.singleton_append]
            rw [show out.len % 65536 = out.contents.length by omega]
          · rw [f4, b4, a3]; simp
        · intro c; exact ih.2 (by omega)
    · have e : glueOf T (r :: rs) = glueOf T rs := by
        unfold glueOf; rw [List.filter_cons, if_neg (mt hm.glue.1.2 hg)]
      rw [e] at hfit h64 ⊢
      rw [if_neg hg]
      exact ih out offs ho h31 hfit h64

theorem nsGlueless_exact {s : DwStr} (hs : Usable s) {c : Nat × Nat} {r : Rec} (h : Here s c r) (ht : r.type = 2)
    (junk : List UInt8) :
    ∃ t, nsGlueless s (c.2 + 8) junk = .ok t ∧ Usable t ∧ t.contents = nameEntry r := by
  obtain ⟨-, h2, h3⟩ := oneName_form h.plain (.inl ht)
  have hn := h3.2
  have hd := h.data
  rw [h2] at hd
  have hf := fetchU16_at hs h.len h.plain.ok.size
  obtain ⟨t, a1, a2, a3⟩ := oneName_exact hs h3 hd junk
  have hl := a2.clen
  rw [a3] at hl
  unfold nsGlueless fetchI
  rw [hf]
  simp only [Res.ok_bind]
  rw [show c.2 + 8 + 2 = c.2 + 10 by omega, a1]
  simp only [Res.ok_bind]
  rw [if_neg (by rw [h2]; simp only [ne_eq, not_not]; omega)]
  obtain ⟨o0, b1, b2, b3, b4⟩ := create_usable (t.len + 5) junk (by omega) (by omega)
  rw [b1]
  simp only [Res.ok_bind]
  obtain ⟨o1, d1, d2, d3, d4⟩ := (addchar_exact 2 b2).2 (by rw [b3, b4]; simp)
  rw [d1]
  simp only [Res.ok_bind]
  obtain ⟨o2, e1, e2, e3, e4⟩ := (pushU16_exact t.len d2).2 (by rw [d4, d3, b4, b3]; simp)
  rw [e1]
  simp only [Res.ok_bind]
  obtain ⟨o3, f1, f2, f3, f4⟩ := (append_exact a2 e2).2 (by rw [e4, e3, d4, d3, b4, b3, a3]; simp; omega)
  refine ⟨o3, f1, f2, ?_⟩
  rw [f4, e4, d4, b3, a3, ← hl]
  simp [nameEntry, be16]

/-- The followed records without glue. -/
def bareOf (bs qs : List (List UInt8)) (ar : List Rec) (xs : List (Rec × Bool)) : List Rec :=
  (xs.filter fun x => decide (Followed bs qs x ∧ ¬ Glued ar x.1.target)).map Prod.fst

theorem gluelessLoop_exact {s : DwStr} (hs : Usable s) (junk : List UInt8) {bs qs : List (List UInt8)} {ar : List Rec} :
    ∀ {xs : List (Rec × Bool)} {cells : List (Nat × Nat)}, Sec s cells (xs.map Prod.fst) → ∀ {ms : List Int},
    List.Forall₂ (NsMark bs qs ar) xs ms → ∀ (out : DwStr) (offs : List Nat), Usable out → offs.length ≤ 31 →
    out.contents.length + ((bareOf bs qs ar xs).map nameEntry).flatten.length < out.max →
    (offs.length + (bareOf bs qs ar xs).length ≤ 31 →
      out.contents.length + ((bareOf bs qs ar xs).map nameEntry).flatten.length < 65536) →
    (offs.length + (bareOf bs qs ar xs).length ≤ 31 → ∃ out', gluelessLoop s junk (cells.zip ms) out offs =
        .ok (out', offs ++ place out.contents.length ((bareOf bs qs ar xs).map nameEntry)) ∧ Usable out' ∧
        out'.max = out.max ∧ out'.contents = out.contents ++ ((bareOf bs qs ar xs).map nameEntry).flatten) ∧
    (31 < offs.length + (bareOf bs qs ar xs).length → gluelessLoop s junk (cells.zip ms) out offs = .err) := by
  intro xs
  induction xs with
  | nil =>
    intro cells hc ms hm out offs ho h31 _ _
    cases hc
    cases hm
    constructor
    · intro _; exact ⟨out, by simp [gluelessLoop, bareOf, place], ho, rfl, by simp [bareOf]⟩
    · intro h; simp [bareOf] at h; omega
  | cons x xs ih =>
    intro cells hc ms hm out offs ho h31 hfit h64
    cases hc with
    | @cons c _ cells _ h hsec =>
    cases hm with
    | @cons _ m _ ms hm hms =>
    simp only [List.zip_cons_cons, gluelessLoop]
    have ih := ih hsec hms
    by_cases hg : m = 32
    · have hx := hm.bare.1 hg
      have e : bareOf bs qs ar (x :: xs) = x.1 :: bareOf bs qs ar xs := by
        unfold bareOf; rw [List.filter_cons, if_pos (decide_eq_true hx)]; rfl
      rw [e] at hfit h64 ⊢
      simp only [List.map_cons, List.flatten_cons, List.length_append, List.length_cons] at hfit h64 ⊢
      rw [if_pos hg, if_neg (by omega)]
      obtain ⟨t, a1, a2, a3⟩ := nsGlueless_exact hs h hx.1.2.2 junk
      rw [a1]
      simp only [Res.ok_bind]
      obtain ⟨o', b1, b2, b3, b4⟩ := (append_exact a2 ho).2 (by rw [a3]; omega)
      rw [b1]
      simp only [Res.ok_bind, List.length_nil, Nat.zero_add]
      by_cases h32 : offs.length + 1 > 31
      · rw [if_pos h32]
        constructor
        · intro c; omega
        · intro _; rfl
      · rw [if_neg h32]
        have hl : o'.contents.length = out.contents.length + (nameEntry x.1).length := by rw [b4, a3]; simp
        have ih := ih o' (offs ++ [out.len % 65536]) b2 (by simp; omega) (by rw [hl, b3]; omega)
          (by intro c; rw [hl]; simp only [List.length_append, List.length_singleton] at c; have := h64 (by omega); omega)
        simp only [List.length_append, List.length_singleton] at ih
        constructor
        · intro c
          obtain ⟨out', f1, f2, f3, f4⟩ := ih.1 (by omega)
          have := h64 c
          have hcl := ho.clen
          refine ⟨out', ?_, f2, by rw [f3, b3], ?_⟩
          · rw [f1, hl]
            simp only [place, List.append_assoc, List.singleton_append]
            rw [show out.len % 65536 = out.contents.length by omega]
          · rw [f4, b4, a3]; simp
        · intro c; exact ih.2 (by omega)
    · have e : bareOf bs qs ar (x :: xs) = bareOf bs qs ar xs := by
        unfold bareOf; rw [List.filter_cons, if_neg (by simpa using mt hm.bare.2 hg)]
      rw [e] at hfit h64 ⊢
      rw [if_neg hg]
      exact ih out offs ho h31 hfit h64

/-- The longest name, and of several the first. -/
def longestOf : List Rec → Option (List (List UInt8)) → Option (List (List UInt8))
  | [], z => z
  | r :: rs, z =>
    if (z.map fun n => (encName n).length).getD 0 < (encName r.name).length then longestOf rs (some r.name)
    else longestOf rs z

/-- The bytes of the name, if there is one. -/
def zoneBytes (z : Option (List (List UInt8))) : List UInt8 := (z.map encName).getD []

/-- The records whose name can become the name of the referral. -/
def candidates (bs qs : List (List UInt8)) (xs : List (Rec × Bool)) : List Rec :=
  (xs.filter fun x => decide ((x.1.type = 2 ∨ x.1.type = 6) ∧ (x.2 = true → Fit bs qs x.1))).map Prod.fst

theorem longest_exact {s : DwStr} (hs : Usable s) {bs qs : List (List UInt8)} {ar : List Rec} :
    ∀ {xs : List (Rec × Bool)} {cells : List (Nat × Nat)}, Sec s cells (xs.map Prod.fst) → ∀ {ms : List Int},
    List.Forall₂ (NsMark bs qs ar) xs ms → ∀ (z : Option (List (List UInt8))) (most at_ : Nat),
    most = (zoneBytes z).length → BytesAt s.mem at_ (zoneBytes z) → at_ ≤ s.contents.length →
    ∃ at', longest s (cells.zip ms) most at_ = .ok ((zoneBytes (longestOf (candidates bs qs xs) z)).length, at') ∧
      BytesAt s.mem at' (zoneBytes (longestOf (candidates bs qs xs) z)) ∧ at' ≤ s.contents.length := by
  intro xs
  induction xs with
  | nil =>
    intro cells hc ms hm z most at_ h1 h2 h3
    cases hc
    cases hm
    exact ⟨at_, by rw [h1]; rfl, h2, h3⟩
  | cons x xs ih =>
    intro cells hc ms hm z most at_ h1 h2 h3
    cases hc with
    | @cons c _ cells _ h hsec =>
    cases hm with
    | @cons _ m _ ms hm hms =>
    simp only [List.zip_cons_cons, longest]
    by_cases hout : m = 36 ∨ m = 37
    · have e : candidates bs qs (x :: xs) = candidates bs qs xs := by
        unfold candidates; rw [List.filter_cons, if_neg (by simpa using hm.out.1 hout)]
      rw [if_neg (by omega), e]
      exact ih hsec hms z most at_ h1 h2 h3
    · have e : candidates bs qs (x :: xs) = x.1 :: candidates bs qs xs := by
        have := mt hm.out.2 hout
        rw [not_not] at this
        unfold candidates; rw [List.filter_cons, if_pos (decide_eq_true this)]; rfl
      have he := getDnEnd_plain hs h.nameAt (nameOk_length h.plain.name)
      rw [if_pos (by omega), e, he]
      simp only [longestOf]
      have hz : (z.map fun n => (encName n).length).getD 0 = (zoneBytes z).length := by
        cases z <;> rfl
      rw [hz]
      by_cases hgt : (zoneBytes z).length < (encName x.1.name).length
      · rw [if_pos (by omega), if_pos hgt]
        have hb := h.bytes
        unfold RR.enc at hb
        simp only [List.append_assoc] at hb
        have hb := bytesAt_left hb
        refine ih hsec hms (some x.1.name) _ _ ?_ hb ?_
        · simp [zoneBytes]
        · have := at_bound hs hb (by show 0 < (encName x.1.name).length; omega); omega
      · rw [if_neg (by omega), if_neg hgt]
        exact ih hsec hms z most at_ h1 h2 h3

theorem glueLen_enough {T : List (List (List UInt8))} : ∀ {rs : List Rec} {ms : List Int},
    List.Forall₂ (ArMark T) rs ms → (∀ r ∈ glueOf T rs, AddrOk r) →
    ((glueOf T rs).map glueEntry).flatten.length + 2 * (glueOf T rs).length ≤ glueLen ms
  | _, _, .nil, _ => by simp [glueOf, glueLen]
  | _, _, .cons (a := r) (b := m) (l₁ := rs) (l₂ := ms) hm hms, ha => by
    have ih := glueLen_enough hms (fun x hx => ha x (by
      unfold glueOf at hx ⊢; rw [List.filter_cons]; split
      · exact List.mem_cons_of_mem _ hx
      · exact hx))
    simp only [glueLen]
    obtain ⟨g, g1, g28⟩ := hm.glue
    by_cases hg : isGlue m
    · have e : glueOf T (r :: rs) = r :: glueOf T rs := by
        unfold glueOf; rw [List.filter_cons, if_pos (g.1 hg)]
      rw [e] at ha ⊢
      simp only [List.map_cons, List.flatten_cons, List.length_append, List.length_cons, glueEntry]
      rcases hg with hg | hg
      · have := (ha r (by simp)).1 (g1 hg)
        rw [if_pos hg]; omega
      · have := (ha r (by simp)).2 (g28 hg)
        rw [if_neg (by omega), if_pos hg]; omega
    · have e : glueOf T (r :: rs) = glueOf T rs := by
        unfold glueOf; rw [List.filter_cons, if_neg (mt g.2 hg)]
      rw [e]
      omega

theorem gluelessLen_enough {s : DwStr} (hs : Usable s) {bs qs : List (List UInt8)} {ar : List Rec} :
    ∀ {xs : List (Rec × Bool)} {cells : List (Nat × Nat)}, Sec s cells (xs.map Prod.fst) → ∀ {ms : List Int},
    List.Forall₂ (NsMark bs qs ar) xs ms →
    ∃ n, gluelessLen s (cells.zip ms) = .ok n ∧
      ((bareOf bs qs ar xs).map nameEntry).flatten.length + 2 * (bareOf bs qs ar xs).length ≤ n ∧
      n ≤ 65600 * xs.length := by
  intro xs
  induction xs with
  | nil =>
    intro cells hc ms hm
    cases hc
    cases hm
    exact ⟨0, rfl, by simp [bareOf], by simp⟩
  | cons x xs ih =>
    intro cells hc ms hm
    cases hc with
    | @cons c _ cells _ h hsec =>
    cases hm with
    | @cons _ m _ ms hm hms =>
    obtain ⟨n, h1, h2, h3⟩ := ih hsec hms
    simp only [List.zip_cons_cons, gluelessLen, List.length_cons]
    by_cases hg : m = 32
    · have hx := hm.bare.1 hg
      have e : bareOf bs qs ar (x :: xs) = x.1 :: bareOf bs qs ar xs := by
        unfold bareOf; rw [List.filter_cons, if_pos (decide_eq_true hx)]; rfl
      rw [if_pos hg, e]
      have hf := fetchU16_at hs h.len h.plain.ok.size
      obtain ⟨-, r2, r3⟩ := oneName_form h.plain (.inl hx.1.2.2)
      have hpos : 0 < (encName x.1.target).length := by simp [encName]
      have hn := r3.2
      unfold fetchI
      rw [hf]
      simp only [Res.ok_bind]
      rw [if_neg (by rw [r2]; omega), h1]
      refine ⟨_, rfl, ?_, ?_⟩
      · simp only [List.map_cons, List.flatten_cons, List.length_append, List.length_cons, nameEntry, be16_length, r2,
          Int.toNat_natCast]
        omega
      · rw [r2, Int.toNat_natCast]; omega
    · have e : bareOf bs qs ar (x :: xs) = bareOf bs qs ar xs := by
        unfold bareOf; rw [List.filter_cons, if_neg (by simpa using mt hm.bare.2 hg)]
      rw [if_neg hg, e]
      exact ⟨n, h1, h2, by omega⟩

theorem glueLen_le : ∀ (ms : List Int), glueLen ms ≤ 20 * ms.length
  | [] => by simp [glueLen]
  | m :: ms => by
    have := glueLen_le ms
    simp only [glueLen, List.length_cons]
    split
    · omega
    · split <;> omega

theorem flatMap_be16_length (l : List Nat) : (l.flatMap be16).length = 2 * l.length := by
  induction l with
  | nil => rfl
  | cons o os ih => simp [be16_length, ih]; omega

theorem entries_short {es : List (List UInt8)} (h : ∀ e ∈ es, e.length ≤ 258) (hn : es.length ≤ 31) :
    es.flatten.length ≤ 8000 := by
  have : ∀ l : List (List UInt8), (∀ e ∈ l, e.length ≤ 258) → l.flatten.length ≤ 258 * l.length := by
    intro l
    induction l with
    | nil => simp
    | cons e l ih =>
      intro hh
      have h1 := hh e (by simp)
      have h2 := ih (fun x hx => hh x (by simp [hx]))
      simp only [List.flatten_cons, List.length_append, List.length_cons]
      omega
  have := this es h
  omega

theorem longestOf_mem : ∀ (rs : List Rec) (z : Option (List (List UInt8))) {n : List (List UInt8)},
    longestOf rs z = some n → z = some n ∨ ∃ r ∈ rs, r.name = n
  | [], z, n, h => .inl h
  | r :: rs, z, n, h => by
    simp only [longestOf] at h
    split at h
    · rcases longestOf_mem rs _ h with h | ⟨x, hx, e⟩
      · exact .inr ⟨r, by simp, by simpa using h⟩
      · exact .inr ⟨x, by simp [hx], e⟩
    · rcases longestOf_mem rs _ h with h | ⟨x, hx, e⟩
      · exact .inl h
      · exact .inr ⟨x, by simp [hx], e⟩

/-- Only the first `k` records can be without glue. -/
theorem gluelessLen_bound {s : DwStr} (hs : Usable s) {bs qs : List (List UInt8)} {ar : List Rec} :
    ∀ (k : Nat) {rs : List Rec} {cells : List (Nat × Nat)}, Sec s cells rs → ∀ {ms : List Int},
    List.Forall₂ (NsMark bs qs ar) (tag k rs) ms → ∀ {n : Nat},
    gluelessLen s (cells.zip ms) = .ok n → n ≤ 65600 * k := by
  intro k
  induction k with
  | zero =>
    intro rs
    induction rs with
    | nil =>
      intro cells hc ms hm n hn
      cases hc
      simp [gluelessLen] at hn
      omega
    | cons r rs ih =>
      intro cells hc ms hm n hn
      cases hc with
      | @cons c _ cells _ h hsec =>
      simp only [tag, List.map_cons] at hm
      cases hm with
      | @cons _ m _ ms hm hms =>
      have : m ≠ 32 := by
        intro hc
        have := (hm.bare.1 hc).1.1
        simp at this
      simp only [List.zip_cons_cons, gluelessLen, if_neg this] at hn
      exact ih hsec hms hn
  | succ k ih =>
    intro rs cells hc ms hm n hn
    cases hc with
    | nil => simp [gluelessLen] at hn; omega
    | @cons c r cells rs h hsec =>
      simp only [tag] at hm
      cases hm with
      | @cons _ m _ ms hm hms =>
      simp only [List.zip_cons_cons, gluelessLen] at hn
      split at hn
      · have hf := fetchU16_at hs h.len h.plain.ok.size
        unfold fetchI at hn
        rw [hf] at hn
        simp only [Res.ok_bind] at hn
        split at hn
        · cases hn
        · cases hg : gluelessLen s (cells.zip ms) with
          | ok n' =>
            rw [hg] at hn
            simp only [Res.ok_bind, Res.ok.injEq] at hn
            have := ih hsec hms hg
            have := h.plain.ok.size
            omega
          | err => rw [hg] at hn; cases hn
          | ub => rw [hg] at hn; cases hn
      · have := ih hsec hms hn
        omega

/-- What `dwx_make_ns_refer` makes of the records. -/
theorem nsRefer_exact {inp : DwStr} {p : Answers} (hr : Reply inp p) {look : DnsStr} (hv : Views inp p look)
    {bs qs : List (List UInt8)} {an nsM arM : List Int} {T : List (List (List UInt8))}
    (hns : List.Forall₂ (NsMark bs qs p.ar) (tag 15 p.ns) nsM) (har : List.Forall₂ (ArMark T) p.ar arM)
    (ha : ∀ r ∈ glueOf T p.ar, AddrOk r) (junk : List UInt8)
    (es : List (List UInt8)) (hes : es = (glueOf T p.ar).map glueEntry ++ (bareOf bs qs p.ar (tag 15 p.ns)).map nameEntry) :
    (es.length ≤ 31 → ∃ o, nsRefer ⟨look, an, nsM, arM⟩ junk = .ok o ∧ Usable o ∧
      o.contents = referral (zoneBytes (longestOf (candidates bs qs (tag 15 p.ns)) none)) es) ∧
    (31 < es.length → nsRefer ⟨look, an, nsM, arM⟩ junk = .err) := by
  have hs := hv.packet
  have hsec : Sec look.packet look.ns ((tag 15 p.ns).map Prod.fst) := by rw [tag_fst]; exact hv.ns'
  obtain ⟨n, n1, n2, n3⟩ := gluelessLen_enough hs hsec hns
  have g1 := glueLen_enough har ha
  have g2 := glueLen_le arM
  have hcnt := count_le (p.all.map Rec.toRR)
  have hsz := hr.size
  rw [List.length_map] at hcnt
  have hcall : p.all.length = p.an.length + p.ns.length + p.ar.length := by simp [Answers.all]; omega
  have htl : (tag 15 p.ns).length = p.ns.length := by rw [← List.length_map (f := Prod.fst), tag_fst]
  have hal : arM.length = p.ar.length := har.length_eq.symm
  have hnb : n ≤ 65600 * 15 := gluelessLen_bound hs 15 hv.ns' hns n1
  generalize hz : longestOf (candidates bs qs (tag 15 p.ns)) none = z
  have hzl : (zoneBytes z).length ≤ 255 := by
    cases hzz : z with
    | none => simp [zoneBytes]
    | some nm =>
      rw [hzz] at hz
      rcases longestOf_mem _ _ hz with h | ⟨r, hr', rfl⟩
      · cases h
      · unfold candidates at hr'
        obtain ⟨x, hx, rfl⟩ := List.mem_map.1 hr'
        have hx := (List.mem_filter.1 hx).1
        have : x.1 ∈ p.ns := by rw [← tag_fst 15 p.ns]; exact List.mem_map.2 ⟨x, hx, rfl⟩
        have := (hr.recs x.1 (by simp [Answers.all, this])).name.2
        simpa [zoneBytes] using this
  unfold nsRefer
  simp only
  rw [n1]
  simp only [Res.ok_bind]
  have hlen : look.packet.contents.length = sizes (p.all.map Rec.toRR) + p.all.length * 4 + 7 := by
    rw [hv.same, hr.contents, hr.packed.enc_length, packed_all]; simp
  have hhead : (look.ns.headD (0, 0)).1 ≤ look.packet.contents.length := by
    have : ∀ {cells : List (Nat × Nat)} {rs : List Rec}, Sec look.packet cells rs →
        (cells.headD (0, 0)).1 ≤ look.packet.contents.length := by
      intro cells rs hc
      cases hc with
      | nil => simp
      | cons h _ =>
        have := at_bound hs h.bytes (rr_pos h.plain.ok)
        simp only [List.headD_cons]
        omega
    exact this hv.ns'
  obtain ⟨at', l1, l2, l3⟩ := longest_exact hs hsec hns none 0 (look.ns.headD (0, 0)).1 rfl
    (fun j hj => absurd hj (by simp [zoneBytes])) hhead
  rw [hz] at l1 l2
  unfold nsReferProc findReferral
  simp only
  rw [l1]
  simp only [Res.ok_bind]
  have hbound : at' + (zoneBytes z).length ≤ look.packet.contents.length := by
    by_cases h0 : 0 < (zoneBytes z).length
    · exact at_bound hs l2 h0
    · omega
  obtain ⟨o0, a1, a2, a3, a4⟩ := substr_in hs at' (zoneBytes z).length (glueLen arM + n + 3) junk hbound (by omega)
  rw [bytes_of_at hs l2] at a4
  rw [a1]
  simp only [Res.ok_bind]
  have hglue258 : ∀ e ∈ (glueOf T p.ar).map glueEntry, e.length ≤ 258 := by
    intro e he
    obtain ⟨r, hrg, rfl⟩ := List.mem_map.1 he
    have hr' := List.mem_filter.1 hrg
    have hadd := ha r hrg
    have : r.isAddr = true := by have := hr'.2; simp only [Bool.and_eq_true] at this; exact this.1
    rcases (isAddr_iff r).1 this with h | h
    · have := hadd.1 h; simp only [glueEntry, List.length_cons]; omega
    · have := hadd.2 h; simp only [glueEntry, List.length_cons]; omega
  have hbare258 : ∀ e ∈ (bareOf bs qs p.ar (tag 15 p.ns)).map nameEntry, e.length ≤ 258 := by
    intro e he
    obtain ⟨r, hr', rfl⟩ := List.mem_map.1 he
    obtain ⟨x, hx, rfl⟩ := List.mem_map.1 hr'
    have hx := List.mem_filter.1 hx
    have hm : x.1 ∈ p.ns := by rw [← tag_fst 15 p.ns]; exact List.mem_map.2 ⟨x, hx.1, rfl⟩
    have := of_decide_eq_true hx.2
    have := (oneName_form (hr.recs x.1 (by simp [Answers.all, hm])) (.inl this.1.2.2)).2.2.2
    simp only [nameEntry, List.length_cons, List.length_append, be16_length]
    omega
  have hel : es.length = (glueOf T p.ar).length + (bareOf bs qs p.ar (tag 15 p.ns)).length := by
    rw [hes]; simp
  have X := gluedLoop_exact hs junk hv.ar' har ha o0 [] a2 (by simp) (by rw [a4, a3]; omega)
    (by
      intro c
      have := entries_short hglue258 (by simpa using c)
      rw [a4]; omega)
  by_cases hg31 : 31 < (glueOf T p.ar).length
  · constructor
    · intro c; omega
    · intro _
      rw [X.2 (by simpa using hg31)]
      rfl
  obtain ⟨o1, b1, b2, b3, b4⟩ := X.1 (by simpa using hg31)
  rw [b1]
  simp only [Res.ok_bind]
  have hl1 : o1.contents.length = (zoneBytes z).length + ((glueOf T p.ar).map glueEntry).flatten.length := by
    rw [b4, a4]; simp
  have hge := entries_short hglue258 (by simpa using hg31)
  have Y := gluelessLoop_exact hs junk hsec hns o1 ([] ++ place o0.contents.length ((glueOf T p.ar).map glueEntry)) b2
    (by rw [List.nil_append, place_length]; simp; omega) (by rw [hl1, b3, a3]; omega)
    (by
      intro c
      rw [List.nil_append, place_length, List.length_map] at c
      have := entries_short hbare258 (by simp; omega)
      rw [hl1]; omega)
  rw [List.nil_append, place_length, List.length_map] at Y
  constructor
  swap
  · intro c
    rw [List.nil_append, Y.2 (by omega)]
    rfl
  intro c
  obtain ⟨o2, d1, d2, d3, d4⟩ := Y.1 (by omega)
  rw [List.nil_append, d1]
  simp only [Res.ok_bind]
  have hl2 : o2.contents.length = o1.contents.length + ((bareOf bs qs p.ar (tag 15 p.ns)).map nameEntry).flatten.length := by
    rw [d4]; simp
  have hoffs : place o0.contents.length ((glueOf T p.ar).map glueEntry) ++
      place o1.contents.length ((bareOf bs qs p.ar (tag 15 p.ns)).map nameEntry) = place (zoneBytes z).length es := by
    rw [hes, place_append, a4, hl1]
  rw [hoffs]
  have hmax : o2.max = (zoneBytes z).length + (glueLen arM + n + 3) + 1 := by rw [d3, b3, a3]
  obtain ⟨o3, f1, f2, f3, f4⟩ := pushAll_exact (place (zoneBytes z).length es) d2
    (by rw [place_length, hel, hmax, hl2, hl1]; omega)
  rw [f1]
  simp only [Res.ok_bind]
  have hl3 : o3.contents.length = o2.contents.length + 2 * es.length := by
    rw [f4, List.length_append, flatMap_be16_length, place_length]
  rw [place_length]
  obtain ⟨o4, i1, i2, i3, i4⟩ := (addchar_exact (UInt8.ofNat es.length) f2).2
    (by rw [f3, hmax, hl3, hl2, hl1, hel]; omega)
  rw [i1]
  simp only [Res.ok_bind]
  obtain ⟨o5, j1, j2, j3, j4⟩ := (addchar_exact 16 i2).2
    (by rw [i3, f3, hmax, i4, List.length_append, hl3, hl2, hl1, hel]; simp only [List.length_singleton]; omega)
  refine ⟨o5, j1, j2, ?_⟩
  rw [j4, i4, f4, d4, b4, a4]
  unfold referral
  have hfl : es.flatten = ((glueOf T p.ar).map glueEntry).flatten ++
      ((bareOf bs qs p.ar (tag 15 p.ns)).map nameEntry).flatten := by rw [hes]; simp
  rw [hfl]
  simp

end Dissect
end Dw
